import Verif.Migration.Model

/-!
# Migration: vocabulary of the property statements
-/

namespace Verif.Migration
open Verif
open Verif.Staking (ReleaseAt UserClaim)

/-- Stakes announced to the membership contract by a message. -/
def stakesIn : Out → List (Addr × Nat)
  | .addStakes _ l => l
  | _ => []

/-- Token claims announced by a message. -/
def claimsIn : Out → List UserClaim
  | .addClaims _ l => l
  | _ => []

/-- NFTs sent as stakes, with the user credited. -/
def nftsIn : Out → List (Nat × Addr)
  | .stakeNft t u => [(t, u)]
  | _ => []

/-- NFTs sent as claims: user, NFT and release. -/
def nftClaimsIn : Out → List (Addr × Nat × ReleaseAt)
  | .addNftClaim t u r => [(u, t, r)]
  | _ => []

/-- Tokens sent by a message. -/
def tokensOf : Out → Nat
  | .addStakes n _ => n
  | .addClaims n _ => n
  | _ => 0

/-- Token claims of a user's list of claims. -/
def tokenClaims (u : Addr) (l : List Claim) : List UserClaim :=
  l.flatMap (fun c => match c.asset with
    | .cw20 a => [⟨u, a, c.release⟩]
    | .cw721 _ => [])

/-- NFT claims of a user's list of claims. -/
def nftClaims (u : Addr) (l : List Claim) : List (Addr × Nat × ReleaseAt) :=
  l.flatMap (fun c => match c.asset with
    | .cw20 _ => []
    | .cw721 ts => ts.map (fun t => (u, t, c.release)))

/-- All token claims kept by the treasury. -/
def owedTokens (s : State) : List UserClaim := s.claims.entries.flatMap (fun e => tokenClaims e.1 e.2)

/-- All NFT claims kept by the treasury. -/
def owedNfts (s : State) : List (Addr × Nat × ReleaseAt) := s.claims.entries.flatMap (fun e => nftClaims e.1 e.2)

/-- Stakes of a nonzero amount. -/
def nonzeroStakes (l : List (Addr × Nat)) : List (Addr × Nat) := l.filter (fun e => e.2 ≠ 0)

/-- Claims of a nonzero amount. -/
def nonzeroClaims (l : List UserClaim) : List UserClaim := l.filter (fun c => c.amount ≠ 0)

/-- All claims are for tokens. -/
def TokenClaimsOnly (s : State) : Prop := ∀ u l, s.claims.get u = some l → ∀ c ∈ l, ∃ a, c.asset = .cw20 a

/-- A treasury whose migration is about to start: no weight was moved yet. -/
def Start (s : State) : Prop := s.migrated = Map.empty

instance (s : State) : Decidable (Start s) := by unfold Start; infer_instance

end Verif.Migration
