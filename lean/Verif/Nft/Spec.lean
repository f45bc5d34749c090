import Verif.Nft.Model

/-!
# NFT staking: vocabulary of the property statements
-/

namespace Verif.Nft
open Verif
open Verif.Staking (Duration ReleaseAt)

/-- The message and its sub-messages succeed. -/
def accepted (s : State) (c : Call) : Prop :=
  c.delivered = true ∧ ∃ r, exec s c.env c.msg = .ok r

instance (s : State) (c : Call) : Decidable (accepted s c) := by
  unfold accepted
  cases exec s c.env c.msg with
  | ok r => exact decidable_of_iff (c.delivered = true) ⟨fun h => ⟨h, r, rfl⟩, fun h => h.1⟩
  | error e => exact isFalse (by rintro ⟨_, r, h⟩; cases h)

/-- States of an NFT staking contract after any history. -/
def Reachable (s : State) : Prop :=
  ∃ b nft unlocking hooks byHeight bySeconds h, s = run (init b nft unlocking hooks byHeight bySeconds) h

/-- `a` is the collection of the DAO: the stored one, or the one that the stored ICS721 proxy names. -/
def IsNft (s : State) (proxyNft : Option Addr) (a : Addr) : Prop :=
  s.nft = .cw721 a ∨ (∃ p, s.nft = .ics721 p) ∧ proxyNft = some a

theorem isNft_iff {s : State} {proxyNft : Option Addr} {a : Addr} :
    IsNft s proxyNft a ↔ nftContract s proxyNft = some a := by
  unfold IsNft nftContract
  cases s.nft <;> simp

/-- Number of NFTs staked by `u`. -/
def stakedBy (s : State) (u : Addr) : Nat := (s.stakes.entries.filter (fun e => decide (e.2 = u))).length

/-- Number of staked NFTs. -/
def stakedCount (s : State) : Nat := s.stakes.entries.length

/-- The claim belongs to `u` and its release height or time is reached in block `b`. -/
def Due (u : Addr) (b : Block) (c : Claim) : Prop :=
  c.user = u ∧ ((∃ h, c.release = .height h ∧ h ≤ b.height) ∨ (∃ t, c.release = .timestamp t ∧ t ≤ b.time))

instance (u : Addr) (b : Block) (c : Claim) : Decidable (Due u b c) := by
  unfold Due
  cases c.release with
  | height h => exact decidable_of_iff (c.user = u ∧ h ≤ b.height) (by simp)
  | timestamp t => exact decidable_of_iff (c.user = u ∧ t ≤ b.time) (by simp)

/-- How often token `t` is owed to someone: as a stake, or in a claim. -/
def owed (s : State) (t : Nat) : Nat :=
  (if s.stakes.has t then 1 else 0) + s.claims.sum (fun _ c => c.nfts.count t)

/-- The message announces the arrival of token `t`. -/
def Msg.brings (t : Nat) : Msg → Bool
  | .receiveNft t' _ => decide (t' = t)
  | _ => false

/-- The sub-message sends token `t` away. -/
def returns (t : Nat) : Out → Bool
  | .sendNft _ t' => decide (t' = t)
  | _ => false

/-- NFTs the contract has accepted and not sent back, before a message (`held`) and after it. -/
def heldAfter (s : State) (held : Nat → Bool) (c : Call) (t : Nat) : Bool :=
  ((decide (accepted s c) && c.msg.brings t) || held t) && !((step s c).2.any (returns t))

/-- NFTs the contract has accepted and not sent back after a history. -/
def custody (s : State) (held : Nat → Bool) : List Call → (Nat → Bool)
  | [] => held
  | c :: t => custody (step s c).1 (heldAfter s held c) t

/-- The NFT contract transfers ownership: it only announces the arrival of a token that the staking contract does not
hold yet. -/
def Honest (s : State) (held : Nat → Bool) : List Call → Prop
  | [] => True
  | c :: t => (∀ tok h, c.msg = .receiveNft tok h → accepted s c → held tok = false) ∧
      Honest (step s c).1 (heldAfter s held c) t

end Verif.Nft
