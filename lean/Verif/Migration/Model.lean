import Verif.Staking.Model

/-!
# Model of the staged migration of old DAOs (contracts/enterprise-treasury/src/migration.rs)

Stakes and claims kept by the treasury of an old DAO are moved, in batches, to the membership contract.
-/

namespace Verif.Migration
open Verif
open Verif.Staking (ReleaseAt UserClaim)

/-- `DaoType` (enterprise-protocol/src/api.rs). -/
inductive DaoType
  | denom | token | nft | multisig
  deriving DecidableEq

/-- `ClaimAsset`, migration.rs 43-57: an amount of tokens, or NFTs. -/
inductive ClaimAsset
  | cw20 (amount : Nat)
  | cw721 (tokens : List Nat)
  deriving DecidableEq

/-- `Claim`, migration.rs 37-41. -/
structure Claim where
  asset : ClaimAsset
  release : ReleaseAt
  deriving DecidableEq

/-- `MigrationStage`, migration_stages.rs 6-14. -/
inductive Stage
  | notStarted | inProgress | completed
  deriving DecidableEq

/-- Storage used by the migration: `CW20_STAKES` (staking.rs 4), `NFT_STAKES` (nft_staking.rs 24-34, token to staker),
`CLAIMS`, `MULTISIG_MEMBERS`, `DAO_TYPE`, the membership contract in `MIGRATION_INFO` (migration.rs 29-69),
`MIGRATED_USER_WEIGHTS` (migration_copy_storage.rs 6), and the stage (migration_stages.rs 4; absent is
`notStarted`, migration.rs 401-403). -/
structure State where
  dao : DaoType
  stakes : Map Addr Nat
  nftStakes : Map Nat Addr
  claims : Map Addr (List Claim)
  members : Map Addr Nat
  migrated : Map Addr Nat
  stage : Stage
  membership : Option Addr
  deriving DecidableEq

/-- Messages to the membership contract: token transfers with `AddStakes` and `AddClaims` (token-staking), NFT transfers
with `Stake` and `AddClaim` (nft-staking). -/
inductive Out
  | addStakes (total : Nat) (stakers : List (Addr × Nat))
  | addClaims (total : Nat) (claims : List UserClaim)
  | stakeNft (nft : Nat) (user : Addr)
  | addNftClaim (nft : Nat) (user : Addr) (release : ReleaseAt)
  deriving DecidableEq

/-- The message of a batch of stakes, migration.rs 195-210: none when the amounts sum to zero. -/
def stakesMsg (total : Nat) (l : List (Addr × Nat)) : List Out := if total = 0 then [] else [.addStakes total l]

/-- One entry of a batch of stakes, migration.rs 190-193. -/
def moveStake (s : State) (e : Addr × Nat) : State :=
  { s with stakes := s.stakes.remove e.1, migrated := s.migrated.set e.1 e.2 }

/-- `migrate_and_clear_cw20_stakes_submsg`, migration.rs 164-211; gives also the number of items consumed.
The sum `Uint128 +=` panics on overflow. -/
def moveStakes (s : State) (limit : Nat) : Except Err (State × List Out × Nat) := do
  let batch := s.stakes.entries.take limit
  let total ← batch.foldlM (fun t e => cadd128 t e.2) 0
  return (batch.foldl moveStake s, stakesMsg total batch, batch.length)

/-- Accumulators of the loops of `migrate_and_clear_cw20_claims_submsg`: sum, number of claims (a u32, below the
limit when increased, so it does not wrap), claims to send, and either the claims that remain of a user or the
entries to replace. -/
structure Acc (R : Type) where
  total : Nat
  included : Nat
  sent : List UserClaim
  keep : List R

/-- Innermost loop, migration.rs 240-253. -/
def takeClaim (limit : Nat) (user : Addr) (x : Acc Claim) (c : Claim) : Except Err (Acc Claim) :=
  match c.asset with
  | .cw20 a =>
    if x.included < limit then do
      let t ← cadd128 x.total a
      return { x with total := t, included := x.included + 1, sent := x.sent ++ [⟨user, a, c.release⟩] }
    else .ok { x with keep := x.keep ++ [c] }
  | .cw721 _ => .ok { x with keep := x.keep ++ [c] }

/-- Loop over users, migration.rs 228-256. The `break` of 232-234 is a round that does nothing, as the following
rounds then do nothing too. -/
def takeUser (limit : Nat) (x : Acc (Addr × List Claim)) (e : Addr × List Claim) :
    Except Err (Acc (Addr × List Claim)) :=
  if limit ≤ x.included then .ok x else do
    let r ← e.2.foldlM (takeClaim limit e.1) ⟨x.total, x.included, x.sent, []⟩
    return ⟨r.total, r.included, r.sent, x.keep ++ [(e.1, r.keep)]⟩

/-- Replacement of the claims of a user, migration.rs 258-264. -/
def replaceOne (m : Map Addr (List Claim)) (e : Addr × List Claim) : Map Addr (List Claim) :=
  if e.2 = [] then m.remove e.1 else m.set e.1 e.2

/-- The `while` loop of `migrate_and_clear_cw20_claims_submsg`, migration.rs 225-265. `gas` bounds the number of
rounds: running out of gas is an error, as on chain. -/
def claimLoop (limit : Nat) : Nat → Map Addr (List Claim) → Nat → Nat → List UserClaim →
    Except Err (Map Addr (List Claim) × Nat × Nat × List UserClaim)
  | 0, _, _, _, _ => .error .panic
  | g + 1, m, total, included, sent =>
    if included < limit ∧ m.entries ≠ [] then do
      let r ← (m.entries.take limit).foldlM (takeUser limit) ⟨total, included, sent, []⟩
      claimLoop limit g (r.keep.foldl replaceOne m) r.total r.included r.sent
    else .ok (m, total, included, sent)

/-- The message of a batch of claims, migration.rs 269-291: none when the amounts sum to zero. -/
def claimsMsg (total : Nat) (l : List UserClaim) : List Out := if total = 0 then [] else [.addClaims total l]

/-- `migrate_and_clear_cw20_claims_submsg`, migration.rs 213-292. -/
def moveClaims (gas : Nat) (s : State) (limit : Nat) : Except Err (State × List Out × Nat) := do
  let (m, total, included, sent) ← claimLoop limit gas s.claims 0 0 []
  return ({ s with claims := m }, claimsMsg total sent, included)

/-- One NFT of a batch, migration.rs 327-338; `checked_add` of one. -/
def moveNft (s : State) (e : Nat × Addr) : Except Err State := do
  let w ← cadd128 ((s.migrated.get e.2).getD 0) 1
  return { s with nftStakes := s.nftStakes.remove e.1, migrated := s.migrated.set e.2 w }

/-- `migrate_and_clear_cw721_stakes_submsgs`, migration.rs 294-341. -/
def moveNfts (s : State) (limit : Nat) : Except Err (State × List Out) := do
  let batch := s.nftStakes.entries.take limit
  let s' ← batch.foldlM moveNft s
  return (s', batch.map (fun e => .stakeNft e.1 e.2))

/-- Messages for a claim of a user, migration.rs 362-384: token claims are skipped. -/
def nftClaimMsgs (user : Addr) (c : Claim) : List Out :=
  match c.asset with
  | .cw20 _ => []
  | .cw721 l => l.map (fun t => .addNftClaim t user c.release)

/-- The `while` loop of `migrate_and_clear_cw721_claims_submsgs`, migration.rs 353-392, with gas as in `claimLoop`. The
number of NFTs is not wrapped to 32 bits: no transaction sends 2^32 messages. -/
def nftClaimLoop (limit : Nat) : Nat → Map Addr (List Claim) → List Out →
    Except Err (Map Addr (List Claim) × List Out)
  | 0, _, _ => .error .panic
  | g + 1, m, sent =>
    if sent.length < limit ∧ m.entries ≠ [] then
      let batch := m.entries.take limit
      nftClaimLoop limit g (batch.foldl (fun m e => m.remove e.1) m)
        (sent ++ batch.flatMap (fun e => e.2.flatMap (nftClaimMsgs e.1)))
    else .ok (m, sent)

/-- `migrate_and_clear_cw721_claims_submsgs`, migration.rs 343-395. -/
def moveNftClaims (gas : Nat) (s : State) (limit : Nat) : Except Err (State × List Out) := do
  let (m, sent) ← nftClaimLoop limit gas s.claims []
  return ({ s with claims := m }, sent)

/-- `finalize_membership_contract_submsgs`, migration.rs 78-162. -/
def finalize (gas : Nat) (s : State) (limit : Nat) : Except Err (State × List Out × Nat) :=
  match s.dao with
  | .denom => .error .unsupported
  | .token => do
    let (s1, o1, n1) ← moveStakes s limit
    let (s2, o2, n2) ← moveClaims gas s1 (limit - n1)
    return (s2, o1 ++ o2, n1 + n2)
  | .nft => do
    let (s1, o1) ← moveNfts s limit
    let (s2, o2) ← moveNftClaims gas s1 (limit - o1.length)
    return (s2, o1 ++ o2, (o1 ++ o2).length)
  | .multisig => .ok (s, [], 0)

/-- Default batch size, migration.rs 26-27 and 440-443. -/
def limitOf (d : DaoType) (l : Option Nat) : Nat :=
  l.getD (match d with
    | .nft => 20
    | _ => 100)

/-- `perform_next_migration_step_safe`, migration.rs 426-459. -/
def performSafe (gas : Nat) (s : State) (l : Option Nat) : Except Err (State × List Out) :=
  match s.membership with
  | none => .error .other
  | some _ => do
    let (s1, outs, n) ← finalize gas s (limitOf s.dao l)
    return ({ s1 with stage := if n < limitOf s.dao l then .completed else .inProgress }, outs)

/-- `query_has_unmoved_stakes_or_claims`, contract.rs 386-408. -/
def hasUnmoved (s : State) : Bool :=
  !s.stakes.entries.isEmpty || !s.nftStakes.entries.isEmpty || !s.claims.entries.isEmpty

/-- `perform_next_migration_step`, migration.rs 397-424: no check of the sender. -/
def perform (gas : Nat) (s : State) (l : Option Nat) : Except Err (State × List Out) :=
  match s.stage with
  | .notStarted => .error .invalidArgument
  | .inProgress => performSafe gas s l
  | .completed => if hasUnmoved s then performSafe gas s l else .error .invalidArgument

/-- A migration step: batch size, gas, and whether its sub-messages succeed. -/
structure Call where
  limit : Option Nat
  gas : Nat
  delivered : Bool

/-- A step takes effect when it and its sub-messages succeed; otherwise everything is reverted. -/
def step (s : State) (c : Call) : State × List Out :=
  match perform c.gas s c.limit with
  | .ok r => if c.delivered then r else (s, [])
  | .error _ => (s, [])

/-- State after a history. -/
def run (s : State) : List Call → State
  | [] => s
  | c :: t => run (step s c).1 t

/-- Messages sent by a history. -/
def sent (s : State) : List Call → List Out
  | [] => []
  | c :: t => (step s c).2 ++ sent (step s c).1 t

/-- `load_pre_migration_user_weight`, migration.rs 476-492, with `load_all_nft_stakes_for_user`, nft_staking.rs 36-49 (the
index by staker lists the stakes of the staker). -/
def preWeight (s : State) (u : Addr) : Except Err (Option Nat) :=
  match s.dao with
  | .denom => .error .unsupported
  | .token => .ok (s.stakes.get u)
  | .nft =>
    let n := (s.nftStakes.entries.filter (fun e => e.2 = u)).length
    .ok (if n = 0 then none else some n)
  | .multisig => .ok (s.members.get u)

/-- `query_user_weight`, contract.rs 338-353. -/
def queryWeight (s : State) (u : Addr) : Except Err Nat := do
  let p ← preWeight s u
  cadd128 (p.getD 0) ((s.migrated.get u).getD 0)

/-- `query_has_incomplete_v2_migration`, contract.rs 368-384. -/
def hasIncomplete (s : State) : Bool := decide (s.stage = .inProgress)

end Verif.Migration
