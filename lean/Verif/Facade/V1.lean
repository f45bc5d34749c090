import Verif.Facade.Model

/-!
# The facade of DAOs from before the rewrite (contracts/enterprise-facade-v1/src/facade_v1.rs)

Queries that are passed on without change (members, whitelists, votes, stakes, claims: lines 131-161, 220-276) are not
modelled: their answers are those of the DAO's contract, which is not in the repository.
-/

namespace Verif.Facade
open Verif
open Verif.Controller (DaoType Proposal PStatus)
open Verif.Versioning (ver)

/-- The legacy DAO at an address. -/
def legacyAt (c : Chain) (a : Addr) : Except Err Legacy :=
  match c a with
  | some (.legacy d) => .ok d
  | _ => .error .other

/-- `query_treasury_address`, facade_v1.rs 62-69. -/
def treasuryAddress1 (a : Addr) : Addr := a

/-- `query_dao_info`, facade_v1.rs 71-108. -/
def daoInfo1 (c : Chain) (a : Addr) : Except Err DaoInfo := do
  let d ← legacyInfo c a
  return { created := d.created, metadata := d.metadata, config := d.config.facade, council := d.council,
           daoType := d.daoType, membership := .contract d.membership, factory := d.factory,
           distributor := d.distributor, code := d.code, version := ver 0 d.code 0 }

/-- `query_proposal`, facade_v1.rs 163-176. -/
def proposal1 (b : Block) (c : Chain) (a : Addr) (id : Nat) : Except Err FResponse := do
  let d ← legacyAt c a
  let r ← orFail (d.proposal id)
  let i ← daoInfo1 c a
  fixResponse b r.convert i.config

/-- The loop of `query_proposals`, facade_v1.rs 188-194. -/
def fixAll (b : Block) (k : FacadeConfig) : List LResponse → Except Err (List FResponse)
  | [] => .ok []
  | r :: t => do
    let x ← fixResponse b r.convert k
    let l ← fixAll b k t
    return x :: l

/-- `query_proposals`, facade_v1.rs 178-199. -/
def proposals1 (b : Block) (c : Chain) (a : Addr) (filter : Option Gov.StatusFilter) (after limit : Option Nat) :
    Except Err (List FResponse) := do
  let d ← legacyAt c a
  let l ← orFail (d.proposals filter after limit)
  let i ← daoInfo1 c a
  fixAll b i.config l

/-- `query_proposal_status` (the status), facade_v1.rs 201-218. -/
def proposalStatus1 (b : Block) (c : Chain) (a : Addr) (id : Nat) : Except Err PStatus := do
  let r ← proposal1 b c a id
  return r.status

/-- `query_cross_chain_treasuries`, `query_has_incomplete_v2_migration`, `query_has_unmoved_stakes_or_claims` and
`query_v2_migration_stage`, facade_v1.rs 278-312. -/
def migration1 : List (Nat × Nat) × Bool × Bool × Migration.Stage := ([], false, false, .notStarted)

/-- Contents of the messages for a legacy DAO: `ExecuteV1Msg`, `Cw20HookV1Msg`, `Cw721HookV1Msg`, v1_structs.rs 356-380,
494-504, and those for the cw20 or NFT contract. -/
inductive Call1
  | createProposal (p : LProposal)
  | createCouncil (p : LProposal)
  | castVote (id : Nat) (o : Gov.Outcome)
  | castCouncilVote (id : Nat) (o : Gov.Outcome)
  | execute (id : Nat)
  | unstakeCw20 (amount : Nat)
  | unstakeCw721 (tokens : List Nat)
  | claim
  | sendProposal (contract : Addr) (amount : Nat) (p : LProposal)
  | sendStake (contract : Addr) (amount : Nat)
  | sendNft (contract : Addr) (token : Nat)
  deriving DecidableEq

/-- A message: the target and its content; no funds are attached. -/
abbrev Adapted1 := Addr × Call1

/-- The answers of the versioning contract at an address (`ENTERPRISE_VERSIONING`). -/
def registryAt (c : Chain) (a : Addr) (v : Versioning.Version) : Option Versioning.Info :=
  match c a with
  | some (.versioning s) => (Versioning.queryVersion s v).toOption
  | _ => none

/-- `adapt_create_proposal`, facade_v1.rs 314-326; `r` is the versioning contract. -/
def adaptCreate1 (c : Chain) (r a : Addr) (p : Proposal) : Except Err (List Adapted1) := do
  let m ← toLegacyMsg (registryAt c r) p
  return [(a, .createProposal m)]

/-- `adapt_create_proposal_with_denom_deposit` and `adapt_create_proposal_with_nft_deposit`, facade_v1.rs 328-334,
364-370. -/
def adaptDeposit1 : Except Err (List Adapted1) := .error .unsupported

/-- `adapt_create_proposal_with_token_deposit`, facade_v1.rs 336-362. -/
def adaptTokenDeposit1 (c : Chain) (r a : Addr) (p : Proposal) (amount : Nat) : Except Err (List Adapted1) := do
  let d ← legacyInfo c a
  match d.daoType with
  | .token => do
    let m ← toLegacyMsg (registryAt c r) p
    return [(d.membership, .sendProposal a amount m)]
  | _ => .error .unsupported

/-- `adapt_create_council_proposal`, facade_v1.rs 372-384. -/
def adaptCouncil1 (c : Chain) (r a : Addr) (p : Proposal) : Except Err (List Adapted1) := do
  let m ← toLegacyMsg (registryAt c r) p
  return [(a, .createCouncil m)]

/-- `adapt_cast_vote`, facade_v1.rs 386-396. -/
def adaptVote1 (a : Addr) (id : Nat) (o : Gov.Outcome) : List Adapted1 := [(a, .castVote id o)]

/-- `adapt_cast_council_vote`, facade_v1.rs 398-408. -/
def adaptCouncilVote1 (a : Addr) (id : Nat) (o : Gov.Outcome) : List Adapted1 := [(a, .castCouncilVote id o)]

/-- `adapt_execute_proposal`, facade_v1.rs 410-420. -/
def adaptExecute1 (a : Addr) (id : Nat) : List Adapted1 := [(a, .execute id)]

/-- `adapt_stake`, facade_v1.rs 422-470. -/
def adaptStake1 (c : Chain) (a : Addr) : StakeReq → Except Err (List Adapted1)
  | .cw20 _ n => do
    let d ← legacyInfo c a
    return [(d.membership, .sendStake a n)]
  | .cw721 _ l => do
    let d ← legacyInfo c a
    return l.map (fun t => (d.membership, .sendNft a t))
  | .denom _ _ => .error .unsupported

/-- `adapt_unstake`, facade_v1.rs 472-487. -/
def adaptUnstake1 (a : Addr) : UnstakeReq → Except Err (List Adapted1)
  | .cw20 n => .ok [(a, .unstakeCw20 n)]
  | .cw721 l => .ok [(a, .unstakeCw721 l)]
  | .denom _ => .error .unsupported

/-- `adapt_claim`, facade_v1.rs 489-495. -/
def adaptClaim1 (a : Addr) : List Adapted1 := [(a, .claim)]

end Verif.Facade
