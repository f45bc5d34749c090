import Verif.Controller.Queries
import Verif.Enterprise.Model

/-!
# DAOs from before the rewrite, as the facade sees them (contracts/enterprise-facade-v1)

Such a DAO is one contract, whose code is not in the repository: its answers are inputs of the model. Modelled are the
translation of proposals between the two formats and the correction of the reported status.
-/

namespace Verif.Facade
open Verif
open Verif.Controller (DaoType Action GovChange CouncilSpec ActionType Proposal PStatus PType)
open Verif.Staking (Duration)
open Verif.Versioning (Version ver)

/-- `GovConfigFacade`, enterprise-facade-api/src/api.rs 277-301. -/
structure FacadeConfig where
  quorum : Nat
  threshold : Nat
  veto : Nat
  voteDuration : Nat
  unlocking : Duration
  minDeposit : Option Nat
  early : Bool
  deriving DecidableEq

/-- `GovConfigV1`, packages/enterprise-facade-api/src/api.rs 251-275. -/
structure LegacyConfig where
  quorum : Nat
  threshold : Nat
  veto : Option Nat
  voteDuration : Nat
  unlocking : Duration
  minDeposit : Option Nat
  early : Bool
  deriving DecidableEq

/-- `DaoCouncil`, enterprise-facade-api/src/api.rs 76-82. -/
structure Council where
  members : List Addr
  allowed : List ActionType
  quorum : Nat
  threshold : Nat
  deriving DecidableEq

/-- `DaoInfoResponseV1`, contracts/enterprise-facade-v1/src/v1_structs.rs 576-587. -/
structure LegacyInfo where
  created : Nat
  metadata : Enterprise.Metadata
  config : LegacyConfig
  council : Option Council
  daoType : DaoType
  membership : Addr
  factory : Addr
  distributor : Addr
  code : Nat
  deriving DecidableEq

/-- `ProposalActionV1`, v1_structs.rs 393-406, with the messages of lines 26-353. The message of an upgrade is either
that for the treasury, `{"initial_submsgs_limit": null}` (`true`), or the empty one. -/
inductive LAction
  | updateMetadata (m : Nat)
  | updateGovConfig (c : GovChange)
  | updateCouncil (c : Option CouncilSpec)
  | updateAssetWhitelist (add remove : List AssetInfo)
  | updateNftWhitelist (add remove : List Addr)
  | requestFunding (recipient : Addr) (assets : List Asset)
  | upgradeDao (code : Nat) (toTreasury : Bool)
  | executeMsgs (msgs : List Nat)
  | modifyMultisig (edit : List (Addr × Nat))
  | distributeFunds (funds : List Asset)
  | updateMinWeight (w : Nat)
  deriving DecidableEq

/-- The upgrade of `map_proposal_action_to_v5`, facade_v1.rs 557-596; `registry` is the answer of the versioning contract
to the query `Version`. -/
def upgradeToLegacy (registry : Version → Option Versioning.Info) (v : Version) : Except Err LAction :=
  if ver 1 0 0 ≤ v then
    match registry (ver 1 0 0) with
    | some i => .ok (.upgradeDao i.treasury true)
    | none => .error .other
  else
    match registry v with
    | some i => .ok (.upgradeDao i.enterprise false)
    | none => .error .other

/-- `map_proposal_action_to_v5`, facade_v1.rs 545-617, with the conversions `From` of v1_structs.rs 37-347. Migrate
messages of an upgrade are not modelled; they are dropped. -/
def toLegacy (registry : Version → Option Versioning.Info) : Action → Except Err LAction
  | .updateMetadata m => .ok (.updateMetadata m)
  | .updateGovConfig c => .ok (.updateGovConfig c)
  | .updateCouncil c => .ok (.updateCouncil c)
  | .updateAssetWhitelist _ a d => .ok (.updateAssetWhitelist a d)
  | .updateNftWhitelist _ a d => .ok (.updateNftWhitelist a d)
  | .requestFunding _ to l => .ok (.requestFunding to l)
  | .upgradeDao v => upgradeToLegacy registry v
  | .executeMsgs l => .ok (.executeMsgs l)
  | .executeTreasuryMsgs r l => if r.isSome then .error .other else .ok (.executeMsgs l)
  | .executeEnterpriseMsgs l => .ok (.executeMsgs l)
  | .modifyMultisig l => .ok (.modifyMultisig l)
  | .distributeFunds l => .ok (.distributeFunds l)
  | .updateMinWeight w => .ok (.updateMinWeight w)
  | .deployTreasury _ => .error .other

/-- `From<ProposalActionV1>`, v1_structs.rs 413-439, with 56-354. -/
def fromLegacy : LAction → Action
  | .updateMetadata m => .updateMetadata m
  | .updateGovConfig c => .updateGovConfig c
  | .updateCouncil c => .updateCouncil c
  | .updateAssetWhitelist a d => .updateAssetWhitelist none a d
  | .updateNftWhitelist a d => .updateNftWhitelist none a d
  | .requestFunding to l => .requestFunding none to l
  | .upgradeDao code _ => .upgradeDao (ver 0 code 0)
  | .executeMsgs l => .executeMsgs l
  | .modifyMultisig l => .modifyMultisig l
  | .distributeFunds l => .distributeFunds l
  | .updateMinWeight w => .updateMinWeight w

/-- `CreateProposalV1Msg`, v1_structs.rs 383-391. -/
structure LProposal where
  title : Nat
  description : Nat
  actions : List LAction
  deriving DecidableEq

/-- The loop of `map_create_proposal_msg`, facade_v1.rs 624-628. -/
def toLegacyAll (registry : Version → Option Versioning.Info) : List Action → Except Err (List LAction)
  | [] => .ok []
  | a :: t => do
    let x ← toLegacy registry a
    let l ← toLegacyAll registry t
    return x :: l

/-- `map_create_proposal_msg`, facade_v1.rs 619-635. -/
def toLegacyMsg (registry : Version → Option Versioning.Info) (p : Proposal) : Except Err LProposal := do
  let l ← toLegacyAll registry p.actions
  return ⟨p.title, p.description, l⟩

/-- `ProposalStatusV1`, v1_structs.rs 441-447. -/
inductive LStatus
  | inProgress | passed | rejected | executed
  deriving DecidableEq

/-- `From<ProposalStatusV1>`, v1_structs.rs 449-458. -/
def LStatus.toStatus : LStatus → PStatus
  | .inProgress => .inProgress
  | .passed => .passed
  | .rejected => .rejected
  | .executed => .executed

/-- `cw_utils::Expiration` (dependency). -/
inductive Expiration
  | height (h : Nat)
  | time (t : Nat)
  | never
  deriving DecidableEq

/-- `Expiration::is_expired` (dependency). -/
def Expiration.expired (b : Block) : Expiration → Bool
  | .height h => decide (h ≤ b.height)
  | .time t => decide (t ≤ b.time)
  | .never => false

/-- `ProposalResponseV1` with the fields of `ProposalV1`, v1_structs.rs 460-471, 529-541. -/
structure LResponse where
  type : PType
  id : Nat
  proposer : Option Addr
  title : Nat
  description : Nat
  status : LStatus
  startedAt : Nat
  expires : Expiration
  actions : List LAction
  results : Map Nat Nat
  totalVotes : Nat

/-- `ProposalResponse` with the fields of `Proposal`, enterprise-facade-api/src/api.rs 331-343, 443-456. -/
structure FResponse where
  type : PType
  id : Nat
  proposer : Option Addr
  title : Nat
  description : Nat
  status : PStatus
  startedAt : Nat
  expires : Expiration
  actions : List Action
  results : Map Nat Nat
  totalVotes : Nat

/-- `From<ProposalResponseV1>`, v1_structs.rs 473-491, 543-552. -/
def LResponse.convert (r : LResponse) : FResponse :=
  ⟨r.type, r.id, r.proposer, r.title, r.description, r.status.toStatus, r.startedAt, r.expires,
    r.actions.map fromLegacy, r.results, r.totalVotes⟩

/-- The configuration of `query_dao_info`, facade_v1.rs 81-94. -/
def LegacyConfig.facade (c : LegacyConfig) : FacadeConfig :=
  ⟨c.quorum, c.threshold, c.veto.getD c.threshold, c.voteDuration, c.unlocking, c.minDeposit, c.early⟩

/-- `resolve_in_progress_proposal_status`, facade_v1.rs 509-543. A missing proposer is the empty text. -/
def resolveStatus (r : FResponse) (c : FacadeConfig) : Except Err Gov.Status :=
  match r.expires with
  | .time t =>
    .ok ((⟨r.id, r.proposer.getD 0, 0, r.title, r.description, .inProgress t, r.startedAt, t, c.quorum, c.threshold,
      some c.veto, r.results⟩ : Gov.Poll).finalStatus r.totalVotes)
  | _ => .error .other

/-- The match for expired proposals, facade_v1.rs 650-654. -/
def endedStatus : Gov.Status → Except Err PStatus
  | .inProgress _ => .error .other
  | .passed _ _ => .ok .passed
  | .rejected _ => .ok .rejected

/-- The match for proposals that may end early, facade_v1.rs 668-678. -/
def legacyEarly : Gov.Status → PStatus
  | .inProgress _ => .inProgress
  | .passed _ _ => .canExecuteEarly
  | .rejected .quorumNotReached => .inProgress
  | .rejected .thresholdNotReached => .inProgress
  | .rejected _ => .canExecuteEarly

/-- Whether the proposal may end early, facade_v1.rs 659-662. -/
def legacyAllowsEarly (c : FacadeConfig) : PType → Bool
  | .general => c.early
  | .council => true

/-- The status of `fix_proposal_response`, facade_v1.rs 643-686. -/
def legacyStatus (b : Block) (r : FResponse) (c : FacadeConfig) : Except Err PStatus :=
  match r.status with
  | .inProgress =>
    if r.expires.expired b then do
      let st ← resolveStatus r c
      endedStatus st
    else if legacyAllowsEarly c r.type then do
      let st ← resolveStatus r c
      return legacyEarly st
    else .ok .inProgress
  | s => .ok s

/-- `fix_proposal_response`, facade_v1.rs 637-698. -/
def fixResponse (b : Block) (r : FResponse) (c : FacadeConfig) : Except Err FResponse := do
  let st ← legacyStatus b r c
  return { r with status := st }

/-- A DAO from before the rewrite: its `DaoInfo`, its proposals, and the pages of its list of proposals. -/
structure Legacy where
  info : LegacyInfo
  proposal : Nat → Option LResponse
  proposals : Option Gov.StatusFilter → Option Nat → Option Nat → Option (List LResponse)

end Verif.Facade
