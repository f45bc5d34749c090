import Verif.Controller.Queries
import Verif.Dao.Model
import Verif.Enterprise.Model
import Verif.Migration.Model
import Verif.Outposts.Model
import Verif.Facade.Legacy

/-!
# The facade (contracts/enterprise-facade) and the facade of current DAOs (contracts/enterprise-facade-v2)

Facades hold no state of a DAO: they answer queries by querying the contracts of the DAO, and they translate requests of
users into messages for these contracts. A query to an address without a contract that answers it fails; the failure is
the error of the facade's query. Texts are numbers, as elsewhere.
-/

namespace Verif.Facade
open Verif
open Verif.Controller (DaoType Action GovConfig CouncilConfig ActionType Proposal Response PStatus PType)
open Verif.Staking (Duration ReleaseAt Coin)
open Verif.Versioning (Version)
open Verif.Dao (Member MemberMsg)

/-! ### Contracts that are queried -/

/-- A governance controller, with the answers it gets to its own queries. -/
structure Ctl where
  env : Controller.Env
  s : Controller.State
  g : Gov.State

/-- The contracts of the chain, as far as facades ask them something. A DAO from before the rewrite is one contract. A
membership contract knows its enterprise contract and gets an answer from an ICS721 proxy. -/
inductive Contract
  | legacy (d : Legacy)
  | enterprise (s : Enterprise.State)
  | controller (c : Ctl)
  | membership (enterprise : Addr) (m : Member) (proxy : Option Addr)
  | treasury (t : Treasury.State) (m : Migration.State)
  | outposts (s : Outposts.State)
  | versioning (s : Versioning.State)

/-- What is at an address. -/
abbrev Chain := Addr → Option Contract

/-- The query `DaoInfo {}`, read as that of a DAO from before the rewrite. The enterprise contract has a query of the same
name, whose answer lacks required fields. -/
def legacyInfo (c : Chain) (a : Addr) : Except Err LegacyInfo :=
  match c a with
  | some (.legacy d) => .ok d.info
  | _ => .error .other

/-- The state of the enterprise contract at an address, which answers `DaoInfo {}`. -/
def enterpriseAt (c : Chain) (a : Addr) : Except Err Enterprise.State :=
  match c a with
  | some (.enterprise s) => .ok s
  | _ => .error .other

/-- The query `ComponentContracts {}`, contracts/enterprise/src/contract.rs 444-462. -/
def components (c : Chain) (a : Addr) : Except Err Enterprise.Components := do
  let s ← enterpriseAt c a
  match s.comps with
  | none => .error .other
  | some x => .ok x

/-- The query `Config {}`, answered with an admin: contracts/enterprise-treasury/src/contract.rs 273-279. -/
def adminAt (c : Chain) (a : Addr) : Except Err Addr :=
  match c a with
  | some (.treasury t _) => .ok t.admin
  | _ => .error .other

/-- The query `Config {}`, answered with an enterprise contract: enterprise-governance-controller/src/contract.rs
1556-1562, and also packages/multisig-membership-impl/src/query.rs. -/
def enterpriseOf (c : Chain) (a : Addr) : Except Err Addr :=
  match c a with
  | some (.controller x) => .ok x.s.enterprise
  | some (.membership e (.multisig _) _) => .ok e
  | _ => .error .other

/-- The controller at an address. -/
def controllerAt (c : Chain) (a : Addr) : Except Err Ctl :=
  match c a with
  | some (.controller x) => .ok x
  | _ => .error .other

/-- The membership contract at an address, with the answer of its ICS721 proxy. -/
def memberAt (c : Chain) (a : Addr) : Except Err (Member × Option Addr) :=
  match c a with
  | some (.membership _ m p) => .ok (m, p)
  | _ => .error .other

/-- The treasury at an address. -/
def treasuryAt (c : Chain) (a : Addr) : Except Err (Treasury.State × Migration.State) :=
  match c a with
  | some (.treasury t m) => .ok (t, m)
  | _ => .error .other

/-- The outposts contract at an address. -/
def outpostsAt (c : Chain) (a : Addr) : Except Err Outposts.State :=
  match c a with
  | some (.outposts s) => .ok s
  | _ => .error .other

/-- The registry of versions at an address. -/
def versioningAt (c : Chain) (a : Addr) : Except Err Versioning.State :=
  match c a with
  | some (.versioning s) => .ok s
  | _ => .error .other

/-- An answer that may be missing. -/
def orFail {α : Type} : Option α → Except Err α
  | some x => .ok x
  | none => .error .other

/-! ### The facade: which DAO is meant -/

/-- Storage of the facade, contracts/enterprise-facade/src/state.rs. -/
structure Config where
  v1 : Addr
  v2 : Addr
  deriving DecidableEq

/-- `FacadeTarget`, enterprise-facade/src/facade.rs 30-36. -/
structure Target where
  facade : Addr
  dao : Addr
  deriving DecidableEq

/-- `instantiate`, enterprise-facade/src/contract.rs 38-54. -/
def init (v1 v2 : Addr) : Config := ⟨v1, v2⟩

/-- `migrate`, enterprise-facade/src/contract.rs 454-474; there are no execute messages (56-65). -/
def migrate (s : Config) (v1 v2 : Option Addr) : Config := ⟨v1.getD s.v1, v2.getD s.v2⟩

/-- `get_facade_assume_post_rewrite_enterprise_treasury`, facade.rs 68-91. -/
def fromTreasury (s : Config) (c : Chain) (a : Addr) : Except Err Target := do
  let admin ← adminAt c a
  let e ← enterpriseOf c admin
  return ⟨s.v2, e⟩

/-- `get_facade_assume_post_rewrite_enterprise`, facade.rs 93-111. -/
def fromEnterprise (s : Config) (c : Chain) (a : Addr) : Except Err Target := do
  let _ ← components c a
  return ⟨s.v2, a⟩

/-- `get_facade`, facade.rs 42-66. -/
def getFacade (s : Config) (c : Chain) (a : Addr) : Except Err Target :=
  match legacyInfo c a with
  | .ok _ => .ok ⟨s.v1, a⟩
  | .error _ =>
    match fromTreasury s c a with
    | .ok t => .ok t
    | .error _ => fromEnterprise s c a

/-- `query`, enterprise-facade/src/contract.rs 71-447: each query is passed on to the facade of the DAO's version, with
the address of the DAO in place of the given one. `ask` is that facade's answer. -/
def forward {α : Type} (s : Config) (c : Chain) (ask : Addr → Addr → Except Err α) (a : Addr) : Except Err α := do
  let t ← getFacade s c a
  ask t.facade t.dao

/-! ### Facade of current DAOs: queries (facade_v2.rs) -/

/-- `map_dao_type`, facade_v2.rs 1285-1292. -/
def daoType : Enterprise.DaoType → DaoType
  | .denom => .denom
  | .token => .token
  | .nft => .nft
  | .multisig => .multisig

/-- `get_dao_type`, facade_v2.rs 1231-1238. -/
def typeOf (c : Chain) (e : Addr) : Except Err DaoType := do
  let s ← enterpriseAt c e
  return daoType s.daoType

/-- `query_treasury_address`, facade_v2.rs 64-73. -/
def treasuryAddress (c : Chain) (e : Addr) : Except Err Addr := do
  let x ← components c e
  return x.treasury

/-- `GovConfigResponse`, enterprise-governance-controller-api/src/api.rs 281-287, as answered by `query_gov_config`
(contract.rs 1564-1578). -/
structure GovInfo where
  config : GovConfig
  council : Option CouncilConfig
  membership : Addr
  councilMembership : Addr
  deriving DecidableEq

/-- `query_gov_config`, enterprise-governance-controller/src/contract.rs 1564-1578. -/
def govInfo (x : Ctl) : GovInfo := ⟨x.s.config, x.s.council, x.env.comps.membership, x.env.comps.council⟩

/-- What `dao_membership_contract` names: a denom, a token or NFT contract, an ICS721 class (its id is not modelled, the
proxy stands for it), or the DAO itself. -/
inductive Unit_
  | denom (d : Nat)
  | contract (a : Addr)
  | ics721 (proxy : Addr)
  deriving DecidableEq

/-- The unlocking period of a membership contract. -/
def unlockingOf : Member → Duration
  | .staking _ s => s.unlocking
  | .nft s => s.unlocking
  | .multisig _ => .time 0

/-- The NFT contract in `dao_info`, facade_v2.rs 108-134: the stored one from version 1.2.0 on
(`query_nft_contract_config`), else the one that `NftConfig` answers. -/
def nftUnit (v : Version) (m : Member) (proxy : Option Addr) : Except Err Unit_ :=
  match m with
  | .nft s =>
    if Versioning.ver 1 2 0 ≤ v then
      match s.nft with
      | .cw721 a => .ok (.contract a)
      | .ics721 q => .ok (.ics721 q)
    else do
      let a ← orFail (Nft.nftContract s proxy)
      return .contract a
  | _ => .error .other

/-- The membership contract and the unlocking period of `dao_info`, facade_v2.rs 91-139. -/
def membershipUnit (c : Chain) (e : Addr) (t : DaoType) (v : Version) (membership : Addr) :
    Except Err (Unit_ × Duration) :=
  match t with
  | .denom => do
    let m ← memberAt c membership
    let d ← orFail m.1.denom
    return (.denom d, unlockingOf m.1)
  | .token => do
    let m ← memberAt c membership
    let a ← orFail m.1.token
    return (.contract a, unlockingOf m.1)
  | .nft => do
    let m ← memberAt c membership
    let u ← nftUnit v m.1 m.2
    return (u, unlockingOf m.1)
  | .multisig => .ok (.contract e, .time 0)

/-- `Uint64::checked_mul`. -/
def cmul64 (a b : Nat) : Except Err Nat := if a * b < M64 then .ok (a * b) else .error .overflow

/-- The version code of `dao_info`, facade_v2.rs 162-169. -/
def versionCode (v : Version) : Except Err Nat := do
  let major ← cmul64 (ofLex v).1 10000
  let minor ← cmul64 (ofLex (ofLex v).2).1 100
  let x ← cadd64 major minor
  cadd64 x (ofLex (ofLex v).2).2

/-- `DaoInfoResponse`, enterprise-facade-api/src/api.rs 222-234. -/
structure DaoInfo where
  created : Nat
  metadata : Enterprise.Metadata
  config : FacadeConfig
  council : Option Council
  daoType : DaoType
  membership : Unit_
  factory : Addr
  distributor : Addr
  code : Nat
  version : Version
  deriving DecidableEq

/-- `query_dao_info`, facade_v2.rs 75-207. -/
def daoInfo (c : Chain) (e : Addr) : Except Err DaoInfo := do
  let s ← enterpriseAt c e
  let x ← components c e
  let ctl ← controllerAt c x.controller
  let u ← membershipUnit c e (daoType s.daoType) s.version (govInfo ctl).membership
  let cm ← memberAt c (govInfo ctl).councilMembership
  let code ← versionCode s.version
  return {
    created := s.created
    metadata := s.metadata
    config :=
      { quorum := (govInfo ctl).config.quorum
        threshold := (govInfo ctl).config.threshold
        veto := (govInfo ctl).config.veto.getD (govInfo ctl).config.threshold
        voteDuration := (govInfo ctl).config.voteDuration
        unlocking := u.2
        minDeposit := (govInfo ctl).config.minDeposit
        early := (govInfo ctl).config.early }
    council := (govInfo ctl).council.map (fun k =>
      ⟨(cm.1.mem.queryMembers none (some 1000)).map (·.1), k.allowed, k.quorum, k.threshold⟩)
    daoType := daoType s.daoType
    membership := u.1
    factory := s.factory
    distributor := x.distributor
    code := code
    version := s.version }

/-- `query_member_info`, facade_v2.rs 234-263: the voting power in units of 10^-18. -/
def memberInfo (c : Chain) (e : Addr) (u : Addr) : Except Err Nat := do
  let x ← components c e
  let m ← memberAt c x.membership
  if m.1.total .never = 0 then return 0
  else orFail (checkedFromRatio (m.1.weight u) (m.1.total .never))

/-- `query_list_multisig_members`, facade_v2.rs 265-302. -/
def multisigMembers (c : Chain) (e : Addr) (after : Option Addr) (limit : Option Nat) :
    Except Err (List (Addr × Nat)) := do
  let s ← enterpriseAt c e
  match s.daoType with
  | .multisig => do
    let x ← components c e
    let m ← memberAt c x.membership
    return m.1.mem.queryMembers after limit
  | _ => .error .unsupported

/-- `query_asset_whitelist`, facade_v2.rs 304-325. -/
def assetWhitelist (c : Chain) (e : Addr) (after : Option AssetInfo) (limit : Option Nat) :
    Except Err (List AssetInfo) := do
  let x ← components c e
  let t ← treasuryAt c x.treasury
  return Treasury.queryAssets t.1.assets after limit

/-- `query_nft_whitelist`, facade_v2.rs 327-348. -/
def nftWhitelist (c : Chain) (e : Addr) (after : Option Addr) (limit : Option Nat) : Except Err (List Addr) := do
  let x ← components c e
  let t ← treasuryAt c x.treasury
  return Treasury.queryNfts t.1 after limit

/-- `query_proposal`, facade_v2.rs 350-370, with `map_proposal_response`, 1294-1357 (the same fields and values). -/
def proposal (c : Chain) (e : Addr) (id : Nat) : Except Err Response := do
  let x ← components c e
  let k ← controllerAt c x.controller
  Controller.queryProposal k.env k.s k.g id

/-- `query_proposals`, facade_v2.rs 372-400. -/
def proposals (c : Chain) (e : Addr) (filter : Option Gov.StatusFilter) (after limit : Option Nat) :
    Except Err (List Response) := do
  let x ← components c e
  let k ← controllerAt c x.controller
  Controller.queryProposals k.env k.s k.g filter after limit

/-- `query_proposal_status` (the status), facade_v2.rs 402-426. -/
def proposalStatus (c : Chain) (e : Addr) (id : Nat) : Except Err PStatus := do
  let x ← components c e
  let k ← controllerAt c x.controller
  Controller.queryStatus k.env k.s k.g id

/-- `query_member_vote`, facade_v2.rs 428-451. -/
def memberVote (c : Chain) (e : Addr) (member : Addr) (id : Nat) : Except Err (Option Gov.Vote) := do
  let x ← components c e
  let k ← controllerAt c x.controller
  return Controller.queryMemberVote k.g id member

/-- `query_proposal_votes`, facade_v2.rs 453-477. -/
def proposalVotes (c : Chain) (e : Addr) (id : Nat) (after : Option Addr) (limit : Option Nat) :
    Except Err (List Gov.Vote) := do
  let x ← components c e
  let k ← controllerAt c x.controller
  return Controller.queryProposalVotes k.g id after limit

/-- `UserStake`, enterprise-facade-api/src/api.rs 476-498. -/
inductive Stake
  | denom (amount : Nat)
  | token (amount : Nat)
  | nft (tokens : List Nat) (amount : Nat)
  | none
  deriving DecidableEq

/-- The stake of a user in an NFT staking contract. -/
def nftStake (m : Member) (u : Addr) (after limit : Option Nat) : Except Err Stake :=
  match m with
  | .nft s => .ok (.nft (Nft.queryUserStake s u after limit).1 (Nft.queryUserStake s u after limit).2)
  | _ => .error .other

/-- `query_user_stake`, facade_v2.rs 479-532. -/
def userStake (c : Chain) (e : Addr) (u : Addr) (after limit : Option Nat) : Except Err Stake := do
  let x ← components c e
  let t ← typeOf c e
  match t with
  | .denom => do
    let m ← memberAt c x.membership
    return .denom (m.1.weight u)
  | .token => do
    let m ← memberAt c x.membership
    return .token (m.1.weight u)
  | .nft => do
    let m ← memberAt c x.membership
    nftStake m.1 u after limit
  | .multisig => return .none

/-- `query_total_staked_amount`, facade_v2.rs 534-557. -/
def totalStaked (c : Chain) (e : Addr) : Except Err Nat := do
  let t ← typeOf c e
  match t with
  | .denom | .token | .nft => do
    let x ← components c e
    let m ← memberAt c x.membership
    return m.1.total .never
  | .multisig => return 0

/-- The staked tokens of an NFT staking contract. -/
def nftsOf (m : Member) (after limit : Option Nat) : Except Err (List Nat) :=
  match m with
  | .nft s => .ok (Nft.queryStaked s after limit)
  | _ => .error .other

/-- `query_staked_nfts`, facade_v2.rs 559-588. -/
def stakedNfts (c : Chain) (e : Addr) (after limit : Option Nat) : Except Err (List Nat) := do
  let t ← typeOf c e
  match t with
  | .nft => do
    let x ← components c e
    let m ← memberAt c x.membership
    nftsOf m.1 after limit
  | .denom | .token | .multisig => return []

/-- `ClaimAsset`, enterprise-facade-api/src/api.rs 179-199. -/
inductive ClaimAsset
  | cw20 (amount : Nat)
  | cw721 (tokens : List Nat)
  | denom (amount : Nat)
  deriving DecidableEq

/-- `Claim`, enterprise-facade-api/src/api.rs 173-177. -/
structure Claim where
  asset : ClaimAsset
  release : ReleaseAt
  deriving DecidableEq

/-- `map_denom_claims_response`, `map_token_claims_response`, facade_v2.rs 1240-1268. -/
def stakingClaim (k : Staking.Kind) (x : Staking.Claim) : Claim :=
  match k with
  | .denom => ⟨.denom x.amount, x.release⟩
  | .token => ⟨.cw20 x.amount, x.release⟩

/-- `map_nft_claims_response`, facade_v2.rs 1270-1283. -/
def nftClaim (x : Nft.Claim) : Claim := ⟨.cw721 x.nfts, x.release⟩

/-- The claims of a user in a staking contract of the kind that the type of the DAO tells (all of them, or the releasable
ones). The queries of the token and of the denom staking contract are the same text. -/
def claimsOf (b : Option Block) (t : DaoType) (m : Member) (u : Addr) : Except Err (List Claim) :=
  match t, m with
  | .denom, .staking _ s =>
    .ok ((match b with | none => Staking.getClaims s u | some b => Staking.getReleasable s b u).map (stakingClaim .denom))
  | .token, .staking _ s =>
    .ok ((match b with | none => Staking.getClaims s u | some b => Staking.getReleasable s b u).map (stakingClaim .token))
  | .nft, .nft s =>
    .ok ((match b with | none => Nft.getClaims s u | some b => Nft.getReleasable s b u).map nftClaim)
  | _, _ => .error .other

/-- `query_claims` (`b` is `none`), facade_v2.rs 590-639, and `query_releasable_claims` (in a block), 641-690. -/
def claims (b : Option Block) (c : Chain) (e : Addr) (u : Addr) : Except Err (List Claim) := do
  let t ← typeOf c e
  match t with
  | .multisig => return []
  | _ => do
    let x ← components c e
    let m ← memberAt c x.membership
    claimsOf b t m.1 u

/-- `query_cross_chain_treasuries`, facade_v2.rs 692-703. -/
def treasuries (c : Chain) (e : Addr) (after limit : Option Nat) : Except Err (List (Nat × Nat)) := do
  let x ← components c e
  let o ← outpostsAt c x.outposts
  return Outposts.queryTreasuries o after limit

/-- `query_has_incomplete_v2_migration`, facade_v2.rs 705-717. -/
def hasIncomplete (c : Chain) (e : Addr) : Except Err Bool := do
  let x ← components c e
  let t ← treasuryAt c x.treasury
  return Migration.hasIncomplete t.2

/-- `query_has_unmoved_stakes_or_claims`, facade_v2.rs 719-746. -/
def hasUnmoved (c : Chain) (e : Addr) : Except Err Bool := do
  let d ← daoInfo c e
  if d.version < Versioning.ver 1 0 2 then return false
  else do
    let x ← components c e
    let t ← treasuryAt c x.treasury
    return Migration.hasUnmoved t.2

/-- `query_v2_migration_stage`, facade_v2.rs 748-761. -/
def migrationStage (c : Chain) (e : Addr) : Except Err Migration.Stage := do
  let b ← hasIncomplete c e
  return if b then .inProgress else .completed

/-! ### Facade of current DAOs: requests turned into messages (facade_v2.rs) -/

/-- Contents of a message made by the facade: for the controller, for a membership contract, for a cw20 token (`Send` to
the controller with a proposal, `Send` to a membership contract with a stake), for an NFT contract. -/
inductive Call
  | controller (m : Controller.Msg)
  | member (m : MemberMsg)
  | sendProposal (contract : Addr) (amount : Nat) (p : Proposal)
  | sendStake (contract : Addr) (amount : Nat) (h : Staking.Hook)
  | approve (spender : Addr) (token : Nat)
  | sendNft (contract : Addr) (token : Nat) (h : Nft.Hook)

/-- `AdaptedMsg`, enterprise-facade-api/src/api.rs 552-569. -/
inductive Adapted
  | execute (target : Addr) (m : Call) (funds : List Coin)
  | bank (receiver : Addr) (funds : List Coin)

/-- `adapt_create_proposal`, facade_v2.rs 763-784. -/
def adaptCreate (c : Chain) (e : Addr) (p : Proposal) : Except Err (List Adapted) := do
  let x ← components c e
  return [.execute x.controller (.controller (.createProposal p [])) []]

/-- `adapt_create_proposal_with_denom_deposit`, facade_v2.rs 786-825. The coins are part of the message in the model of
the controller, and are attached to it here. -/
def adaptDenomDeposit (c : Chain) (e : Addr) (p : Proposal) (amount : Nat) : Except Err (List Adapted) := do
  let t ← typeOf c e
  if t ≠ .denom then .error .unsupported
  else do
    let x ← components c e
    let m ← memberAt c x.membership
    let d ← orFail m.1.denom
    return [.execute x.controller (.controller (.createProposal p [(d, amount)])) [⟨d, amount⟩]]

/-- `adapt_create_proposal_with_token_deposit`, facade_v2.rs 827-869. -/
def adaptTokenDeposit (c : Chain) (e : Addr) (p : Proposal) (amount : Nat) : Except Err (List Adapted) := do
  let t ← typeOf c e
  match t with
  | .token => do
    let x ← components c e
    let m ← memberAt c x.membership
    let a ← orFail m.1.token
    return [.execute a (.sendProposal x.controller amount p) []]
  | _ => .error .unsupported

/-- `adapt_create_proposal_with_nft_deposit`, facade_v2.rs 871-927. -/
def adaptNftDeposit (c : Chain) (e : Addr) (p : Proposal) (tokens : List Nat) : Except Err (List Adapted) := do
  let t ← typeOf c e
  if t ≠ .nft then .error .unsupported
  else do
    let x ← components c e
    let m ← memberAt c x.membership
    let a ← orFail (m.1.nftAddr m.2)
    return tokens.map (fun t => .execute a (.approve x.controller t) []) ++
      [.execute x.controller (.controller (.createWithNft p tokens)) []]

/-- `adapt_create_council_proposal`, facade_v2.rs 929-952. -/
def adaptCouncil (c : Chain) (e : Addr) (p : Proposal) : Except Err (List Adapted) := do
  let x ← components c e
  return [.execute x.controller (.controller (.createCouncil p)) []]

/-- `adapt_cast_vote`, facade_v2.rs 954-975. -/
def adaptVote (c : Chain) (e : Addr) (id : Nat) (o : Gov.Outcome) : Except Err (List Adapted) := do
  let x ← components c e
  return [.execute x.controller (.controller (.castVote id o)) []]

/-- `adapt_cast_council_vote`, facade_v2.rs 977-998. -/
def adaptCouncilVote (c : Chain) (e : Addr) (id : Nat) (o : Gov.Outcome) : Except Err (List Adapted) := do
  let x ← components c e
  return [.execute x.controller (.controller (.castCouncilVote id o)) []]

/-- The filter of `adapt_execute_proposal`, facade_v2.rs 1016-1024. -/
def isRemote : Action → Bool
  | .updateAssetWhitelist r _ _ => r.isSome
  | .updateNftWhitelist r _ _ => r.isSome
  | .requestFunding r _ _ => r.isSome
  | .executeTreasuryMsgs r _ => r.isSome
  | .deployTreasury _ => true
  | _ => false

/-- The denom `uluna`. -/
def uluna : Nat := 0

/-- `adapt_execute_proposal`, facade_v2.rs 1000-1049. -/
def adaptExecute (c : Chain) (e : Addr) (id : Nat) : Except Err (List Adapted) := do
  let r ← proposal c e id
  let n := (r.actions.filter isRemote).length
  let x ← components c e
  if n ≠ 0 then
    return [.bank x.outposts [⟨uluna, n⟩], .execute x.controller (.controller (.execute id)) []]
  else return [.execute x.controller (.controller (.execute id)) []]

/-- `StakeMsg`, enterprise-facade-api/src/api.rs 126-149. -/
inductive StakeReq
  | cw20 (user : Addr) (amount : Nat)
  | cw721 (user : Addr) (tokens : List Nat)
  | denom (user : Addr) (amount : Nat)

/-- `adapt_stake`, facade_v2.rs 1051-1122. -/
def adaptStake (c : Chain) (e : Addr) (r : StakeReq) : Except Err (List Adapted) := do
  let x ← components c e
  match r with
  | .cw20 u n => do
    let m ← memberAt c x.membership
    let a ← orFail m.1.token
    return [.execute a (.sendStake x.membership n (.stake u)) []]
  | .cw721 u l => do
    let m ← memberAt c x.membership
    let a ← orFail (m.1.nftAddr m.2)
    return l.map (fun t => .execute a (.sendNft x.membership t (.stake u)) [])
  | .denom u n => do
    let m ← memberAt c x.membership
    let d ← orFail m.1.denom
    return [.execute x.membership (.member (.staking (.stakeDenom [⟨d, n⟩] (some u)))) [⟨d, n⟩]]

/-- `UnstakeMsg`, enterprise-facade-api/src/api.rs 151-171. -/
inductive UnstakeReq
  | cw20 (amount : Nat)
  | cw721 (tokens : List Nat)
  | denom (amount : Nat)

/-- `adapt_unstake`, facade_v2.rs 1124-1156: the messages of the token and of the denom staking contract are the same. -/
def adaptUnstake (c : Chain) (e : Addr) (r : UnstakeReq) : Except Err (List Adapted) := do
  let x ← components c e
  match r with
  | .cw20 n => return [.execute x.membership (.member (.staking (.unstake n))) []]
  | .cw721 l => return [.execute x.membership (.member (.nft (.unstake l))) []]
  | .denom n => return [.execute x.membership (.member (.staking (.unstake n))) []]

/-- `adapt_claim`, facade_v2.rs 1158-1198. -/
def adaptClaim (c : Chain) (e : Addr) : Except Err (List Adapted) := do
  let t ← typeOf c e
  match t with
  | .denom | .token => do
    let x ← components c e
    return [.execute x.membership (.member (.staking (.claim none))) []]
  | .nft => do
    let x ← components c e
    return [.execute x.membership (.member (.nft (.claim none))) []]
  | .multisig => .error .unsupported

end Verif.Facade
