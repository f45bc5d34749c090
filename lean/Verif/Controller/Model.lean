import Verif.Base.Except
import Verif.Distributor.Model
import Verif.Gov.Model
import Verif.Staking.Model

/-!
# Model of the governance controller (contracts/enterprise-governance-controller/src)

The controller is the admin of the governance contract, whose messages have no sub-messages of their own. A message to
it therefore runs to completion, and its reply follows, before anything else happens. The model runs such a message
and its reply in place, on the governance state; every other sub-message is returned as data (`Sub`).
Addresses in messages are validated already; strings and opaque payloads are numbers.
-/

namespace Verif.Controller
open Verif
open Verif.Staking (Duration At)

/-- `DaoType` (enterprise-protocol/src/api.rs). -/
inductive DaoType
  | denom | token | nft | multisig
  deriving DecidableEq

/-- `GovConfig`, api.rs 36-58; decimals in units of 10^-18. -/
structure GovConfig where
  quorum : Nat
  threshold : Nat
  veto : Option Nat
  voteDuration : Nat
  minDeposit : Option Nat
  early : Bool
  deriving DecidableEq

/-- `ProposalActionType`, api.rs 149-166. -/
inductive ActionType
  | updateMetadata | updateGovConfig | updateCouncil | updateAssetWhitelist | updateNftWhitelist | requestFunding
  | upgradeDao | executeMsgs | executeTreasuryMsgs | executeEnterpriseMsgs | modifyMultisig | distributeFunds
  | updateMinWeight | deployTreasury
  deriving DecidableEq

/-- `CouncilGovConfig`, api.rs 60-65. -/
structure CouncilConfig where
  allowed : List ActionType
  quorum : Nat
  threshold : Nat
  deriving DecidableEq

/-- `DaoCouncilSpec`, api.rs 67-83. -/
structure CouncilSpec where
  members : List Addr
  quorum : Nat
  threshold : Nat
  allowed : Option (List ActionType)
  deriving DecidableEq

/-- `UpdateGovConfigMsg`, api.rs 186-195; `some` is `Change`. -/
structure GovChange where
  quorum : Option Nat
  threshold : Option Nat
  veto : Option (Option Nat)
  voteDuration : Option Nat
  unlocking : Option Duration
  minDeposit : Option (Option Nat)
  early : Option Bool
  deriving DecidableEq

/-- DAO versions are compared lexicographically. -/
abbrev Version := Nat ×ₗ Nat ×ₗ Nat

/-- `ProposalAction`, api.rs 168-262. Metadata, remote targets, treasury deployments and custom messages are opaque. -/
inductive Action
  | updateMetadata (m : Nat)
  | updateGovConfig (c : GovChange)
  | updateCouncil (c : Option CouncilSpec)
  | updateAssetWhitelist (remote : Option Nat) (add remove : List AssetInfo)
  | updateNftWhitelist (remote : Option Nat) (add remove : List Addr)
  | requestFunding (remote : Option Nat) (recipient : Addr) (assets : List Asset)
  | upgradeDao (v : Version)
  | executeMsgs (msgs : List Nat)
  | executeTreasuryMsgs (remote : Option Nat) (msgs : List Nat)
  | executeEnterpriseMsgs (msgs : List Nat)
  | modifyMultisig (edit : List (Addr × Nat))
  | distributeFunds (funds : List Asset)
  | updateMinWeight (w : Nat)
  | deployTreasury (d : Nat)
  deriving DecidableEq

/-- `to_proposal_action_type`, contract.rs 461-478. -/
def Action.type : Action → ActionType
  | .updateMetadata _ => .updateMetadata
  | .updateGovConfig _ => .updateGovConfig
  | .updateCouncil _ => .updateCouncil
  | .updateAssetWhitelist _ _ _ => .updateAssetWhitelist
  | .updateNftWhitelist _ _ _ => .updateNftWhitelist
  | .requestFunding _ _ _ => .requestFunding
  | .upgradeDao _ => .upgradeDao
  | .executeMsgs _ => .executeMsgs
  | .executeTreasuryMsgs _ _ => .executeTreasuryMsgs
  | .executeEnterpriseMsgs _ => .executeEnterpriseMsgs
  | .modifyMultisig _ => .modifyMultisig
  | .distributeFunds _ => .distributeFunds
  | .updateMinWeight _ => .updateMinWeight
  | .deployTreasury _ => .deployTreasury

/-- `ProposalDepositAsset`, api.rs 122-136. -/
inductive DepositAsset
  | denom (denom amount : Nat)
  | cw20 (token : Addr) (amount : Nat)
  | cw721 (nft : Addr) (tokens : List Nat)
  deriving DecidableEq

/-- `ProposalDeposit`, api.rs 116-120. -/
structure Deposit where
  depositor : Addr
  asset : DepositAsset
  deriving DecidableEq

/-- `ProposalDeposit::amount`, api.rs 138-146. -/
def Deposit.amount (d : Deposit) : Nat :=
  match d.asset with
  | .denom _ a => a
  | .cw20 _ a => a
  | .cw721 _ l => l.length

/-- `ProposalType`, api.rs 394-399. -/
inductive PType
  | general | council
  deriving DecidableEq

/-- `ProposalInfo`, api.rs 17-26. -/
structure Info where
  type : PType
  executedAt : Option Block
  earliest : Option Nat
  deposit : Option Deposit
  actions : List Action
  deriving DecidableEq

/-- `is_past_earliest_execution`, api.rs 28-34. -/
def Info.pastEarliest (i : Info) (now : Nat) : Bool :=
  match i.earliest with
  | some t => decide (t ≤ now)
  | none => true

/-- `ProposalExecutabilityStatus`, state.rs 27-43. -/
inductive Executability
  | notExecutable
  | passed (outcome : Nat)
  | rejected (veto : Bool)
  | draw (a b votes : Nat)
  deriving DecidableEq

/-- `From<PollStatus>`, state.rs 45-64. -/
def executability : Gov.Status → Executability
  | .inProgress _ => .notExecutable
  | .passed o _ => .passed o
  | .rejected .quorumNotReached => .notExecutable
  | .rejected .thresholdNotReached => .notExecutable
  | .rejected .isRejectingOutcome => .rejected false
  | .rejected .isVetoOutcome => .rejected true
  | .rejected (.outcomeDraw a b n) => .draw a b n

/-- Storage: `STATE`, `ENTERPRISE_CONTRACT`, `GOV_CONFIG`, `COUNCIL_GOV_CONFIG`, `CREATION_DATE`,
`INITIAL_CROSS_CHAIN_TREASURIES` (state.rs 14-77), `PROPOSAL_INFOS` (proposals.rs 7). -/
structure State where
  creating : Option Info
  executing : Option Nat
  voting : Option (Nat × Executability)
  enterprise : Addr
  config : GovConfig
  council : Option CouncilConfig
  created : Nat
  treasuries : Option (List Nat)
  infos : Map Nat Info
  deriving DecidableEq

/-- Addresses of the other contracts of the DAO (`ComponentContracts`). -/
structure Components where
  treasury : Addr
  distributor : Addr
  membership : Addr
  council : Addr
  governance : Addr
  outposts : Addr
  deriving DecidableEq

/-- Block, own address and the answers to the queries made by the controller. -/
structure Env where
  block : Block
  self : Addr
  /-- the creator of the controller (`query_wasm_contract_info`) -/
  creator : Addr
  comps : Components
  daoType : DaoType
  version : Version
  restricted : Addr → Bool
  weight : Addr → Nat
  total : At → Nat
  councilWeight : Addr → Nat
  councilTotal : At → Nat
  /-- `TokenConfig`, `NftConfig`, `DenomConfig` of the membership contract; `none` if the query fails -/
  token : Option Addr
  nft : Option Addr
  denom : Option Nat
  /-- `OwnerOf`: the owner and the approved spenders; `none` if the query fails -/
  owner : Nat → Option (Addr × List Addr)
  /-- whether a custom message is a valid `CosmosMsg` -/
  parses : Nat → Bool

/-! ### Validation (validate.rs) -/

/-- `validate_gt_zero_lte_one`, validate.rs 77-94. -/
def fraction (d : Nat) : Except Err Unit := if ONE < d ∨ d = 0 then .error .invalidArgument else .ok ()

/-- Veto threshold, validate.rs 49-55. -/
def validateVeto : Option Nat → Except Err Unit
  | some v => fraction v
  | none => .ok ()

/-- `validate_dao_gov_config`, validate.rs 37-63. -/
def validateConfig (t : DaoType) (c : GovConfig) : Except Err Unit :=
  if c.voteDuration = 0 then .error .zero else do
    fraction c.quorum
    fraction c.threshold
    validateVeto c.veto
    if c.minDeposit.isSome ∧ t = .multisig then .error .unsupported else .ok ()

/-- `validate_unlocking_period`, validate.rs 65-75. -/
def validateUnlocking (c : GovConfig) : Duration → Except Err Unit
  | .time t => if t < c.voteDuration then .error .invalidArgument else .ok ()
  | .height _ => .ok ()

/-- `apply_gov_config_changes`, validate.rs 147-175. -/
def applyChange (c : GovConfig) (m : GovChange) : GovConfig :=
  { quorum := m.quorum.getD c.quorum
    threshold := m.threshold.getD c.threshold
    veto := m.veto.getD c.veto
    voteDuration := m.voteDuration.getD c.voteDuration
    minDeposit := m.minDeposit.getD c.minDeposit
    early := m.early.getD c.early }

/-- The match of `validate_allowed_council_proposal_types`, validate.rs 494-515. -/
def ActionType.councilAllowed : ActionType → Bool
  | .updateGovConfig | .updateCouncil | .requestFunding | .executeMsgs | .executeTreasuryMsgs | .executeEnterpriseMsgs
  | .modifyMultisig | .distributeFunds | .updateMinWeight => false
  | .updateMetadata | .updateAssetWhitelist | .updateNftWhitelist | .upgradeDao | .deployTreasury => true

/-- `validate_allowed_council_proposal_types`, validate.rs 487-520. -/
def validateAllowed : Option (List ActionType) → Except Err Unit
  | none => .ok ()
  | some l => if l.all ActionType.councilAllowed then .ok () else .error .unsupported

/-- `validate_dao_council`, validate.rs 393-417, with `validate_no_duplicate_council_members`, validate.rs 465-483. -/
def validateCouncil : Option CouncilSpec → Except Err (Option CouncilConfig)
  | none => .ok none
  | some c =>
    if ¬ c.members.Nodup then .error .duplicate else do
      validateAllowed c.allowed
      fraction c.quorum
      fraction c.threshold
      return some ⟨c.allowed.getD [.upgradeDao], c.quorum, c.threshold⟩

/-- `validate_asset_whitelist_changes`, validate.rs 201-288. The three sets of assets, by kind, are one list here. -/
def validateAssets (remote : Option Nat) (add remove : List AssetInfo) : Except Err Unit :=
  if remote.isSome then .ok ()
  else if ¬ add.Nodup then .error .duplicate
  else if ¬ remove.Nodup then .error .duplicate
  else if add.any (fun a => decide (a ∈ remove)) then .error .duplicate
  else .ok ()

/-- `validate_nft_whitelist_changes`, validate.rs 296-326. -/
def validateNfts (add remove : List Addr) : Except Err Unit :=
  if ¬ add.Nodup then .error .duplicate
  else if ¬ remove.Nodup then .error .duplicate
  else if add.any (fun a => decide (a ∈ remove)) then .error .duplicate
  else .ok ()

/-- `validate_upgrade_dao`, validate.rs 328-343. -/
def validateUpgrade (e : Env) (v : Version) : Except Err Unit :=
  if v ≤ e.version then .error .invalidArgument else .ok ()

/-- `validate_custom_execute_msgs`, validate.rs 345-364. -/
def validateCustom (e : Env) (msgs : List Nat) : Except Err Unit :=
  if msgs.all e.parses then .ok () else .error .invalidArgument

/-- `validate_modify_multisig_membership`, validate.rs 366-391. -/
def validateMultisig (e : Env) (edit : List (Addr × Nat)) : Except Err Unit :=
  if e.daoType ≠ .multisig then .error .unsupported
  else if ¬ (edit.map (·.1)).Nodup then .error .duplicate
  else .ok ()

/-- A cw1155 asset. -/
def isCw1155 : AssetInfo → Bool
  | .cw1155 _ _ => true
  | _ => false

/-- `validate_distribute_funds`, validate.rs 419-441. -/
def validateDistribute (funds : List Asset) : Except Err Unit :=
  if funds.any (fun a => isCw1155 a.info) then .error .unsupported else .ok ()

/-- `validate_request_funding_from_dao`, validate.rs 443-463. -/
def validateFunding (remote : Option Nat) (assets : List Asset) : Except Err Unit :=
  if remote.isNone ∧ assets.any (fun a => isCw1155 a.info) then .error .unsupported else .ok ()

/-- The match of `validate_proposal_actions`, validate.rs 108-141. -/
def validateAction (e : Env) (cfg : GovConfig) : Action → Except Err Unit
  | .updateAssetWhitelist r a d => validateAssets r a d
  | .updateNftWhitelist _ a d => validateNfts a d
  | .upgradeDao v => validateUpgrade e v
  | .executeMsgs l => validateCustom e l
  | .executeTreasuryMsgs _ l => validateCustom e l
  | .executeEnterpriseMsgs l => validateCustom e l
  | .modifyMultisig l => validateMultisig e l
  | .updateCouncil c => do
    let _ ← validateCouncil c
    return ()
  | .distributeFunds l => validateDistribute l
  | .requestFunding r _ l => validateFunding r l
  | .updateGovConfig c => validateConfig e.daoType (applyChange cfg c)
  | .updateMetadata _ | .updateMinWeight _ | .deployTreasury _ => .ok ()

/-- The loop of `validate_proposal_actions`, validate.rs 107-142. -/
def validateEach (e : Env) (cfg : GovConfig) : List Action → Except Err Unit
  | [] => .ok ()
  | a :: t => do
    validateAction e cfg a
    validateEach e cfg t

/-- `validate_proposal_actions`, validate.rs 96-145, with `MAXIMUM_PROPOSAL_ACTIONS` (line 35). -/
def validateActions (e : Env) (cfg : GovConfig) (l : List Action) : Except Err Unit :=
  if 10 < l.length then .error .invalidArgument else validateEach e cfg l

/-! ### Sub-messages -/

/-- A transfer of an asset or of an NFT. -/
inductive Transfer
  | asset (info : AssetInfo) (amount : Nat) (to : Addr)
  | nft (contract : Addr) (token : Nat) (to : Addr)
  deriving DecidableEq

/-- Messages to the main contract of the DAO. -/
inductive EnterpriseMsg
  | updateMetadata (m : Nat)
  | upgradeDao (v : Version)
  | executeMsgs (msgs : List Nat)
  deriving DecidableEq

/-- Sub-messages other than those to the governance contract. -/
inductive Sub
  /-- `ExecuteProposalActions` to itself, with a reply whatever the result (contract.rs 802-809) -/
  | actions (id : Nat)
  /-- transfer of the deposit of proposal `id`; the id is added for reference, it is not part of the message -/
  | deposit (id : Nat) (t : Transfer)
  /-- transfer of an NFT deposited by the proposer to the controller -/
  | takeNft (contract : Addr) (token : Nat)
  /-- message to the treasury, or to a remote treasury through the outposts contract -/
  | treasury (remote : Option Nat) (m : Treasury.Msg)
  | enterprise (m : EnterpriseMsg)
  /-- `SetMembers` to the council membership contract -/
  | council (members : List (Addr × Nat))
  /-- `UpdateUnlockingPeriod` to the membership contract -/
  | unlocking (d : Duration)
  /-- `UpdateMembers` to the membership contract -/
  | members (edit : List (Addr × Nat))
  | distributor (m : Distributor.Msg)
  /-- `DeployCrossChainTreasury` to the outposts contract -/
  | deploy (d : Nat)
  /-- a custom message of a proposal -/
  | custom (msg : Nat)
  deriving DecidableEq

/-! ### Creating proposals -/

/-- `CreateProposalMsg`, api.rs 91-105; a missing description is the empty one. -/
structure Proposal where
  title : Nat
  description : Nat
  actions : List Action
  owner : Option Addr
  deriving DecidableEq

/-- `instantiate`, contract.rs 115-153. -/
def init (b : Block) (enterprise : Addr) (t : DaoType) (cfg : GovConfig) (council : Option CouncilSpec)
    (infos : List (Nat × Info)) (treasuries : List Nat) : Except Err State := do
  validateConfig t cfg
  let c ← validateCouncil council
  return { creating := none, executing := none, voting := none, enterprise, config := cfg, council := c,
           created := b.time, treasuries := some treasuries,
           infos := infos.foldl (fun m p => m.set p.1 p.2) Map.empty }

/-- `unrestricted_users_only`, contract.rs 2052-2069. -/
def unrestricted (e : Env) (u : Addr) : Except Err Unit := if e.restricted u then .error .restricted else .ok ()

/-- `total_available_votes`, contract.rs 1837-1846 (1866-1877, 2036-2048). -/
def totalVotes (e : Env) (a : At) : PType → Nat
  | .general => e.total a
  | .council => e.councilTotal a

/-- `Timestamp::plus_seconds` (dependency): 64-bit arithmetic without overflow checks. -/
def plusSeconds (now s : Nat) : Nat := wadd64 now (s * 10 ^ 9 % M64)

/-- `reply` to `CREATE_POLL_REPLY_ID`, contract.rs 1362-1382; `id` is parsed from the event (1505-1538). -/
def replyCreate (s : State) (id : Nat) : Except Err State :=
  match s.creating with
  | none => .error .other
  | some i => .ok { s with creating := none, infos := s.infos.set id i }

/-- `create_poll`, contract.rs 480-526, followed by the message to governance and the reply. -/
def createPoll (e : Env) (s : State) (g : Gov.State) (cfg : GovConfig) (p : Proposal) (d : Option Deposit) (t : PType)
    (proposer : Addr) : Except Err (State × Gov.State) := do
  let s1 := { s with creating := some ⟨t, none, none, d, p.actions⟩ }
  let g1 ← Gov.exec g ⟨e.block.time, e.self, .createPoll
    { proposer, deposit := 0, label := p.title, description := p.description,
      endsAt := plusSeconds e.block.time cfg.voteDuration, quorum := cfg.quorum, threshold := cfg.threshold,
      vetoThreshold := cfg.veto }⟩
  let s2 ← replyCreate s1 g1.pollCount
  return (s2, g1)

/-- `assert_sufficient_deposit_or_member`, contract.rs 368-394. -/
def sufficient (cfg : GovConfig) (d : Option Deposit) (weight : Nat) : Except Err Unit :=
  match cfg.minDeposit with
  | none => if weight = 0 then .error .unauthorized else .ok ()
  | some r => if r ≤ (match d with | some x => x.amount | none => 0) then .ok () else .error .insufficient

/-- `create_proposal`, contract.rs 334-366. -/
def createProposal (e : Env) (s : State) (g : Gov.State) (p : Proposal) (d : Option Deposit) (proposer : Addr) :
    Except Err (State × Gov.State) := do
  unrestricted e proposer
  sufficient s.config d (e.weight proposer)
  validateActions e s.config p.actions
  createPoll e s g s.config p d .general proposer

/-- `determine_deposit_and_create_proposal`, contract.rs 179-217; `funds` are the attached coins. -/
def createWithFunds (e : Env) (sender : Addr) (funds : List (Nat × Nat)) (s : State) (g : Gov.State) (p : Proposal) :
    Except Err (State × Gov.State) :=
  match e.daoType with
  | .denom =>
    match e.denom with
    | none => .error .other
    | some d =>
      createProposal e s g p
        ((funds.find? (fun c => decide (c.1 = d))).map (fun c => ⟨p.owner.getD sender, .denom c.1 c.2⟩)) sender
  | _ => createProposal e s g p none sender

/-- `can_deposit_nft` and `has_nft_approval`, contract.rs 297-332. -/
def canDeposit (e : Env) (proposer : Addr) (token : Nat) : Except Err Bool :=
  match e.owner token with
  | none => .error .other
  | some (o, spenders) => .ok (decide (o = proposer) || decide (proposer ∈ spenders))

/-- The loop of `create_proposal_with_nft_deposit`, contract.rs 239-260. -/
def takeNfts (e : Env) (nft proposer : Addr) : List Nat → Except Err (List Sub)
  | [] => .ok []
  | t :: l => do
    let b ← canDeposit e proposer t
    if b then
      let r ← takeNfts e nft proposer l
      return .takeNft nft t :: r
    else .error .unauthorized

/-- `create_proposal_with_nft_deposit`, contract.rs 219-295. -/
def createWithNft (e : Env) (sender : Addr) (s : State) (g : Gov.State) (p : Proposal) (tokens : List Nat) :
    Except Err (State × Gov.State × List Sub) :=
  if e.daoType ≠ .nft then .error .unsupported
  else if ¬ tokens.Nodup then .error .duplicate
  else
    match e.nft with
    | none => .error .other
    | some nft => do
      let subs ← takeNfts e nft sender tokens
      let r ← createProposal e s g p (some ⟨p.owner.getD sender, .cw721 nft tokens⟩) sender
      return (r.1, r.2, subs)

/-- `receive_cw20`, contract.rs 1252-1287; `p` is `none` when the attached message does not parse. -/
def receive (e : Env) (sender : Addr) (s : State) (g : Gov.State) (from_ : Addr) (amount : Nat) (p : Option Proposal) :
    Except Err (State × Gov.State) :=
  match p with
  | none => .error .other
  | some p =>
    match e.token with
    | none => .error .other
    | some t =>
      if e.daoType ≠ .token ∨ sender ≠ t then .error .invalidArgument
      else createProposal e s g p (some ⟨p.owner.getD from_, .cw20 t amount⟩) from_

/-- `create_council_proposal`, contract.rs 396-459. -/
def createCouncil (e : Env) (sender : Addr) (s : State) (g : Gov.State) (p : Proposal) :
    Except Err (State × Gov.State) := do
  unrestricted e sender
  match s.council with
  | none => .error .notFound
  | some c => do
    validateActions e s.config p.actions
    if e.councilWeight sender = 0 then .error .unauthorized
    else if p.actions.all (fun a => decide (a.type ∈ c.allowed)) then
      createPoll e s g { s.config with quorum := c.quorum, threshold := c.threshold } p none .council sender
    else .error .unsupported

/-! ### Voting -/

/-- The earliest execution stored by the reply to a vote, contract.rs 1458-1479. -/
def restartCooldown (e : Env) (s : State) (id : Nat) (i : Info) (old new : Executability) (endsAt : Nat) : State :=
  if new ≠ old then
    let i1 := { i with earliest := some (min (plusSeconds e.block.time (s.config.voteDuration / 10)) endsAt) }
    { s with infos := s.infos.set id i1 }
  else s

/-- `reply` to `CAST_VOTE_REPLY_ID`, contract.rs 1408-1483. -/
def replyVote (e : Env) (s : State) (g : Gov.State) : Except Err State :=
  match s.voting with
  | none => .error .other
  | some (id, old) =>
    let s1 := { s with voting := none }
    if s1.config.early = false then .ok s1
    else if e.daoType = .multisig then .ok s1
    else
      match s1.infos.get id with
      | none => .error .notFound
      | some i =>
        if i.type = .council then .ok s1
        else do
          let st ← Gov.simulateEnd g id (totalVotes e .never i.type)
          let p ← Gov.queryPoll g id
          return restartCooldown e s1 id i old (executability st) p.endsAt

/-- `cast_vote`, contract.rs 528-589, followed by the message to governance and the reply. -/
def castVote (e : Env) (sender : Addr) (s : State) (g : Gov.State) (id : Nat) (o : Gov.Outcome) :
    Except Err (State × Gov.State) := do
  unrestricted e sender
  if e.weight sender = 0 then .error .unauthorized
  else
    match s.infos.get id with
    | none => .error .notFound
    | some i =>
      if i.type ≠ .general then .error .invalidArgument
      else do
        let st ← Gov.simulateEnd g id (totalVotes e .never i.type)
        let s1 := { s with voting := some (id, executability st) }
        let g1 ← Gov.exec g ⟨e.block.time, e.self, .castVote id o sender (e.weight sender)⟩
        let s2 ← replyVote e s1 g1
        return (s2, g1)

/-- `cast_council_vote`, contract.rs 591-641, followed by the message to governance. -/
def castCouncilVote (e : Env) (sender : Addr) (s : State) (g : Gov.State) (id : Nat) (o : Gov.Outcome) :
    Except Err (State × Gov.State) := do
  unrestricted e sender
  match s.council with
  | none => .error .notFound
  | some _ =>
    if e.councilWeight sender = 0 then .error .unauthorized
    else
      match s.infos.get id with
      | none => .error .notFound
      | some i =>
        if i.type ≠ .council then .error .invalidArgument
        else do
          let g1 ← Gov.exec g ⟨e.block.time, e.self, .castVote id o sender (e.councilWeight sender)⟩
          return (s, g1)

/-! ### Executing proposals -/

/-- `send_proposal_deposit_to`, contract.rs 690-722. -/
def depositTransfers (a : DepositAsset) (to : Addr) : List Transfer :=
  match a with
  | .denom d n => [.asset (.native d) n to]
  | .cw20 t n => [.asset (.cw20 t) n to]
  | .cw721 c l => l.map (fun t => .nft c t to)

/-- The same, as sub-messages for proposal `id`. -/
def sendDeposit (id : Nat) (a : DepositAsset) (to : Addr) : List Sub := (depositTransfers a to).map (.deposit id)

/-- `return_proposal_deposit_submsgs`, contract.rs 675-688. -/
def returnDeposit (id : Nat) (i : Info) : List Sub :=
  match i.deposit with
  | some d => sendDeposit id d.asset d.depositor
  | none => []

/-- The deposit of a rejected proposal, contract.rs 823-839. -/
def rejectedDeposit (e : Env) (id : Nat) (i : Info) (r : Gov.Reason) : List Sub :=
  match i.type with
  | .council => []
  | .general =>
    if r = .quorumNotReached ∨ r = .isVetoOutcome then
      match i.deposit with
      | some d => sendDeposit id d.asset e.comps.treasury
      | none => []
    else returnDeposit id i

/-- `set_proposal_executed`, proposals.rs 9-27. -/
def setExecuted (s : State) (id : Nat) (b : Block) : Except Err State :=
  match s.infos.get id with
  | none => .error .notFound
  | some i => .ok { s with infos := s.infos.set id { i with executedAt := some b } }

/-- `resolve_ended_proposal`, contract.rs 786-844. -/
def resolve (e : Env) (s : State) (g : Gov.State) (id : Nat) : Except Err (State × List Sub) := do
  let p ← Gov.queryPoll g id
  match p.status with
  | .inProgress _ => .error .withinVotingPeriod
  | .passed _ _ => do
    let s1 ← setExecuted s id e.block
    match s1.infos.get id with
    | none => .error .notFound
    | some i => .ok (s1, .actions id :: returnDeposit id i)
  | .rejected r => do
    let s1 ← setExecuted s id e.block
    match s1.infos.get id with
    | none => .error .notFound
    | some i => .ok (s1, rejectedDeposit e id i r)

/-- `reply` to `END_POLL_REPLY_ID`, contract.rs 1383-1407. -/
def replyEnd (e : Env) (s : State) (g : Gov.State) : Except Err (State × List Sub) :=
  match s.executing with
  | none => .error .other
  | some id => resolve e { s with executing := none } g id

/-- `allows_early_ending`, contract.rs 772-784. -/
def allowsEarly (s : State) : PType → Bool
  | .general => s.config.early
  | .council => true

/-- `end_proposal`, contract.rs 724-770, followed by the message to governance and the reply. -/
def endProposal (e : Env) (s : State) (g : Gov.State) (id : Nat) (t : PType) :
    Except Err (State × Gov.State × List Sub) := do
  let p ← Gov.queryPoll g id
  let total := if p.endsAt ≤ e.block.time then totalVotes e (.time p.endsAt) t else totalVotes e .never t
  if total = 0 then .error .zero
  else do
    let s1 := { s with executing := some id }
    let g1 ← Gov.exec g ⟨e.block.time, e.self, .endPoll id total false (allowsEarly s t)⟩
    let r ← replyEnd e s1 g1
    return (r.1, g1, r.2)

/-- `execute_proposal`, contract.rs 643-673. -/
def executeProposal (e : Env) (sender : Addr) (s : State) (g : Gov.State) (id : Nat) :
    Except Err (State × Gov.State × List Sub) := do
  unrestricted e sender
  match s.infos.get id with
  | none => .error .notFound
  | some i =>
    if i.executedAt.isSome then .error .alreadyEnded
    else if i.pastEarliest e.block.time = false then .error .withinVotingPeriod
    else endProposal e s g id i.type

/-! ### Actions -/

/-- `execute_treasury_msg`, contract.rs 1045-1075. -/
def treasuryMsg (remote : Option Nat) (m : Treasury.Msg) : List Sub := [.treasury remote m]

/-- The unlocking period messages of `update_gov_config`, contract.rs 949-978. -/
def unlockingSubs (t : DaoType) (d : Duration) : List Sub :=
  match t with
  | .multisig => []
  | _ => [.unlocking d]

/-- `update_gov_config`, contract.rs 928-982. -/
def updateGovConfig (e : Env) (s : State) (c : GovChange) : Except Err (State × List Sub) := do
  let cfg := applyChange s.config c
  validateConfig e.daoType cfg
  match c.unlocking with
  | some d => do
    validateUnlocking cfg d
    return ({ s with config := cfg }, unlockingSubs e.daoType d)
  | none => return ({ s with config := cfg }, [])

/-- `update_council`, contract.rs 984-1012. -/
def updateCouncil (s : State) (c : Option CouncilSpec) : Except Err (State × List Sub) := do
  let cfg ← validateCouncil c
  return ({ s with council := cfg },
    [.council ((match c with | some x => x.members | none => []).map (fun m => (m, 1)))])

/-- `execute_msgs`, contract.rs 1091-1100. -/
def customSubs (e : Env) (l : List Nat) : Except Err (List Sub) :=
  if l.all e.parses then .ok (l.map .custom) else .error .invalidArgument

/-- One action: the match of `execute_proposal_actions_submsgs` (contract.rs 873-890) with the handlers
`update_metadata` 897-910, `execute_funding_from_dao` 912-926, `update_asset_whitelist` 1014-1028,
`update_nft_whitelist` 1030-1043, `upgrade_dao` 1077-1089, `execute_treasury_msgs` 1102-1113,
`execute_enterprise_msgs` 1115-1130, `modify_multisig_membership` 1132-1150, `distribute_funds` 1152-1174,
`update_minimum_weight_for_rewards` 1176-1194, `deploy_cross_chain_treasury` 1196-1207. -/
def act (e : Env) (s : State) : Action → Except Err (State × List Sub)
  | .updateMetadata m => .ok (s, [.enterprise (.updateMetadata m)])
  | .updateGovConfig c => updateGovConfig e s c
  | .updateCouncil c => updateCouncil s c
  | .requestFunding r to l => .ok (s, treasuryMsg r (.spend to l))
  | .updateAssetWhitelist r a d => .ok (s, treasuryMsg r (.updateAssets a d))
  | .updateNftWhitelist r a d => .ok (s, treasuryMsg r (.updateNfts a d))
  | .upgradeDao v => do
    validateUpgrade e v
    return (s, [.enterprise (.upgradeDao v)])
  | .executeMsgs l => do
    let subs ← customSubs e l
    return (s, subs)
  | .executeTreasuryMsgs r l =>
    .ok (s, treasuryMsg r (.cosmosMsgs (l.map (fun m => if e.parses m then some m else none))))
  | .executeEnterpriseMsgs l => .ok (s, [.enterprise (.executeMsgs l)])
  | .modifyMultisig l => do
    validateMultisig e l
    return (s, [.members l])
  | .distributeFunds l => .ok (s, [.treasury none (.distribute e.comps.distributor l)])
  | .updateMinWeight w => .ok (s, [.distributor (.updateMin w)])
  | .deployTreasury d => .ok (s, [.deploy d])

/-- The loop of `execute_proposal_actions_submsgs`, contract.rs 872-892. -/
def actAll (e : Env) : State → List Action → Except Err (State × List Sub)
  | s, [] => .ok (s, [])
  | s, a :: t => do
    let r ← act e s a
    let r2 ← actAll e r.1 t
    return (r2.1, r.2 ++ r2.2)

/-- `execute_proposal_actions`, contract.rs 846-895. -/
def executeActions (e : Env) (sender : Addr) (s : State) (id : Nat) : Except Err (State × List Sub) :=
  if sender ≠ e.self then .error .unauthorized
  else
    match s.infos.get id with
    | none => .error .notFound
    | some i => actAll e s i.actions

/-- `execute_deploy_initial_cross_chain_treasuries`, contract.rs 1209-1250. -/
def deployInitial (e : Env) (sender : Addr) (s : State) : Except Err (State × List Sub) :=
  if s.created ≠ e.block.time then .error .unauthorized
  else if e.creator ≠ sender then .error .unauthorized
  else .ok ({ s with treasuries := none }, (s.treasuries.getD []).map .deploy)

/-- The messages of `update_user_votes`, contract.rs 1337-1357, executed by governance in order. -/
def updateAllVotes (e : Env) (g : Gov.State) (l : List WeightChange) : Except Err Gov.State :=
  l.foldlM (fun g c => Gov.exec g ⟨e.block.time, e.self, .updateVotes c.user c.new⟩) g

/-- `weights_changed`, contract.rs 1293-1335. -/
def weightsChanged (e : Env) (sender : Addr) (g : Gov.State) (l : List WeightChange) :
    Except Err (Gov.State × List Sub) :=
  if sender = e.comps.council then .ok (g, [])
  else if sender ≠ e.comps.membership then .error .unauthorized
  else do
    let g1 ← updateAllVotes e g l
    return (g1, [.distributor (.updateWeights (l.map (fun c => (c.user, c.new))))])

/-! ### Entry point -/

/-- `ExecuteMsg`, enterprise-governance-controller-api/src/msg.rs. -/
inductive Msg
  | createProposal (p : Proposal) (funds : List (Nat × Nat))
  | createWithNft (p : Proposal) (tokens : List Nat)
  | createCouncil (p : Proposal)
  | castVote (id : Nat) (o : Gov.Outcome)
  | castCouncilVote (id : Nat) (o : Gov.Outcome)
  | execute (id : Nat)
  | receive (from_ : Addr) (amount : Nat) (p : Option Proposal)
  | weightsChanged (l : List WeightChange)
  | executeActions (id : Nat)
  | deployInitial
  deriving DecidableEq

/-- `execute`, contract.rs 155-177, with the messages to governance and their replies run in place. -/
def exec (e : Env) (sender : Addr) (s : State) (g : Gov.State) : Msg → Except Err (State × Gov.State × List Sub)
  | .createProposal p f => do
    let r ← createWithFunds e sender f s g p
    return (r.1, r.2, [])
  | .createWithNft p l => createWithNft e sender s g p l
  | .createCouncil p => do
    let r ← createCouncil e sender s g p
    return (r.1, r.2, [])
  | .castVote id o => do
    let r ← castVote e sender s g id o
    return (r.1, r.2, [])
  | .castCouncilVote id o => do
    let r ← castCouncilVote e sender s g id o
    return (r.1, r.2, [])
  | .execute id => executeProposal e sender s g id
  | .receive u a p => do
    let r ← receive e sender s g u a p
    return (r.1, r.2, [])
  | .weightsChanged l => do
    let r ← weightsChanged e sender g l
    return (s, r.1, r.2)
  | .executeActions id => do
    let r ← executeActions e sender s id
    return (r.1, g, r.2)
  | .deployInitial => do
    let r ← deployInitial e sender s
    return (r.1, g, r.2)

/-! ### Queries -/

/-- `ProposalStatus`, api.rs 334-341. -/
inductive PStatus
  | inProgress | canExecuteEarly | passed | rejected | executed
  deriving DecidableEq

/-- `determine_final_status_of_ended_poll`, contract.rs 1818-1835. -/
def finalStatus (e : Env) (g : Gov.State) (endsAt id : Nat) (t : PType) : Except Err PStatus := do
  let st ← Gov.simulateEnd g id (totalVotes e (.time endsAt) t)
  match st with
  | .inProgress _ => .error .other
  | .passed _ _ => .ok .passed
  | .rejected _ => .ok .rejected

/-- The match on the simulated status, contract.rs 1796-1805. -/
def earlyStatus : Gov.Status → PStatus
  | .inProgress _ => .inProgress
  | .passed _ _ => .canExecuteEarly
  | .rejected .isRejectingOutcome => .canExecuteEarly
  | .rejected .isVetoOutcome => .canExecuteEarly
  | .rejected _ => .inProgress

/-- `fix_poll_status`, contract.rs 1757-1816. -/
def fixStatus (e : Env) (s : State) (g : Gov.State) (id : Nat) (st : Gov.Status) (i : Info) : Except Err PStatus :=
  if i.executedAt.isSome then .ok .executed
  else
    match st with
    | .passed _ _ => .ok .passed
    | .rejected _ => .ok .rejected
    | .inProgress endsAt =>
      if endsAt ≤ e.block.time then finalStatus e g endsAt id i.type
      else if allowsEarly s i.type && i.pastEarliest e.block.time then do
        let x ← Gov.simulateEnd g id (totalVotes e .never i.type)
        return earlyStatus x
      else .ok .inProgress

/-- `query_proposal_status` (the status), contract.rs 1648-1671. -/
def queryStatus (e : Env) (s : State) (g : Gov.State) (id : Nat) : Except Err PStatus := do
  let p ← Gov.queryPoll g id
  match s.infos.get id with
  | none => .error .notFound
  | some i => fixStatus e s g id p.status i

/-- `ProposalResponse`, api.rs 288-301, with the fields of `Proposal`. -/
structure Response where
  type : PType
  id : Nat
  proposer : Addr
  title : Nat
  description : Nat
  status : PStatus
  startedAt : Nat
  expires : Nat
  actions : List Action
  results : Map Nat Nat
  totalVotes : Nat
  deriving DecidableEq

/-- `poll_to_proposal_response`, contract.rs 1686-1752 (polls expire at a time). -/
def toResponse (e : Env) (s : State) (g : Gov.State) (p : Gov.Poll) : Except Err Response :=
  match s.infos.get p.id with
  | none => .error .notFound
  | some i => do
    let st ← fixStatus e s g p.id p.status i
    let exp := match i.executedAt with
      | some b => At.time (min p.endsAt b.time)
      | none => if p.endsAt ≤ e.block.time then .time p.endsAt else .never
    return { type := i.type, id := p.id, proposer := p.proposer, title := p.label, description := p.description,
             status := st, startedAt := p.startedAt, expires := p.endsAt, actions := i.actions, results := p.results,
             totalVotes := Controller.totalVotes e exp i.type }

/-- `query_proposal`, contract.rs 1580-1589. -/
def queryProposal (e : Env) (s : State) (g : Gov.State) (id : Nat) : Except Err Response := do
  let p ← Gov.queryPoll g id
  toResponse e s g p

end Verif.Controller
