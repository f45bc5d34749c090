import Verif.Enterprise.Model
import Verif.Controller.Model

/-!
# The factory of DAOs (`contracts/enterprise-factory`)

Contents of messages that the factory only passes on are natural numbers. The contracts instantiated by the factory send
nothing on instantiation, so a creation is what the factory itself does, message after message and reply after reply.
-/

namespace Verif.Factory
open Verif
open Verif.Staking (Duration)
open Verif.Versioning (Version Info)
open Verif.Enterprise (DaoType Components)
open Verif.Controller (GovConfig CouncilSpec)

/-- `NftContract`. -/
inductive NftContract
  | cw721 (contract : Addr)
  | ics721 (contract class_ : Nat)
  deriving DecidableEq

/-- `CreateDaoMembershipMsg`, packages/enterprise-factory-api/src/api.rs 62-72 and 75-140. -/
inductive Membership
  | newDenom (denom : Nat) (unlocking : Duration)
  | importCw20 (contract : Addr) (unlocking : Duration)
  | newCw20 (balances : List (Addr × Nat)) (daoBalance : Option Nat) (mint : Option (Addr × Option Nat))
      (marketing : Option (Option Addr)) (rest : Nat) (unlocking : Duration)
  | importCw721 (contract : Addr) (unlocking : Duration)
  | newCw721 (minter : Option Addr) (rest : Nat) (unlocking : Duration)
  | newIcs721 (proxy class_ : Nat) (unlocking : Duration)
  | importCw3 (contract : Addr)
  | newMultisig (members : List (Addr × Nat))
  deriving DecidableEq

/-- `CreateDaoMsg`, api.rs 25-45. -/
structure CreateDao where
  metadata : Nat
  gov : GovConfig
  council : Option CouncilSpec
  membership : Membership
  assets : Option (List Nat)
  nfts : Option (List Nat)
  minWeight : Option Nat
  treasuries : Option (List Nat)
  attestation : Option Nat
  deriving DecidableEq

/-- `Config`, api.rs 12-18. -/
structure Config where
  admin : Addr
  versioning : Addr
  cw20 : Nat
  cw721 : Nat
  deriving DecidableEq

/-- `DaoBeingCreated`, state.rs 26-47. -/
structure Being where
  msg : Option CreateDao := none
  version : Option Info := none
  asset : Option Addr := none
  nft : Option Addr := none
  enterprise : Option Addr := none
  weights : Option (List (Addr × Nat)) := none
  type : Option DaoType := none
  unlocking : Option Duration := none
  membership : Option Addr := none
  council : Option Addr := none
  distributor : Option Addr := none
  governance : Option Addr := none
  controller : Option Addr := none
  outposts : Option Addr := none
  treasury : Option Addr := none
  attestation : Option Addr := none
  deriving DecidableEq

/-- Storage, state.rs 13-24. `ENTERPRISE_CODE_IDS` is never written and left out. -/
structure State where
  config : Config
  daos : Map Nat Addr
  counter : Nat
  assets : List Nat
  nfts : List Nat
  being : Option Being

/-- What the contract sees of the chain: its address, the version registries, and the answers of the contracts that are
imported (`none` where a query fails). -/
structure Env where
  self : Addr
  registry : Addr → Option Versioning.State
  /-- `TokenInfo`: total supply -/
  supply : Addr → Option Nat
  /-- `Minter` -/
  minter : Addr → Option (Option Addr)
  /-- whether `NumTokens` is answered -/
  isCw721 : Addr → Bool
  /-- `ListVoters` with start and limit -/
  voters : Addr → Option Addr → Nat → Option (List (Addr × Nat))
  /-- how many queries the gas allows in a loop -/
  gas : Nat

/-- Errors of the contract. -/
inductive Err
  | unauthorized
  | notStored
  | missing
  | queryFailed
  | invalidExisting
  | noInitialMembers
  | noBalancesOrMint
  | zeroInitialDaoBalance
  | zeroInitialWeight
  | voteDurationLonger
  | overflow
  | outOfGas
  | noSuchReply
  deriving DecidableEq

/-- Instantiation messages. -/
inductive Inst
  | enterprise (metadata : Nat) (factory versioning : Addr) (type : DaoType) (version : Version)
  | controller (enterprise : Addr) (type : DaoType) (gov : GovConfig) (council : Option CouncilSpec)
      (treasuries : Option (List Nat))
  | governance (admin : Addr)
  | outposts (enterprise : Addr)
  | treasury (admin : Addr) (assets nfts : List Nat)
  | multisig (enterprise : Addr) (weights : List (Addr × Nat)) (hooks : List Addr)
  | denom (enterprise : Addr) (denom : Nat) (unlocking : Duration) (hooks : List Addr)
  | token (enterprise token : Addr) (unlocking : Duration) (hooks : List Addr)
  | nft (enterprise : Addr) (contract : NftContract) (unlocking : Duration) (hooks : List Addr)
  | cw20 (balances : List (Addr × Nat)) (mint : Addr × Option Nat) (marketing : Addr) (rest : Nat)
  | cw721 (minter : Addr) (rest : Nat)
  | distributor (admin enterprise : Addr) (weights : List (Addr × Nat)) (minWeight : Option Nat)
  | attestation (text : Nat)
  deriving DecidableEq

/-- Messages sent. -/
inductive Sub
  /-- instantiate, with the id of the reply on success and the admin who may migrate -/
  | inst (id : Nat) (admin : Option Addr) (code : Nat) (m : Inst)
  | updateAdmin (contract admin : Addr)
  /-- `FinalizeDaoCreation` to the factory itself -/
  | finalizeSelf
  /-- `FinalizeInstantiation` to the enterprise contract -/
  | finalize (enterprise : Addr) (c : Components)
  /-- some `uluna` -/
  | fund (to : Addr) (amount : Nat)
  /-- `DeployInitialCrossChainTreasuries` to the controller -/
  | deployInitial (controller : Addr)
  deriving DecidableEq

/-- A value that must be there. -/
def need {α : Type} (o : Option α) (x : Err) : Except Err α :=
  match o with
  | some a => .ok a
  | none => .error x

/-- `instantiate`, contract.rs 78-107. Assets and NFTs are checked already. -/
def init (config : Config) (assets nfts : Option (List Nat)) : State :=
  ⟨config, Map.empty, 1, assets.getD [], nfts.getD [], none⟩

/-- The kind of DAO, contract.rs 158-163. -/
def daoType : Membership → DaoType
  | .newDenom .. => .denom
  | .importCw20 .. | .newCw20 .. => .token
  | .importCw721 .. | .newCw721 .. | .newIcs721 .. => .nft
  | .importCw3 .. | .newMultisig .. => .multisig

/-- `create_dao_with_version_info`, contract.rs 150-209. -/
def createWith (e : Env) (s : State) (m : CreateDao) (v : Info) : State × List Sub :=
  ({ s with being := some { msg := some m, version := some v, type := some (daoType m.membership) } },
    [.inst 1 (some e.self) v.enterprise
      (.enterprise m.metadata e.self s.config.versioning (daoType m.membership) v.version)])

/-- `create_dao` and `create_dao_with_version`, contract.rs 119-148; the latest version if none is given. -/
def createDao (e : Env) (s : State) (m : CreateDao) (version : Option Version) : Except Err (State × List Sub) := do
  let r ← need (e.registry s.config.versioning) .queryFailed
  match version with
  | none =>
    match Versioning.queryLatest r with
    | .error _ => .error .queryFailed
    | .ok v => .ok (createWith e s m v)
  | some x =>
    match Versioning.queryVersion r x with
    | .error _ => .error .queryFailed
    | .ok v => .ok (createWith e s m v)

/-- `update_config`, contract.rs 211-242. -/
def updateConfig (s : State) (sender : Addr) (admin versioning : Option Addr) (cw20 cw721 : Option Nat) :
    Except Err State :=
  if s.config.admin ≠ sender then .error .unauthorized
  else .ok { s with config := {
    admin := admin.getD s.config.admin
    versioning := versioning.getD s.config.versioning
    cw20 := cw20.getD s.config.cw20
    cw721 := cw721.getD s.config.cw721 } }

/-- The messages for the initial treasuries on other chains, contract.rs 311-338. -/
def treasurySubs (m : CreateDao) (outposts controller : Addr) : List Sub :=
  match m.treasuries with
  | some l => if l = [] then [] else [.fund outposts l.length, .deployInitial controller]
  | none => []

/-- `finalize_dao_creation`, contract.rs 244-341. -/
def finalizeDao (e : Env) (s : State) (sender : Addr) : Except Err (State × List Sub) :=
  if sender ≠ e.self then .error .unauthorized
  else do
    let b ← need s.being .notStored
    let enterprise ← need b.enterprise .missing
    let treasury ← need b.treasury .missing
    let governance ← need b.governance .missing
    let controller ← need b.controller .missing
    let outposts ← need b.outposts .missing
    let distributor ← need b.distributor .missing
    let membership ← need b.membership .missing
    let council ← need b.council .missing
    let m ← need b.msg .missing
    .ok ({ s with being := some {} },
      .finalize enterprise ⟨governance, controller, treasury, outposts, distributor, membership, council, b.attestation⟩
        :: treasurySubs m outposts controller)

/-- `validate_unlocking_period`, validate.rs 45-55. -/
def validateUnlocking (g : GovConfig) : Duration → Except Err Unit
  | .time t => if t < g.voteDuration then .error .voteDurationLonger else .ok ()
  | .height _ => .ok ()

/-- `instantiate_denom_staking_membership_contract`, denom_membership.rs 11-50. -/
def denomMembership (b : Being) (denom : Nat) (unlocking : Duration) (hooks : List Addr) : Except Err (Being × Sub) := do
  let ent ← need b.enterprise .missing
  let v ← need b.version .missing
  let m ← need b.msg .missing
  validateUnlocking m.gov unlocking
  pure ({ b with unlocking := some unlocking }, .inst 4 (some ent) v.denomStaking (.denom ent denom unlocking hooks))

/-- `instantiate_token_staking_membership_contract`, token_membership.rs 152-186. -/
def tokenMembership (b : Being) (token : Addr) (unlocking : Duration) (hooks : List Addr) : Except Err Sub := do
  let ent ← need b.enterprise .missing
  let v ← need b.version .missing
  let m ← need b.msg .missing
  validateUnlocking m.gov unlocking
  pure (.inst 4 (some ent) v.tokenStaking (.token ent token unlocking hooks))

/-- `import_cw20_membership`, token_membership.rs 18-54. -/
def importCw20 (e : Env) (b : Being) (contract : Addr) (unlocking : Duration) (hooks : List Addr) :
    Except Err (Being × Sub) := do
  let supply ← need (e.supply contract) .invalidExisting
  if supply = 0 ∧ e.minter contract = none then .error .queryFailed
  else if supply = 0 ∧ e.minter contract = some none then .error .noBalancesOrMint
  else do
    let m ← tokenMembership { b with unlocking := some unlocking } contract unlocking hooks
    pure ({ b with unlocking := some unlocking }, m)

/-- The initial balances of a new token, token_membership.rs 110-120. -/
def initialBalances (balances : List (Addr × Nat)) (daoBalance : Option Nat) (treasury : Addr) : List (Addr × Nat) :=
  match daoBalance with
  | none => balances
  | some x => balances ++ [(treasury, x)]

/-- `instantiate_new_cw20_membership`, token_membership.rs 56-150. -/
def newCw20 (s : State) (b : Being) (treasury : Addr) (balances : List (Addr × Nat)) (daoBalance : Option Nat)
    (mint : Option (Addr × Option Nat)) (marketing : Option (Option Addr)) (rest : Nat) (unlocking : Duration) :
    Except Err (Being × Sub) :=
  if daoBalance = some 0 then .error .zeroInitialDaoBalance
  else if ∃ x ∈ balances, x.2 = 0 then .error .zeroInitialWeight
  else if balances = [] ∧ mint = none then .error .noBalancesOrMint
  else do
    let ent ← need b.enterprise .missing
    pure ({ b with unlocking := some unlocking }, .inst 2 (some ent) s.config.cw20
      (.cw20 (initialBalances balances daoBalance treasury) (mint.getD (ent, none)) ((marketing.getD none).getD ent)
        rest))

/-- `instantiate_nft_staking_membership_contract`, nft_membership.rs 106-141. -/
def nftMembership (b : Being) (c : NftContract) (unlocking : Duration) (hooks : List Addr) : Except Err Sub := do
  let ent ← need b.enterprise .missing
  let v ← need b.version .missing
  let m ← need b.msg .missing
  validateUnlocking m.gov unlocking
  pure (.inst 4 (some ent) v.nftStaking (.nft ent c unlocking hooks))

/-- `import_cw721_membership`, nft_membership.rs 17-39. -/
def importCw721 (e : Env) (b : Being) (contract : Addr) (unlocking : Duration) (hooks : List Addr) :
    Except Err (Being × Sub) :=
  if e.isCw721 contract = false then .error .invalidExisting
  else do
    let m ← nftMembership { b with unlocking := some unlocking } (.cw721 contract) unlocking hooks
    pure ({ b with unlocking := some unlocking }, m)

/-- `instantiate_new_cw721_membership`, nft_membership.rs 41-78. -/
def newCw721 (s : State) (b : Being) (minter : Option Addr) (rest : Nat) (unlocking : Duration) :
    Except Err (Being × Sub) := do
  let ent ← need b.enterprise .missing
  pure ({ b with unlocking := some unlocking }, .inst 3 (some ent) s.config.cw721 (.cw721 (minter.getD ent) rest))

/-- `import_ics721_membership`, nft_membership.rs 80-104. -/
def importIcs721 (b : Being) (proxy class_ : Nat) (unlocking : Duration) (hooks : List Addr) :
    Except Err (Being × Sub) := do
  let m ← nftMembership { b with unlocking := some unlocking } (.ics721 proxy class_) unlocking hooks
  pure ({ b with unlocking := some unlocking }, m)

/-- `instantiate_multisig_membership_contract`, multisig_membership.rs 86-123. -/
def multisigMembership (b : Being) (weights : List (Addr × Nat)) (hooks : List Addr) (id : Nat) :
    Except Err (Being × Sub) := do
  let ent ← need b.enterprise .missing
  let v ← need b.version .missing
  pure ({ b with weights := some weights }, .inst id (some ent) v.multisig (.multisig ent weights hooks))

/-- Checked addition of `Uint128`. -/
def plus (t w : Nat) : Except Err Nat := if t + w < M128 then .ok (t + w) else .error .overflow

/-- The loop of `import_cw3_membership`, multisig_membership.rs 27-58: voters so far and their total weight. -/
def importLoop (ask : Option Addr → Option (List (Addr × Nat))) : Nat → Option Addr → List (Addr × Nat) → Nat →
    Except Err (List (Addr × Nat) × Nat)
  | 0, _, _, _ => .error .outOfGas
  | g + 1, last, acc, total => do
    let vs ← need (ask last) .queryFailed
    let total ← vs.foldlM (fun t v => plus t v.2) total
    match vs.getLast? with
    | none => .ok (acc ++ vs, total)
    | some v => importLoop ask g (some v.1) (acc ++ vs) total

/-- `import_cw3_membership`, multisig_membership.rs 17-71, with `validate_existing_cw3_contract`, validate.rs 33-43. -/
def importCw3 (e : Env) (b : Being) (contract : Addr) (hooks : List Addr) : Except Err (Being × Sub) := do
  let _ ← need (e.voters contract none 10) .invalidExisting
  let r ← importLoop (fun c => e.voters contract c 100) e.gas none [] 0
  if r.2 = 0 then .error .noInitialMembers else multisigMembership b r.1 hooks 4

/-- The choice of membership, contract.rs 689-717 (the multisig's check is 712-714). -/
def membership (e : Env) (s : State) (b : Being) (treasury : Addr) (m : Membership) (hooks : List Addr) :
    Except Err (Being × Sub) :=
  match m with
  | .newDenom d u => denomMembership b d u hooks
  | .importCw20 c u => importCw20 e b c u hooks
  | .newCw20 bal dao mint mark rest u => newCw20 s b treasury bal dao mint mark rest u
  | .importCw721 c u => importCw721 e b c u hooks
  | .newCw721 minter rest u => newCw721 s b minter rest u
  | .newIcs721 p c u => importIcs721 b p c u hooks
  | .importCw3 c => importCw3 e b c hooks
  | .newMultisig l => if l = [] then .error .noInitialMembers else multisigMembership b l hooks 4

/-- Reply 1, contract.rs 346-396. -/
def replyEnterprise (s : State) (addr : Addr) : Except Err (State × List Sub) := do
  let b ← need s.being .notStored
  let m ← need b.msg .missing
  let v ← need b.version .missing
  let t ← need b.type .missing
  pure ({ s with being := some { b with enterprise := some addr } },
    [.updateAdmin addr addr,
     .inst 8 (some addr) v.controller (.controller addr t m.gov m.council m.treasuries)])

/-- Reply 2, contract.rs 397-424. -/
def replyCw20 (s : State) (addr : Addr) : Except Err (State × List Sub) := do
  let b ← need s.being .notStored
  let u ← need b.unlocking .missing
  let c ← need b.controller .missing
  let m ← tokenMembership { b with asset := some addr } addr u [c]
  pure ({ s with being := some { b with asset := some addr } }, [m])

/-- Reply 3, contract.rs 425-454. -/
def replyCw721 (s : State) (addr : Addr) : Except Err (State × List Sub) := do
  let b ← need s.being .notStored
  let u ← need b.unlocking .missing
  let c ← need b.controller .missing
  let m ← nftMembership { b with nft := some addr } (.cw721 addr) u [c]
  pure ({ s with being := some { b with nft := some addr } }, [m])

/-- Replies that only store an address: 4 (contract.rs 455-472), 5 (473-490), 6 (491-505), 7 (506-520), 9 (644-658),
11 (759-773). -/
def replyStore (s : State) (f : Being → Being) : Except Err (State × List Sub) := do
  let b ← need s.being .notStored
  pure ({ s with being := some (f b) }, [])

/-- The weights of the council, contract.rs 599-608. -/
def councilWeights (m : CreateDao) : List (Addr × Nat) := ((m.council.map (·.members)).getD []).map (fun u => (u, 1))

/-- The instantiation of an attestation contract, contract.rs 622-633. -/
def attestationSubs (m : CreateDao) (v : Info) : List Sub :=
  match m.attestation with
  | some text => [.inst 11 none v.attestation (.attestation text)]
  | none => []

/-- Reply 8, contract.rs 521-643. -/
def replyController (s : State) (addr : Addr) : Except Err (State × List Sub) := do
  let b ← need s.being .notStored
  let m ← need b.msg .missing
  let v ← need b.version .missing
  let ent ← need b.enterprise .missing
  let r ← multisigMembership { b with controller := some addr } (councilWeights m) [addr] 5
  pure ({ s with being := some r.1 },
    [.inst 7 (some ent) v.governance (.governance addr), r.2,
     .inst 9 (some ent) v.outposts (.outposts ent),
     .inst 10 (some ent) v.treasury (.treasury addr (m.assets.getD [] ++ b.asset.toList)
       (m.nfts.getD [] ++ b.nft.toList))] ++ attestationSubs m v ++ [.finalizeSelf])

/-- Reply 10, contract.rs 659-758. The number of the DAO is a `u64`, added without overflow check. -/
def replyTreasury (e : Env) (s : State) (addr : Addr) : Except Err (State × List Sub) := do
  let b ← need s.being .notStored
  let m ← need b.msg .missing
  let c ← need b.controller .missing
  let r ← membership e s { b with treasury := some addr } addr m.membership [c]
  let v ← need r.1.version .missing
  let ent ← need r.1.enterprise .missing
  pure ({ s with counter := wadd64 s.counter 1, daos := s.daos.set s.counter addr, being := some r.1 },
    [r.2, .inst 6 (some ent) v.distributor (.distributor c ent (r.1.weights.getD []) m.minWeight)])

/-- `reply`, contract.rs 344-778. -/
def reply (e : Env) (s : State) (id : Nat) (addr : Addr) : Except Err (State × List Sub) :=
  match id with
  | 1 => replyEnterprise s addr
  | 2 => replyCw20 s addr
  | 3 => replyCw721 s addr
  | 4 => replyStore s (fun b => { b with membership := some addr })
  | 5 => replyStore s (fun b => { b with council := some addr })
  | 6 => replyStore s (fun b => { b with distributor := some addr })
  | 7 => replyStore s (fun b => { b with governance := some addr })
  | 8 => replyController s addr
  | 9 => replyStore s (fun b => { b with outposts := some addr })
  | 10 => replyTreasury e s addr
  | 11 => replyStore s (fun b => { b with attestation := some addr })
  | _ => .error .noSuchReply

/-- `ExecuteMsg`. -/
inductive Msg
  | createDao (m : CreateDao)
  | createDaoWithVersion (m : CreateDao) (version : Version)
  | updateConfig (admin versioning : Option Addr) (cw20 cw721 : Option Nat)
  | finalizeDaoCreation
  deriving DecidableEq

/-- `execute`, contract.rs 110-117. -/
def exec (e : Env) (s : State) (sender : Addr) : Msg → Except Err (State × List Sub)
  | .createDao m => createDao e s m none
  | .createDaoWithVersion m v => createDao e s m (some v)
  | .updateConfig a v c n => do let s ← updateConfig s sender a v c n; pure (s, [])
  | .finalizeDaoCreation => finalizeDao e s sender

/-- What was done: the messages in the order in which they ran, with the address of an instantiated contract. -/
abbrev Trace := List (Sub × Option Addr)

/-- Running of sub-messages, depth first, with replies. An instantiated contract gets some address. Any failure reverts
the whole transaction, so there is no rule for failures. -/
inductive Exec (e : Env) : State → List Sub → State → Trace → Prop
  | nil {s : State} : Exec e s [] s []
  | inst {s s1 s2 s3 : State} {id : Nat} {admin : Option Addr} {code : Nat} {m : Inst} {subs rest : List Sub}
      {t1 t2 : Trace} (addr : Addr) (hr : reply e s id addr = .ok (s1, subs)) (h1 : Exec e s1 subs s2 t1)
      (h2 : Exec e s2 rest s3 t2) :
      Exec e s (.inst id admin code m :: rest) s3 ((.inst id admin code m, some addr) :: (t1 ++ t2))
  | own {s s1 s2 s3 : State} {subs rest : List Sub} {t1 t2 : Trace} (hr : finalizeDao e s e.self = .ok (s1, subs))
      (h1 : Exec e s1 subs s2 t1) (h2 : Exec e s2 rest s3 t2) :
      Exec e s (.finalizeSelf :: rest) s3 ((.finalizeSelf, none) :: (t1 ++ t2))
  | updateAdmin {s s' : State} {a b : Addr} {rest : List Sub} {t : Trace} (h : Exec e s rest s' t) :
      Exec e s (.updateAdmin a b :: rest) s' ((.updateAdmin a b, none) :: t)
  | finalize {s s' : State} {a : Addr} {c : Components} {rest : List Sub} {t : Trace} (h : Exec e s rest s' t) :
      Exec e s (.finalize a c :: rest) s' ((.finalize a c, none) :: t)
  | fund {s s' : State} {a n : Nat} {rest : List Sub} {t : Trace} (h : Exec e s rest s' t) :
      Exec e s (.fund a n :: rest) s' ((.fund a n, none) :: t)
  | deployInitial {s s' : State} {a : Addr} {rest : List Sub} {t : Trace} (h : Exec e s rest s' t) :
      Exec e s (.deployInitial a :: rest) s' ((.deployInitial a, none) :: t)

/-- A transaction: a message from an account or another contract, with all its sub-messages. -/
inductive Tx (e : Env) (s : State) (sender : Addr) (m : Msg) (s' : State) (t : Trace) : Prop
  | mk {s1 : State} {subs : List Sub} (hs : sender ≠ e.self) (hx : exec e s sender m = .ok (s1, subs))
      (h : Exec e s1 subs s' t)

/-- A history of transactions that went through, newest last; the others change nothing. What the chain answers may
change from one to the next. -/
inductive Hist (self : Addr) (s : State) : List (Msg × Trace) → State → Prop
  | nil : Hist self s [] s
  | step {l : List (Msg × Trace)} {s1 s2 : State} {e : Env} {sender : Addr} {m : Msg} {t : Trace} (h : Hist self s l s1)
      (he : e.self = self) (ht : Tx e s1 sender m s2 t) : Hist self s (l ++ [(m, t)]) s2

/-- `query_all_daos`, contract.rs 801-819; limits of lines 62-63. -/
def queryAllDaos (s : State) (after : Option Nat) (limit : Option Nat) : List (Nat × Addr) :=
  s.daos.page after (min (limit.getD 50) 100)

/-- `query_asset_whitelist` and `query_nft_whitelist`, contract.rs 821-831. -/
def queryWhitelists (s : State) : List Nat × List Nat := (s.assets, s.nfts)

end Verif.Factory
