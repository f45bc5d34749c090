import Verif.Versioning.Model

/-!
# The enterprise contract (`contracts/enterprise`) and the attestation contract (`contracts/attestation`)
-/

namespace Verif.Enterprise
open Verif
open Verif.Versioning (Version Info)

/-! ### Attestation -/

/-- Storage of an attestation contract, contracts/attestation/src/state.rs 4-6. The text is opaque. -/
structure Attestation where
  text : Nat
  signatures : Map Addr Unit

/-- `instantiate`, attestation/src/contract.rs 17-28. -/
def Attestation.init (text : Nat) : Attestation := ⟨text, Map.empty⟩

/-- `sign_attestation`, attestation/src/contract.rs 44-49. -/
def Attestation.sign (a : Attestation) (sender : Addr) : Attestation :=
  { a with signatures := a.signatures.set sender () }

/-- `query_has_user_signed`, attestation/src/contract.rs 76-85. -/
def Attestation.hasSigned (a : Attestation) (user : Addr) : Bool := a.signatures.has user

/-! ### Enterprise -/

/-- `DaoType`. -/
inductive DaoType
  | denom | token | nft | multisig
  deriving DecidableEq

/-- `DaoMetadata` with its socials; the values are opaque. -/
structure Metadata where
  name : Nat
  description : Option Nat
  logo : Nat
  github : Option Nat
  discord : Option Nat
  twitter : Option Nat
  telegram : Option Nat
  deriving DecidableEq

/-- `UpdateMetadataMsg`; `none` stands for `NoChange`. -/
structure MetadataChange where
  name : Option Nat
  description : Option (Option Nat)
  logo : Option Nat
  github : Option (Option Nat)
  discord : Option (Option Nat)
  twitter : Option (Option Nat)
  telegram : Option (Option Nat)
  deriving DecidableEq

/-- `ComponentContracts`, enterprise/src/state.rs 14-25. -/
structure Components where
  governance : Addr
  controller : Addr
  treasury : Addr
  outposts : Addr
  distributor : Addr
  membership : Addr
  council : Addr
  attestation : Option Addr
  deriving DecidableEq

/-- Storage, enterprise/src/state.rs. `comps` is `none` while nothing is stored. -/
structure State where
  created : Nat
  factory : Addr
  versioning : Addr
  metadata : Metadata
  version : Version
  daoType : DaoType
  finalized : Bool
  comps : Option Components

/-- What the contract sees of the chain. -/
structure Env where
  /-- own address -/
  self : Addr
  /-- creator of this contract, from `query_wasm_contract_info` -/
  creator : Addr
  /-- the registries of versions; queries to another address fail -/
  registry : Addr → Option Versioning.State
  /-- how many queries the gas allows in a loop -/
  gas : Nat

/-- Errors of the contract. -/
inductive Err
  | notStored
  | alreadyInitialized
  | unauthorized
  | migratingToLowerVersion
  | duplicateVersionMigrateMsg
  | queryFailed
  | outOfGas
  | parse
  deriving DecidableEq

/-- Messages sent. -/
inductive Out
  /-- `WasmMsg::Migrate`; the message is `none` for the empty one -/
  | migrate (contract : Addr) (code : Nat) (msg : Option Nat)
  /-- instantiation of an attestation contract, with a reply -/
  | attestation (code : Nat) (text : Nat)
  /-- a custom message -/
  | custom (msg : Nat)
  deriving DecidableEq

/-- `instantiate`, contract.rs 54-84. `now` is the block time. -/
def init (created : Option Nat) (now : Nat) (factory versioning : Addr) (metadata : Metadata) (version : Version)
    (daoType : DaoType) : State :=
  ⟨created.getD now, factory, versioning, metadata, version, daoType, false, none⟩

/-- `finalize_instantiation`, contract.rs 102-169. -/
def finalize (e : Env) (s : State) (sender : Addr) (c : Components) : Except Err State :=
  if s.finalized then .error .alreadyInitialized
  else if e.creator ≠ sender then .error .unauthorized
  else .ok { s with comps := some c, finalized := true }

/-- `enterprise_governance_controller_caller_only`, validate.rs 7-15. Returns the components. -/
def controllerOnly (s : State) (sender : Addr) : Except Err Components :=
  match s.comps with
  | none => .error .notStored
  | some c => if sender ≠ c.controller then .error .unauthorized else .ok c

/-- The changes of `update_metadata`, contract.rs 174-199. -/
def changed (m : Metadata) (c : MetadataChange) : Metadata :=
  { name := c.name.getD m.name
    description := c.description.getD m.description
    logo := c.logo.getD m.logo
    github := c.github.getD m.github
    discord := c.discord.getD m.discord
    twitter := c.twitter.getD m.twitter
    telegram := c.telegram.getD m.telegram }

/-- `update_metadata`, contract.rs 171-204. -/
def updateMetadata (s : State) (sender : Addr) (c : MetadataChange) : Except Err State := do
  let _ ← controllerOnly s sender
  pure { s with metadata := changed s.metadata c }

/-- The loop over one page, contract.rs 285-296: the versions taken, and whether the outer loop is left. -/
def scan (target : Version) : List Info → List Info × Bool
  | [] => ([], false)
  | v :: t =>
    if target < v.version then ([], true)
    else if v.version = target then ([v], true)
    else (v :: (scan target t).1, (scan target t).2)

/-- `get_versions_between_current_and_target`, contract.rs 257-299; `n` is the gas left for queries. -/
def versionsBetween (r : Versioning.State) (target : Version) : Nat → Version → Except Err (List Info)
  | 0, _ => .error .outOfGas
  | n + 1, last =>
    let page := Versioning.queryVersions r (some last) (some 100)
    match page.getLast? with
    | none => .ok []
    | some x =>
      if (scan target page).2 then .ok (scan target page).1
      else do
        let rest ← versionsBetween r target n x.version
        pure ((scan target page).1 ++ rest)

/-- Collects the migration messages, contract.rs 218-230. -/
def migrateMsgs : List (Version × Nat) → Except Err (Map Version Nat)
  | l => l.foldlM (fun m x => if m.has x.1 then .error .duplicateVersionMigrateMsg else .ok (m.set x.1 x.2)) Map.empty

/-- `upgrade_dao`, contract.rs 206-255. -/
def upgradeDao (e : Env) (s : State) (sender : Addr) (target : Version) (msgs : List (Version × Nat)) :
    Except Err (State × List Out) :=
  if target ≤ s.version then .error .migratingToLowerVersion
  else do
    let _ ← controllerOnly s sender
    let m ← migrateMsgs msgs
    match e.registry s.versioning with
    | none => .error .queryFailed
    | some r =>
      let vs ← versionsBetween r target e.gas s.version
      pure ({ s with version := target }, vs.map (fun v => .migrate e.self v.enterprise (m.get v.version)))

/-- `update_config`, contract.rs 301-334. -/
def updateConfig (s : State) (sender : Addr) (versioning factory : Option Addr) : Except Err State := do
  let _ ← controllerOnly s sender
  pure { s with versioning := versioning.getD s.versioning, factory := factory.getD s.factory }

/-- `set_attestation`, contract.rs 336-360. -/
def setAttestation (e : Env) (s : State) (sender : Addr) (text : Nat) : Except Err (List Out) := do
  let _ ← controllerOnly s sender
  match e.registry s.versioning with
  | none => .error .queryFailed
  | some r =>
    match Versioning.queryVersion r s.version with
    | .error _ => .error .queryFailed
    | .ok v => .ok [.attestation v.attestation text]

/-- `reply`, contract.rs 390-415: the new attestation contract is stored. -/
def reply (s : State) (addr : Addr) : Except Err State :=
  match s.comps with
  | none => .error .notStored
  | some c => .ok { s with comps := some { c with attestation := some addr } }

/-- `remove_attestation`, contract.rs 362-376. -/
def removeAttestation (s : State) (sender : Addr) : Except Err State := do
  let c ← controllerOnly s sender
  pure { s with comps := some { c with attestation := none } }

/-- `execute_msgs`, contract.rs 378-388. A message that does not parse is `none`. -/
def executeMsgs (s : State) (sender : Addr) (msgs : List (Option Nat)) : Except Err (List Out) := do
  let _ ← controllerOnly s sender
  msgs.mapM (fun m => match m with | none => .error .parse | some n => .ok (.custom n))

/-- `ExecuteMsg`. -/
inductive Msg
  | finalize (c : Components)
  | updateMetadata (c : MetadataChange)
  | upgradeDao (target : Version) (msgs : List (Version × Nat))
  | updateConfig (versioning factory : Option Addr)
  | setAttestation (text : Nat)
  | removeAttestation
  | executeMsgs (msgs : List (Option Nat))

/-- `execute`, contract.rs 86-100. -/
def exec (e : Env) (s : State) (sender : Addr) : Msg → Except Err (State × List Out)
  | .finalize c => do let s' ← finalize e s sender c; pure (s', [])
  | .updateMetadata c => do let s' ← updateMetadata s sender c; pure (s', [])
  | .upgradeDao t l => upgradeDao e s sender t l
  | .updateConfig v f => do let s' ← updateConfig s sender v f; pure (s', [])
  | .setAttestation t => do let o ← setAttestation e s sender t; pure (s, o)
  | .removeAttestation => do let s' ← removeAttestation s sender; pure (s', [])
  | .executeMsgs l => do let o ← executeMsgs s sender l; pure (s, o)

/-- Code of the membership contract for a kind of DAO, contract.rs 526-543. -/
def membershipCode (v : Info) : DaoType → Nat
  | .denom => v.denomStaking
  | .token => v.tokenStaking
  | .nft => v.nftStaking
  | .multisig => v.multisig

/-- `migrate`, contract.rs 489-559: always to the contracts of version 1.2.1. The migration messages, which have no
content, are taken as `none`. -/
def migrate (e : Env) (s : State) : Except Err (List Out) :=
  match e.registry s.versioning with
  | none => .error .queryFailed
  | some r =>
    match Versioning.queryVersion r (Versioning.ver 1 2 1) with
    | .error _ => .error .queryFailed
    | .ok v =>
      match s.comps with
      | none => .error .notStored
      | some c => .ok
          [.migrate c.outposts v.outposts none, .migrate c.distributor v.distributor none,
            .migrate c.membership (membershipCode v s.daoType) none, .migrate c.council v.multisig none]

/-- `query_is_restricted_user`, contract.rs 467-487. `att` are the attestation contracts. -/
def isRestricted (att : Addr → Option Attestation) (s : State) (user : Addr) : Except Err Bool :=
  match s.comps with
  | none => .error .notStored
  | some c =>
    match c.attestation with
    | none => .ok false
    | some a =>
      match att a with
      | none => .error .queryFailed
      | some x => .ok (!x.hasSigned user)

/-! ### An enterprise contract and attestation contracts together -/

/-- An enterprise contract, and the attestation contracts of the chain. -/
structure World where
  ent : State
  atts : Map Addr Attestation

/-- What can happen next: a message to the enterprise contract, where the instantiation of an attestation contract takes
place at an unused address and is replied at once; a signature (the label says of which contract, by whom); another
attestation contract created by someone. The messages that others receive (`Out.migrate`, `Out.custom`) are not
followed. -/
inductive Step (self creator : Addr) : World → Option (Addr × Addr) → World → Prop
  | tx {w : World} {e : Env} {sender : Addr} {m : Msg} {s : State} {o : List Out} (hs : e.self = self)
      (hc : e.creator = creator) (hm : ∀ t, m ≠ .setAttestation t) (h : exec e w.ent sender m = .ok (s, o)) :
      Step self creator w none { w with ent := s }
  | attest {w : World} {e : Env} {sender a : Addr} {t code : Nat} {s s' : State} (hs : e.self = self)
      (hc : e.creator = creator) (h : exec e w.ent sender (.setAttestation t) = .ok (s, [.attestation code t]))
      (hn : w.atts.get a = none) (hr : reply s a = .ok s') :
      Step self creator w none { ent := s', atts := w.atts.set a (.init t) }
  | sign {w : World} {a user : Addr} {x : Attestation} (h : w.atts.get a = some x) :
      Step self creator w (some (a, user)) { w with atts := w.atts.set a (x.sign user) }
  | other {w : World} {a : Addr} {t : Nat} (hn : w.atts.get a = none) :
      Step self creator w none { w with atts := w.atts.set a (.init t) }

/-- Histories, with the signatures given in them. -/
inductive Steps (self creator : Addr) (w : World) : List (Addr × Addr) → World → Prop
  | refl : Steps self creator w [] w
  | step {w1 w2 : World} {l : List (Addr × Addr)} {o : Option (Addr × Addr)} (h : Steps self creator w l w1)
      (hs : Step self creator w1 o w2) : Steps self creator w (l ++ o.toList) w2

end Verif.Enterprise
