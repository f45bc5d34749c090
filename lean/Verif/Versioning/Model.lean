import Verif.Base.Paging
import Verif.Base.Except
import Verif.Base.Num
import Mathlib.Data.Prod.Lex

/-!
# The registry of versions (`contracts/enterprise-versioning`)
-/

namespace Verif.Versioning
open Verif

/-- `Version`, packages/enterprise-versioning-api/src/api.rs 6-13, with the derived (lexicographic) order; the storage
key `(u64, u64, u64)` (lines 25-29) has the same order. -/
abbrev Version := Nat ×ₗ (Nat ×ₗ Nat)

/-- The version `major.minor.patch`. -/
def ver (major minor patch : Nat) : Version := toLex (major, toLex (minor, patch))

/-- `VersionInfo`, api.rs 68-84. The changelog is opaque. -/
structure Info where
  version : Version
  changelog : Nat
  attestation : Nat
  enterprise : Nat
  governance : Nat
  controller : Nat
  outposts : Nat
  treasury : Nat
  distributor : Nat
  tokenStaking : Nat
  denomStaking : Nat
  nftStaking : Nat
  multisig : Nat
  deriving DecidableEq

/-- `EditVersionMsg`, api.rs 96-111. -/
structure Edit where
  version : Version
  changelog : Option Nat
  attestation : Option Nat
  enterprise : Option Nat
  governance : Option Nat
  controller : Option Nat
  outposts : Option Nat
  treasury : Option Nat
  distributor : Option Nat
  tokenStaking : Option Nat
  denomStaking : Option Nat
  nftStaking : Option Nat
  multisig : Option Nat
  deriving DecidableEq

/-- Storage, contracts/enterprise-versioning/src/state.rs 5-7. -/
structure State where
  admin : Addr
  versions : Map Version Info

/-- Errors of the contract. -/
inductive Err
  | unauthorized
  | versionAlreadyExists
  | versionNotFound
  | noVersionsExist
  deriving DecidableEq

/-- `instantiate`, contract.rs 31-44. -/
def init (admin : Addr) : State := ⟨admin, Map.empty⟩

/-- `update_admin`, contract.rs 62-77. -/
def updateAdmin (s : State) (sender new : Addr) : Except Err State :=
  if sender ≠ s.admin then .error .unauthorized else .ok { s with admin := new }

/-- `add_version`, contract.rs 79-96. -/
def addVersion (s : State) (sender : Addr) (v : Info) : Except Err State :=
  if s.admin ≠ sender then .error .unauthorized
  else if s.versions.has v.version then .error .versionAlreadyExists
  else .ok { s with versions := s.versions.set v.version v }

/-- `apply_edit_changes`, contract.rs 124-180. -/
def applyEdit (v : Info) (m : Edit) : Info :=
  { v with
    changelog := m.changelog.getD v.changelog
    attestation := m.attestation.getD v.attestation
    enterprise := m.enterprise.getD v.enterprise
    governance := m.governance.getD v.governance
    controller := m.controller.getD v.controller
    outposts := m.outposts.getD v.outposts
    treasury := m.treasury.getD v.treasury
    distributor := m.distributor.getD v.distributor
    tokenStaking := m.tokenStaking.getD v.tokenStaking
    denomStaking := m.denomStaking.getD v.denomStaking
    nftStaking := m.nftStaking.getD v.nftStaking
    multisig := m.multisig.getD v.multisig }

/-- `edit_version`, contract.rs 98-122. -/
def editVersion (s : State) (sender : Addr) (m : Edit) : Except Err State :=
  if s.admin ≠ sender then .error .unauthorized
  else match s.versions.get m.version with
    | none => .error .versionNotFound
    | some v => .ok { s with versions := s.versions.set m.version (applyEdit v m) }

/-- `ExecuteMsg`. -/
inductive Msg
  | updateAdmin (new : Addr)
  | addVersion (v : Info)
  | editVersion (m : Edit)

/-- `execute`, contract.rs 46-60. -/
def exec (s : State) (sender : Addr) : Msg → Except Err State
  | .updateAdmin new => updateAdmin s sender new
  | .addVersion v => addVersion s sender v
  | .editVersion m => editVersion s sender m

/-- `query_version`, contract.rs 207-219. -/
def queryVersion (s : State) (v : Version) : Except Err Info :=
  match s.versions.get v with
  | none => .error .versionNotFound
  | some i => .ok i

/-- `query_versions`, contract.rs 221-238; limits of lines 28-29. -/
def queryVersions (s : State) (after : Option Version) (limit : Option Nat) : List Info :=
  (s.versions.page after (min (limit.getD 10) 50)).map (·.2)

/-- `query_latest_version`, contract.rs 240-256: the first entry of the descending range. -/
def queryLatest (s : State) : Except Err Info :=
  if s.versions.entries.isEmpty then .error .noVersionsExist
  else match s.versions.entries.reverse.head? with
    | none => .error .noVersionsExist
    | some e => .ok e.2

/-- A message and its sender. -/
structure Call where
  sender : Addr
  msg : Msg

/-- A message that fails changes nothing. -/
def step (s : State) (c : Call) : State :=
  match exec s c.sender c.msg with
  | .ok s' => s'
  | .error _ => s

/-- The state after a history of messages. -/
def run (s : State) (l : List Call) : State := l.foldl step s

end Verif.Versioning
