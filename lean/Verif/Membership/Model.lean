import Verif.Base.Paging
import Verif.Base.Snapshot

/-!
# Code shared by the membership contracts (packages/membership-common/src)
-/

namespace Verif

/-- Block height and time in nanoseconds (`BlockInfo`). -/
structure Block where
  height : Nat
  time : Nat
  deriving DecidableEq

/-- `Timestamp::seconds`. -/
def Block.seconds (b : Block) : Nat := b.time / 10 ^ 9

/-- `UserWeightChange` (membership-common-api/src/api.rs). -/
structure WeightChange where
  user : Addr
  old : Nat
  new : Nat
  deriving DecidableEq

/-- Sub-messages sent by membership contracts: a notification of a hook, a transfer of the staked asset,
a transfer of NFTs. -/
inductive Out
  | notify (hook : Addr) (changes : List WeightChange)
  | pay (to : Addr) (amount : Nat)
  | sendNft (to : Addr) (nft : Nat)
  deriving DecidableEq

/-- Block, sender and the answers of the queries a membership contract makes: the governance controller of the DAO
(`ComponentContracts`), and which users are restricted (`IsRestrictedUser`). -/
structure Env where
  block : Block
  sender : Addr
  controller : Addr
  restricted : Addr → Bool

/-- Member weights, total weight snapshots by height and by seconds, and weight change hooks. -/
structure Members where
  weights : Map Addr Nat
  byHeight : Snap
  bySeconds : Snap
  hooks : Map Addr Unit
  deriving DecidableEq

namespace Members

/-- `get_member_weight`, member_weights.rs 6-10. -/
def weight (m : Members) (u : Addr) : Nat := (m.weights.get u).getD 0

/-- `set_member_weight`, member_weights.rs 12-20. -/
def setWeight (m : Members) (u : Addr) (w : Nat) : Members := { m with weights := m.weights.set u w }

/-- `increment_member_weight`, member_weights.rs 22-32; `Uint128 +` panics on overflow. -/
def incWeight (m : Members) (u : Addr) (a : Nat) : Except Err (Members × Nat) := do
  let w ← cadd128 (m.weight u) a
  return (m.setWeight u w, w)

/-- `decrement_member_weight`, member_weights.rs 34-44; `Uint128 -` panics on underflow. -/
def decWeight (m : Members) (u : Addr) (a : Nat) : Except Err (Members × Nat) := do
  let w ← csub (m.weight u) a
  return (m.setWeight u w, w)

/-- `load_total_weight`, total_weight.rs 37-41. -/
def total (m : Members) : Nat := m.byHeight.load

/-- `load_total_weight_at_height`, total_weight.rs 43-47. -/
def totalAtHeight (m : Members) (h : Nat) : Nat := m.byHeight.loadAt h

/-- `load_total_weight_at_time`, total_weight.rs 49-53 (`t` in nanoseconds). -/
def totalAtTime (m : Members) (t : Nat) : Nat := m.bySeconds.loadAt (t / 10 ^ 9)

/-- `save_total_weight`, total_weight.rs 55-64. -/
def saveTotal (m : Members) (w : Nat) (b : Block) : Members :=
  { m with byHeight := m.byHeight.save w b.height, bySeconds := m.bySeconds.save w b.seconds }

/-- `increment_total_weight`, total_weight.rs 8-14. -/
def incTotal (m : Members) (a : Nat) (b : Block) : Except Err Members := do
  let w ← cadd128 m.total a
  return m.saveTotal w b

/-- `decrement_total_weight`, total_weight.rs 16-22. -/
def decTotal (m : Members) (a : Nat) (b : Block) : Except Err Members := do
  let w ← csub m.total a
  return m.saveTotal w b

/-- `save_initial_total_weight_checkpoints`, total_weight.rs 66-80; checkpoints are (weight, height). -/
def saveCheckpoints (m : Members) (byHeight bySeconds : List (Nat × Nat)) : Members :=
  { m with byHeight := m.byHeight.saves byHeight, bySeconds := m.bySeconds.saves bySeconds }

/-- `save_initial_weight_change_hooks`, weight_change_hooks.rs 13-23. -/
def saveHooks (m : Members) (hs : List Addr) : Members :=
  { m with hooks := hs.foldl (fun a h => a.set h ()) m.hooks }

/-- `add_weight_change_hook`, weight_change_hooks.rs 26-40 with validate.rs 29-53. -/
def addHook (m : Members) (e : Env) (h : Addr) : Except Err Members :=
  if e.sender ≠ e.controller then .error .unauthorized else .ok { m with hooks := m.hooks.set h () }

/-- `remove_weight_change_hook`, weight_change_hooks.rs 43-57 with validate.rs 29-53. -/
def removeHook (m : Members) (e : Env) (h : Addr) : Except Err Members :=
  if e.sender ≠ e.controller then .error .unauthorized else .ok { m with hooks := m.hooks.remove h }

/-- `report_weight_change_submsgs`, weight_change_hooks.rs 60-75. -/
def report (m : Members) (cs : List WeightChange) : List Out := m.hooks.keys.map (fun h => .notify h cs)

/-- Page size of the member queries: default 50, at most 100 (token-staking-impl/src/query.rs 20-21 and 91-94). -/
def limitOf (l : Option Nat) : Nat := min (l.getD 50) 100

/-- `query_members`, token-staking-impl/src/query.rs 82-105, denom-staking-impl/src/query.rs 81-104,
nft-staking-impl/src/query.rs 149-172, multisig-membership-impl/src/query.rs 56-79: users with their weights. -/
def queryMembers (m : Members) (after : Option Addr) (limit : Option Nat) : List (Addr × Nat) :=
  (m.weights.page after (limitOf limit)).map (fun e => (e.1, e.2))

/-- No members, no total, no hooks. -/
def empty : Members := ⟨Map.empty, Snap.empty, Snap.empty, Map.empty⟩

end Members

end Verif
