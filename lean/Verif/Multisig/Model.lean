import Verif.Membership.Model
import Verif.Staking.Model

/-!
# Model of the multisig membership contract (packages/multisig-membership-impl/src)

The state is the shared membership state: member weights, snapshots of the total weight, weight change hooks.
Addresses in messages are validated already (`addr_validate` succeeded).
-/

namespace Verif.Multisig
open Verif
open Verif.Staking (At)

/-- `Itertools::unique_by` on the user of each entry, keeping the first of each; `seen` are the users met so far. -/
def uniqueBy (seen : List Addr) : List (Addr × Nat) → List (Addr × Nat)
  | [] => []
  | p :: t => if p.1 ∈ seen then uniqueBy seen t else p :: uniqueBy (p.1 :: seen) t

/-- `dedup_user_weights`, validate.rs 10-37. -/
def dedup (l : List (Addr × Nat)) : Except Err (List (Addr × Nat)) :=
  if (uniqueBy [] l).length ≠ l.length then .error .duplicate else .ok (uniqueBy [] l)

/-- One round of the loop of `save_initial_weights`, instantiate.rs 42-47: members and running total. -/
def initOne (x : Members × Nat) (p : Addr × Nat) : Except Err (Members × Nat) := do
  let t ← csub x.2 (x.1.weight p.1)
  let t ← cadd128 t p.2
  return (x.1.setWeight p.1 p.2, t)

/-- `save_initial_weights`, instantiate.rs 34-52. -/
def saveInitial (m : Members) (b : Block) (l : List (Addr × Nat)) : Except Err Members := do
  let d ← dedup l
  let r ← d.foldlM initOne (m, 0)
  return r.1.saveTotal r.2 b

/-- `instantiate`, instantiate.rs 12-32. -/
def init (b : Block) (weights : Option (List (Addr × Nat))) (hooks : List Addr)
    (byHeight bySeconds : List (Nat × Nat)) : Except Err Members := do
  let m := Members.empty.saveCheckpoints byHeight bySeconds
  let m ← match weights with
    | some l => saveInitial m b l
    | none => .ok (m.saveTotal 0 b)
  return m.saveHooks hooks

/-- One round of the loop of `update_members`, execute.rs 27-39: members, running total, changes. -/
def updateOne (x : Members × Nat × List WeightChange) (p : Addr × Nat) :
    Except Err (Members × Nat × List WeightChange) := do
  let t ← csub x.2.1 (x.1.weight p.1)
  let t ← cadd128 t p.2
  return (x.1.setWeight p.1 p.2, t, x.2.2 ++ [⟨p.1, x.1.weight p.1, p.2⟩])

/-- `update_members`, execute.rs 14-48. -/
def updateMembers (s : Members) (e : Env) (l : List (Addr × Nat)) : Except Err (Members × List Out) :=
  if e.sender ≠ e.controller then .error .unauthorized else do
    let d ← dedup l
    let r ← d.foldlM updateOne (s, s.total, [])
    let m := r.1.saveTotal r.2.1 e.block
    return (m, m.report r.2.2)

/-- One round of the loop of `set_members`, execute.rs 67-78; `old` are the weights before they were cleared. -/
def setOne (old : Map Addr Nat) (x : Members × Nat × List WeightChange) (p : Addr × Nat) :
    Except Err (Members × Nat × List WeightChange) := do
  let t ← cadd128 x.2.1 p.2
  return (x.1.setWeight p.1 p.2, t, x.2.2 ++ [⟨p.1, (old.get p.1).getD 0, p.2⟩])

/-- `set_members`, execute.rs 51-87. -/
def setMembers (s : Members) (e : Env) (l : List (Addr × Nat)) : Except Err (Members × List Out) :=
  if e.sender ≠ e.controller then .error .unauthorized else do
    let cleared : Members := { s with weights := Map.empty }
    let d ← dedup l
    let r ← d.foldlM (setOne s.weights) (cleared, 0, [])
    let m := r.1.saveTotal r.2.1 e.block
    return (m, m.report r.2.2)

/-- `ExecuteMsg`. -/
inductive Msg
  | updateMembers (l : List (Addr × Nat))
  | setMembers (l : List (Addr × Nat))
  | addHook (h : Addr)
  | removeHook (h : Addr)
  deriving DecidableEq

/-- `execute`, contracts/multisig-membership/src/contract.rs 35-51. -/
def exec (s : Members) (e : Env) : Msg → Except Err (Members × List Out)
  | .updateMembers l => updateMembers s e l
  | .setMembers l => setMembers s e l
  | .addHook h => do
    let m ← s.addHook e h
    return (m, [])
  | .removeHook h => do
    let m ← s.removeHook e h
    return (m, [])

/-- A message with its environment; `delivered` says whether its sub-messages (hook notifications) succeed. -/
structure Call where
  env : Env
  msg : Msg
  delivered : Bool

/-- A message takes effect when it and its sub-messages succeed; otherwise everything is reverted. -/
def step (s : Members) (c : Call) : Members × List Out :=
  match exec s c.env c.msg with
  | .ok r => if c.delivered then r else (s, [])
  | .error _ => (s, [])

/-- State after a history. -/
def run (s : Members) : List Call → Members
  | [] => s
  | c :: t => run (step s c).1 t

/-- `query_user_weight`, query.rs 29-41. -/
def queryWeight (s : Members) (u : Addr) : Nat := s.weight u

/-- `query_total_weight`, query.rs 43-54. -/
def queryTotal (s : Members) : At → Nat
  | .height h => s.totalAtHeight h
  | .time t => s.totalAtTime t
  | .never => s.total

end Verif.Multisig
