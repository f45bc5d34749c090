import Verif.Base.Rename
import Verif.Membership.Model

/-!
# Membership contracts with other names for the users
-/

set_option linter.unusedSimpArgs false

namespace Verif

/-- The environment with other names for the addresses: the sender, the controller and the restricted users. -/
def Env.ren (π : Renaming) (e : Env) : Env :=
  ⟨e.block, π e.sender, π e.controller, fun u => e.restricted (π.symm u)⟩

/-- A reported change with another name for the user. -/
def WeightChange.ren (π : Renaming) (c : WeightChange) : WeightChange := ⟨π c.user, c.old, c.new⟩

/-- A sub-message with other names for the users; the hook contracts keep theirs. -/
def Out.ren (π : Renaming) : Out → Out
  | .notify h cs => .notify h (cs.map (WeightChange.ren π))
  | .pay u a => .pay (π u) a
  | .sendNft u t => .sendNft (π u) t

namespace Map
variable {V W : Type}

theorem rename_refl_values (m : Map Nat V) (f : V → W) :
    (m.rename (Equiv.refl Nat) f).values = m.values.map f := by
  unfold values
  rw [rename_refl_entries, List.map_map, List.map_map]
  rfl

end Map

namespace Members

/-- Members with other names; the hook contracts keep theirs. -/
def ren (π : Renaming) (m : Members) : Members := { m with weights := m.weights.rename π id }

theorem ren_weight (π : Renaming) (m : Members) (u : Addr) : (m.ren π).weight (π u) = m.weight u := by
  show ((m.weights.rename π id).get (π u)).getD 0 = _
  rw [Map.get_rename]
  unfold weight
  cases m.weights.get u <;> rfl

theorem ren_setWeight (π : Renaming) (m : Members) (u : Addr) (w : Nat) :
    (m.setWeight u w).ren π = (m.ren π).setWeight (π u) w := by
  unfold ren setWeight
  congr 1
  exact Map.rename_set m.weights π id u w

theorem ren_incWeight (π : Renaming) (m : Members) (u : Addr) (a : Nat) :
    (m.ren π).incWeight (π u) a = (m.incWeight u a).map (fun r => (r.1.ren π, r.2)) := by
  unfold incWeight
  rw [ren_weight]
  cases cadd128 (m.weight u) a with
  | error e => rfl
  | ok w => exact congrArg (fun x => Except.ok (x, w)) (ren_setWeight π m u w).symm

theorem ren_decWeight (π : Renaming) (m : Members) (u : Addr) (a : Nat) :
    (m.ren π).decWeight (π u) a = (m.decWeight u a).map (fun r => (r.1.ren π, r.2)) := by
  unfold decWeight
  rw [ren_weight]
  cases csub (m.weight u) a with
  | error e => rfl
  | ok w => exact congrArg (fun x => Except.ok (x, w)) (ren_setWeight π m u w).symm

theorem ren_total (π : Renaming) (m : Members) : (m.ren π).total = m.total := rfl

theorem ren_incTotal (π : Renaming) (m : Members) (a : Nat) (b : Block) :
    (m.ren π).incTotal a b = (m.incTotal a b).map (ren π) := by
  unfold incTotal
  rw [ren_total]
  cases cadd128 m.total a <;> rfl

theorem ren_decTotal (π : Renaming) (m : Members) (a : Nat) (b : Block) :
    (m.ren π).decTotal a b = (m.decTotal a b).map (ren π) := by
  unfold decTotal
  rw [ren_total]
  cases csub m.total a <;> rfl

theorem ren_report (π : Renaming) (m : Members) (cs : List WeightChange) :
    (m.ren π).report (cs.map (WeightChange.ren π)) = (m.report cs).map (Out.ren π) := by
  unfold report
  rw [List.map_map]
  rfl

theorem ren_addHook (π : Renaming) (m : Members) (e : Env) (h : Addr) :
    (m.ren π).addHook (e.ren π) h = (m.addHook e h).map (ren π) := by
  unfold addHook Env.ren
  by_cases hc : e.sender = e.controller
  · simp [hc, Except.map]
    rfl
  · simp [hc, Except.map]

theorem ren_removeHook (π : Renaming) (m : Members) (e : Env) (h : Addr) :
    (m.ren π).removeHook (e.ren π) h = (m.removeHook e h).map (ren π) := by
  unfold removeHook Env.ren
  by_cases hc : e.sender = e.controller
  · simp [hc, Except.map]
    rfl
  · simp [hc, Except.map]

end Members

end Verif
