import Verif.Dao.Sim
import Verif.Dao.Trace

/-!
# Running a DAO on concrete inputs, with a record of what was handled

As Dao/Sim.lean, for the examples next to property theorems about histories.
-/

namespace Verif.Dao
open Verif

/-- `sim` with the messages handled. -/
def simTrace (c : Cfg) (e : Ext) : Nat → World → List Item → Option (World × List Entry)
  | 0, _, _ => none
  | _ + 1, w, [] => some (w, [])
  | n + 1, w, .call a m :: rest =>
    if w.gov.pollCount + 1 < 2 ^ 64 then
      match handle c e w a m with
      | .error _ => none
      | .ok (w1, subs) =>
        match simTrace c e n w1 subs with
        | none => none
        | some (w2, t1) => (simTrace c e n w2 rest).map (fun r => (r.1, ⟨w, e, a, m⟩ :: (t1 ++ r.2)))
    else none
  | n + 1, w, .actions id :: rest =>
    if w.gov.pollCount + 1 < 2 ^ 64 then
      match handle c e w c.self (.ctl (.executeActions id)) with
      | .error _ => simTrace c e n w rest
      | .ok (w1, subs) =>
        match simTrace c e n w1 subs with
        | none => simTrace c e n w rest
        | some (w2, t1) =>
          (simTrace c e n w2 rest).map (fun r => (r.1, ⟨w, e, c.self, .ctl (.executeActions id)⟩ :: (t1 ++ r.2)))
    else none
  | n + 1, w, .deposit id t :: rest => simTrace c e n { w with log := w.log ++ [.paid id t] } rest
  | n + 1, w, .other :: rest => simTrace c e n w rest

theorem simTrace_traced {c : Cfg} {e : Ext} : ∀ (n : Nat) {w w' : World} {l : List Item} {t : List Entry},
    simTrace c e n w l = some (w', t) → Traced c w l w' t := by
  intro n
  induction n with
  | zero => intro w w' l t h; cases h
  | succ n ih =>
    intro w w' l t h
    have hnil : Calls c [] := fun i hi => by cases hi
    cases l with
    | nil => cases h; exact .nil w
    | cons x rest =>
      cases x with
      | call a m =>
        simp only [simTrace] at h
        split at h
        · rename_i room
          split at h
          · cases h
          · rename_i w1 subs hh
            split at h
            · cases h
            · rename_i w2 t1 h1
              obtain ⟨⟨w3, t2⟩, h2, h3⟩ := Option.map_eq_some_iff.1 h
              cases h3
              exact .call e room hh (ih h1) (ih h2)
        · cases h
      | actions id =>
        simp only [simTrace] at h
        split at h
        · rename_i room
          split at h
          · exact .failed (ih h)
          · rename_i w1 subs hh
            split at h
            · exact .failed (ih h)
            · rename_i w2 t1 h1
              obtain ⟨⟨w3, t2⟩, h2, h3⟩ := Option.map_eq_some_iff.1 h
              cases h3
              exact .actions e room hh (ih h1) (ih h2)
        · cases h
      | deposit id d => exact .deposit (t1 := []) hnil (.nil _) (ih h)
      | other => exact .other (t1 := []) hnil (.nil _) (ih h)

/-- One step of a run. -/
def Step.trace (c : Cfg) (w : World) : Step → Option (World × List Entry)
  | .tx e a m => if c.outsider a then simTrace c e 100 w [.call a m] else none
  | .block b => if w.block.height ≤ b.height ∧ w.block.time ≤ b.time then some ({ w with block := b }, []) else none

/-- A run. -/
def traceAll (c : Cfg) (w : World) : List Step → Option (World × List Entry)
  | [] => some (w, [])
  | s :: l =>
    match s.trace c w with
    | none => none
    | some (w1, t1) => (traceAll c w1 l).map (fun r => (r.1, t1 ++ r.2))

theorem traceAll_history {c : Cfg} : ∀ (l : List Step) {w0 w w' : World} {t0 t : List Entry}, History c w0 w t0 →
    traceAll c w l = some (w', t) → History c w0 w' (t0 ++ t) := by
  intro l
  induction l with
  | nil => intro w0 w w' t0 t h hr; cases hr; rw [List.append_nil]; exact h
  | cons s l ih =>
    intro w0 w w' t0 t h hr
    simp only [traceAll] at hr
    split at hr
    · cases hr
    · rename_i w1 t1 hs
      obtain ⟨⟨w2, t2⟩, h2, h3⟩ := Option.map_eq_some_iff.1 hr
      cases h3
      rw [← List.append_assoc]
      refine ih ?_ h2
      cases s with
      | tx e a m =>
        simp only [Step.trace] at hs
        split at hs
        · rename_i ha
          exact .tx h ha (simTrace_traced _ hs)
        · cases hs
      | block b =>
        simp only [Step.trace] at hs
        split at hs
        · rename_i hb
          cases hs
          rw [List.append_nil]
          exact .block h hb.1 hb.2
        · cases hs

end Verif.Dao
