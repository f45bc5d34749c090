import Verif.Dao.Spec

/-!
# Running a DAO on concrete inputs

A function that computes one of the executions that `Exec` allows (messages to other contracts do nothing), used for
the examples and witnesses next to the property theorems.
-/

namespace Verif.Dao
open Verif

/-- One execution of a queue, in at most `n` levels. -/
def sim (c : Cfg) (e : Ext) : Nat → World → List Item → Option World
  | 0, _, _ => none
  | _ + 1, w, [] => some w
  | n + 1, w, .call a m :: rest =>
    if w.gov.pollCount + 1 < 2 ^ 64 then
      match handle c e w a m with
      | .error _ => none
      | .ok (w1, subs) =>
        match sim c e n w1 subs with
        | none => none
        | some w2 => sim c e n w2 rest
    else none
  | n + 1, w, .actions id :: rest =>
    if w.gov.pollCount + 1 < 2 ^ 64 then
      match handle c e w c.self (.ctl (.executeActions id)) with
      | .error _ => sim c e n w rest
      | .ok (w1, subs) =>
        match sim c e n w1 subs with
        | none => sim c e n w rest
        | some w2 => sim c e n w2 rest
    else none
  | n + 1, w, .deposit id t :: rest => sim c e n { w with log := w.log ++ [.paid id t] } rest
  | n + 1, w, .other :: rest => sim c e n w rest

theorem sim_exec {c : Cfg} {e : Ext} : ∀ (n : Nat) {w w' : World} {l : List Item}, sim c e n w l = some w' →
    Exec c w l w' := by
  intro n
  induction n with
  | zero => intro w w' l h; cases h
  | succ n ih =>
    intro w w' l h
    have hnil : Calls c [] := fun i hi => by cases hi
    cases l with
    | nil => cases h; exact .nil w
    | cons x rest =>
      cases x with
      | call a m =>
        simp only [sim] at h
        split at h
        · rename_i room
          split at h
          · cases h
          · rename_i w1 subs hh
            split at h
            · cases h
            · rename_i w2 h1
              exact .call e room hh (ih h1) (ih h)
        · cases h
      | actions id =>
        simp only [sim] at h
        split at h
        · rename_i room
          split at h
          · exact .failed (ih h)
          · rename_i w1 subs hh
            split at h
            · exact .failed (ih h)
            · rename_i w2 h1
              exact .actions e room hh (ih h1) (ih h)
        · cases h
      | deposit id t => exact .deposit hnil (.nil _) (ih h)
      | other => exact .other hnil (.nil _) (ih h)

/-- A transaction or a new block. -/
inductive Step
  | tx (e : Ext) (a : Addr) (m : Msg)
  | block (b : Block)

/-- One step of a run. -/
def Step.run (c : Cfg) (w : World) : Step → Option World
  | .tx e a m => if c.outsider a then sim c e 100 w [.call a m] else none
  | .block b => if w.block.height ≤ b.height ∧ w.block.time ≤ b.time then some { w with block := b } else none

/-- A run. -/
def runAll (c : Cfg) (w : World) : List Step → Option World
  | [] => some w
  | s :: l =>
    match s.run c w with
    | none => none
    | some w1 => runAll c w1 l

theorem runAll_reachable {c : Cfg} : ∀ (l : List Step) {w w' : World}, Reachable c w → runAll c w l = some w' →
    Reachable c w' := by
  intro l
  induction l with
  | nil => intro w w' h hr; cases hr; exact h
  | cons s l ih =>
    intro w w' h hr
    simp only [runAll] at hr
    split at hr
    · cases hr
    · rename_i w1 hs
      refine ih ?_ hr
      cases s with
      | tx e a m =>
        simp only [Step.run] at hs
        split at hs
        · rename_i ha
          exact .tx h ha (sim_exec _ hs)
        · cases hs
      | block b =>
        simp only [Step.run] at hs
        split at hs
        · rename_i hb
          cases hs
          exact .block h hb.1 hb.2
        · cases hs

theorem runAll_later {c : Cfg} : ∀ (l : List Step) {w0 w w' : World}, Later c w0 w → runAll c w l = some w' →
    Later c w0 w' := by
  intro l
  induction l with
  | nil => intro w0 w w' h hr; cases hr; exact h
  | cons s l ih =>
    intro w0 w w' h hr
    simp only [runAll] at hr
    split at hr
    · cases hr
    · rename_i w1 hs
      refine ih ?_ hr
      cases s with
      | tx e a m =>
        simp only [Step.run] at hs
        split at hs
        · rename_i ha
          exact .tx h ha (sim_exec _ hs)
        · cases hs
      | block b =>
        simp only [Step.run] at hs
        split at hs
        · rename_i hb
          cases hs
          exact .block h hb.1 hb.2
        · cases hs

end Verif.Dao
