import Verif.Dao.Props2
import Verif.Distributor.Props4

/-!
# The contracts of a DAO together: histories with a record of what was handled

`Traced` and `History` are `Exec` and `Later` (Dao/Model.lean, Dao/Spec.lean) with a list of the messages handled, each with
the state of the contracts that it met.
-/

namespace Verif.Dao
open Verif
open Verif.Controller (Transfer)

/-- A message that was handled without failing, and the state of the contracts before it. -/
structure Entry where
  world : World
  ext : Ext
  sender : Addr
  msg : Msg

/-- `Exec` with the messages handled, in order. -/
inductive Traced (c : Cfg) : World → List Item → World → List Entry → Prop
  | nil (w : World) : Traced c w [] w []
  | call {w w1 w2 w3 : World} {a : Addr} {m : Msg} {subs rest : List Item} {t1 t2 : List Entry} (e : Ext)
      (room : w.gov.pollCount + 1 < 2 ^ 64) (h : handle c e w a m = .ok (w1, subs))
      (h1 : Traced c w1 subs w2 t1) (h2 : Traced c w2 rest w3 t2) :
      Traced c w (.call a m :: rest) w3 (⟨w, e, a, m⟩ :: (t1 ++ t2))
  | actions {w w1 w2 w3 : World} {id : Nat} {subs rest : List Item} {t1 t2 : List Entry} (e : Ext)
      (room : w.gov.pollCount + 1 < 2 ^ 64) (h : handle c e w c.self (.ctl (.executeActions id)) = .ok (w1, subs))
      (h1 : Traced c w1 subs w2 t1) (h2 : Traced c w2 rest w3 t2) :
      Traced c w (.actions id :: rest) w3 (⟨w, e, c.self, .ctl (.executeActions id)⟩ :: (t1 ++ t2))
  | failed {w w1 : World} {id : Nat} {rest : List Item} {t : List Entry} (h : Traced c w rest w1 t) :
      Traced c w (.actions id :: rest) w1 t
  | deposit {w w1 w2 : World} {id : Nat} {t : Transfer} {calls rest : List Item} {t1 t2 : List Entry}
      (hc : Calls c calls) (h1 : Traced c { w with log := w.log ++ [.paid id t] } calls w1 t1)
      (h2 : Traced c w1 rest w2 t2) : Traced c w (.deposit id t :: rest) w2 (t1 ++ t2)
  | other {w w1 w2 : World} {calls rest : List Item} {t1 t2 : List Entry} (hc : Calls c calls)
      (h1 : Traced c w calls w1 t1) (h2 : Traced c w1 rest w2 t2) : Traced c w (.other :: rest) w2 (t1 ++ t2)

/-- `Later` with the messages handled, in order. -/
inductive History (c : Cfg) (w : World) : World → List Entry → Prop
  | start : History c w w []
  | tx {w1 w2 : World} {a : Addr} {m : Msg} {t t1 : List Entry} (h : History c w w1 t) (ha : c.outsider a)
      (hx : Traced c w1 [.call a m] w2 t1) : History c w w2 (t ++ t1)
  | block {w1 : World} {b : Block} {t : List Entry} (h : History c w w1 t) (hh : w1.block.height ≤ b.height)
      (ht : w1.block.time ≤ b.time) : History c w { w1 with block := b } t

theorem Traced.exec {c : Cfg} {w w' : World} {l : List Item} {t : List Entry} (h : Traced c w l w' t) : Exec c w l w' := by
  induction h with
  | nil w => exact .nil w
  | call e room h _ _ ih1 ih2 => exact .call e room h ih1 ih2
  | actions e room h _ _ ih1 ih2 => exact .actions e room h ih1 ih2
  | failed _ ih => exact .failed ih
  | deposit hc _ _ ih1 ih2 => exact .deposit hc ih1 ih2
  | other hc _ _ ih1 ih2 => exact .other hc ih1 ih2

theorem Exec.traced {c : Cfg} {w w' : World} {l : List Item} (h : Exec c w l w') : ∃ t, Traced c w l w' t := by
  induction h with
  | nil w => exact ⟨_, .nil w⟩
  | call e room h _ _ ih1 ih2 => obtain ⟨_, h1⟩ := ih1; obtain ⟨_, h2⟩ := ih2; exact ⟨_, .call e room h h1 h2⟩
  | actions e room h _ _ ih1 ih2 => obtain ⟨_, h1⟩ := ih1; obtain ⟨_, h2⟩ := ih2; exact ⟨_, .actions e room h h1 h2⟩
  | failed _ ih => obtain ⟨_, h1⟩ := ih; exact ⟨_, .failed h1⟩
  | deposit hc _ _ ih1 ih2 => obtain ⟨_, h1⟩ := ih1; obtain ⟨_, h2⟩ := ih2; exact ⟨_, .deposit hc h1 h2⟩
  | other hc _ _ ih1 ih2 => obtain ⟨_, h1⟩ := ih1; obtain ⟨_, h2⟩ := ih2; exact ⟨_, .other hc h1 h2⟩

theorem History.later {c : Cfg} {w w' : World} {t : List Entry} (h : History c w w' t) : Later c w w' := by
  induction h with
  | start => exact .refl
  | tx _ ha hx ih => exact .tx ih ha hx.exec
  | block _ hh ht ih => exact .block ih hh ht

/-- Everything that can come later comes with a history. -/
theorem Later.history {c : Cfg} {w w' : World} (h : Later c w w') : ∃ t, History c w w' t := by
  induction h with
  | refl => exact ⟨_, .start⟩
  | tx _ ha hx ih => obtain ⟨_, h1⟩ := ih; obtain ⟨_, h2⟩ := hx.traced; exact ⟨_, .tx h1 ha h2⟩
  | block _ hh ht ih => obtain ⟨_, h1⟩ := ih; exact ⟨_, .block h1 hh ht⟩

/-- Induction over what is handled: a property of states with a list of messages that holds for each message handled and
adds up holds for histories. -/
theorem Traced.inductRoom {c : Cfg} (hw : c.Wf) (ht : c.Tame) {P : World → World → List Entry → Prop}
    (refl : ∀ w, P w w []) (log : ∀ w l, P w { w with log := l } [])
    (trans : ∀ w w1 w2 t t', P w w1 t → P w1 w2 t' → P w w2 (t ++ t'))
    (one : ∀ w w1 a m subs e, Base c w → Known c a m → w.gov.pollCount + 1 < 2 ^ 64 →
      handle c e w a m = .ok (w1, subs) → Handled c w a m w1 subs → P w w1 [⟨w, e, a, m⟩])
    {w w' : World} {l : List Item} {t : List Entry} (h : Traced c w l w' t) : (∀ i ∈ l, Allowed c i) → Base c w →
      Base c w' ∧ P w w' t := by
  induction h with
  | nil w => intro _ hb; exact ⟨hb, refl w⟩
  | @call w w1 w2 w3 a m subs rest t1 t2 e room h h1 h2 ih1 ih2 =>
    intro hl hb
    have ha : c.outsider a ∨ (a = c.self ∧ m.tame = true) := hl _ List.mem_cons_self
    have hk : Known c a m := by
      rcases ha with ha | ⟨ha, hm⟩
      · exact Or.inl ha
      · exact Or.inr ⟨ha, Or.inl hm⟩
    have hh := handled hw ht hb hk room h
    obtain ⟨b2, p2⟩ := ih1 hh.allowed hh.base
    obtain ⟨b3, p3⟩ := ih2 (fun i hi => hl i (List.mem_cons_of_mem _ hi)) b2
    exact ⟨b3, trans _ _ _ [_] _ (one _ _ _ _ _ e hb hk room h hh) (trans _ _ _ _ _ p2 p3)⟩
  | @actions w w1 w2 w3 id subs rest t1 t2 e room h h1 h2 ih1 ih2 =>
    intro hl hb
    have hk : Known c c.self (.ctl (.executeActions id)) := Or.inr ⟨rfl, Or.inr ⟨id, rfl⟩⟩
    have hh := handled hw ht hb hk room h
    obtain ⟨b2, p2⟩ := ih1 hh.allowed hh.base
    obtain ⟨b3, p3⟩ := ih2 (fun i hi => hl i (List.mem_cons_of_mem _ hi)) b2
    exact ⟨b3, trans _ _ _ [_] _ (one _ _ _ _ _ e hb hk room h hh) (trans _ _ _ _ _ p2 p3)⟩
  | failed h ih =>
    intro hl hb
    exact ih (fun i hi => hl i (List.mem_cons_of_mem _ hi)) hb
  | @deposit w w1 w2 id t calls rest t1 t2 hc h1 h2 ih1 ih2 =>
    intro hl hb
    obtain ⟨b1, p1⟩ := ih1 hc.allowed ⟨hb.ctl, hb.mem, hb.council⟩
    obtain ⟨b2, p2⟩ := ih2 (fun i hi => hl i (List.mem_cons_of_mem _ hi)) b1
    exact ⟨b2, trans _ _ _ _ _ (trans _ _ _ [] _ (log w _) p1) p2⟩
  | @other w w1 w2 calls rest t1 t2 hc h1 h2 ih1 ih2 =>
    intro hl hb
    obtain ⟨b1, p1⟩ := ih1 hc.allowed hb
    obtain ⟨b2, p2⟩ := ih2 (fun i hi => hl i (List.mem_cons_of_mem _ hi)) b1
    exact ⟨b2, trans _ _ _ _ _ p1 p2⟩

theorem History.inductRoom {c : Cfg} (hw : c.Wf) (ht : c.Tame) {P : World → World → List Entry → Prop}
    (refl : ∀ w, P w w []) (log : ∀ w l, P w { w with log := l } []) (block : ∀ w b, P w { w with block := b } [])
    (trans : ∀ w w1 w2 t t', P w w1 t → P w1 w2 t' → P w w2 (t ++ t'))
    (one : ∀ w w1 a m subs e, Base c w → Known c a m → w.gov.pollCount + 1 < 2 ^ 64 →
      handle c e w a m = .ok (w1, subs) → Handled c w a m w1 subs → P w w1 [⟨w, e, a, m⟩])
    {w w' : World} {t : List Entry} (h : History c w w' t) (hr : Reachable c w) : P w w' t := by
  induction h with
  | start => exact refl w
  | @tx w1 w2 a m t t1 h ha hx ih =>
    exact trans _ _ _ _ _ ih (hx.inductRoom hw ht refl log trans one
      (fun i hi => by rw [List.mem_singleton.1 hi]; exact Or.inl ha) ((h.later.reachable hr).base hw ht)).2
  | @block w1 b t h _ _ ih =>
    have := trans _ _ _ _ _ ih (block w1 b)
    rwa [List.append_nil] at this

/-- `Traced.inductRoom` without the bound on the number of proposals. -/
theorem Traced.induct {c : Cfg} (hw : c.Wf) (ht : c.Tame) {P : World → World → List Entry → Prop}
    (refl : ∀ w, P w w []) (log : ∀ w l, P w { w with log := l } [])
    (trans : ∀ w w1 w2 t t', P w w1 t → P w1 w2 t' → P w w2 (t ++ t'))
    (one : ∀ w w1 a m subs e, Base c w → Known c a m → handle c e w a m = .ok (w1, subs) → Handled c w a m w1 subs →
      P w w1 [⟨w, e, a, m⟩])
    {w w' : World} {l : List Item} {t : List Entry} (h : Traced c w l w' t) : (∀ i ∈ l, Allowed c i) → Base c w →
      Base c w' ∧ P w w' t :=
  h.inductRoom hw ht refl log trans (fun w w1 a m subs e hb hk _ hr hh => one w w1 a m subs e hb hk hr hh)

/-- `History.inductRoom` without the bound on the number of proposals. -/
theorem History.induct {c : Cfg} (hw : c.Wf) (ht : c.Tame) {P : World → World → List Entry → Prop}
    (refl : ∀ w, P w w []) (log : ∀ w l, P w { w with log := l } []) (block : ∀ w b, P w { w with block := b } [])
    (trans : ∀ w w1 w2 t t', P w w1 t → P w1 w2 t' → P w w2 (t ++ t'))
    (one : ∀ w w1 a m subs e, Base c w → Known c a m → handle c e w a m = .ok (w1, subs) → Handled c w a m w1 subs →
      P w w1 [⟨w, e, a, m⟩])
    {w w' : World} {t : List Entry} (h : History c w w' t) (hr : Reachable c w) : P w w' t :=
  h.inductRoom hw ht refl log block trans (fun w w1 a m subs e hb hk _ hr hh => one w w1 a m subs e hb hk hr hh) hr

end Verif.Dao
