import Verif.Base.Map
import Verif.Base.Num
import Mathlib.Order.Nat

/-!
# `cw_storage_plus::SnapshotItem<Uint128>` with `Strategy::EveryBlock` (dependency)

`save` logs the former value once per height; `may_load_at_height h` returns the value logged at the first height
`≥ h`, and the current value when there is none.
-/

namespace Verif

/-- A snapshot item: current value, and the former value logged at each height at which it changed. -/
structure Snap where
  cur : Option Nat
  log : Map Nat (Option Nat)
  deriving DecidableEq

namespace Snap

/-- Nothing saved yet. -/
def empty : Snap := ⟨none, Map.empty⟩

/-- `SnapshotItem::save`. -/
def save (s : Snap) (v h : Nat) : Snap :=
  ⟨some v, if s.log.has h then s.log else s.log.set h s.cur⟩

/-- `SnapshotItem::may_load`, with `unwrap_or_default`. -/
def load (s : Snap) : Nat := s.cur.getD 0

/-- `SnapshotItem::may_load_at_height`. -/
def mayLoadAt (s : Snap) (h : Nat) : Option Nat :=
  match s.log.entries.find? (fun e => decide (h ≤ e.1)) with
  | some e => e.2
  | none => s.cur

/-- `SnapshotItem::may_load_at_height`, with `unwrap_or_default`. -/
def loadAt (s : Snap) (h : Nat) : Nat := (s.mayLoadAt h).getD 0

/-- A sequence of saves `(value, height)`. -/
def saves (s : Snap) (l : List (Nat × Nat)) : Snap := l.foldl (fun s e => s.save e.1 e.2) s

@[simp] theorem load_save (s : Snap) (v h : Nat) : (s.save v h).load = v := rfl
@[simp] theorem cur_save (s : Snap) (v h : Nat) : (s.save v h).cur = some v := rfl

theorem has_log_save (s : Snap) (v h k : Nat) :
    (s.save v h).log.has k = (decide (h = k) || s.log.has k) := by
  unfold save
  by_cases hh : s.log.has h = true
  · simp only [hh, if_true]
    by_cases hk : h = k
    · subst hk; simp [hh]
    · simp [hk]
  · simp [hh, Map.has_set]

theorem mayLoadAt_of_lt {s : Snap} {H : Nat} (h : ∀ k, s.log.has k = true → k < H) : s.mayLoadAt H = s.cur := by
  unfold mayLoadAt
  have : s.log.entries.find? (fun e => decide (H ≤ e.1)) = none := by
    rw [List.find?_eq_none]
    intro e he
    have := h e.1 (Map.has_iff.2 ⟨e.2, Map.get_eq_some_iff.2 he⟩)
    simp only [decide_eq_true_eq]; omega
  rw [this]

/-- The first entry at or after `H`. -/
theorem find?_ge_iff {m : Map Nat (Option Nat)} {H k : Nat} {o : Option Nat} :
    m.entries.find? (fun e => decide (H ≤ e.1)) = some (k, o) ↔
      m.get k = some o ∧ H ≤ k ∧ ∀ j, m.has j = true → H ≤ j → k ≤ j := by
  rw [Map.get_eq_some_iff]
  have hs := m.sorted
  have hhas : ∀ j, m.has j = true ↔ ∃ v, (j, v) ∈ m.entries := by
    intro j; rw [Map.has_iff]; simp only [Map.get_eq_some_iff]
  simp only [hhas]
  generalize m.entries = l at hs
  induction l with
  | nil => simp
  | cons e t ih =>
    have hs' := List.pairwise_cons.1 hs
    rw [List.find?_cons]
    by_cases he : H ≤ e.1
    · simp only [he, decide_true]
      constructor
      · intro heq
        have heq : e = (k, o) := by simpa using heq
        subst heq
        refine ⟨List.mem_cons_self, he, ?_⟩
        rintro j ⟨v, hv⟩ hj
        rcases List.mem_cons.1 hv with h | h
        · have := congrArg Prod.fst h; simp at this; omega
        · exact le_of_lt (hs'.1 _ h)
      · rintro ⟨hm, hk, hmin⟩
        rcases List.mem_cons.1 hm with h | h
        · rw [h]
        · have h1 := hs'.1 _ h
          have h2 := hmin e.1 ⟨e.2, List.mem_cons_self⟩ he
          simp only at h1
          omega
    · simp only [he, decide_false]
      refine Iff.trans (ih hs'.2) ?_
      constructor
      · rintro ⟨hm, hk, hmin⟩
        refine ⟨List.mem_cons_of_mem _ hm, hk, ?_⟩
        rintro j ⟨v, hv⟩ hj
        rcases List.mem_cons.1 hv with h | h
        · have := congrArg Prod.fst h; simp only at this; omega
        · exact hmin j ⟨v, h⟩ hj
      · rintro ⟨hm, hk, hmin⟩
        refine ⟨?_, hk, ?_⟩
        · rcases List.mem_cons.1 hm with h | h
          · rw [← h] at he; exact absurd hk he
          · exact h
        · rintro j ⟨v, hv⟩ hj
          exact hmin j ⟨v, List.mem_cons_of_mem _ hv⟩ hj

/-- Saving at a height at or after `H`, when every logged height is at most that one, does not change
the value at `H`. -/
theorem mayLoadAt_save {s : Snap} {v h H : Nat} (hH : H ≤ h) (hlog : ∀ k, s.log.has k = true → k ≤ h) :
    (s.save v h).mayLoadAt H = s.mayLoadAt H := by
  unfold mayLoadAt
  cases hf : s.log.entries.find? (fun e => decide (H ≤ e.1)) with
  | some e =>
    obtain ⟨k, o⟩ := e
    obtain ⟨h1, h2, h3⟩ := find?_ge_iff.1 hf
    have : (s.save v h).log.entries.find? (fun e => decide (H ≤ e.1)) = some (k, o) := by
      rw [find?_ge_iff]
      have hk := hlog k (Map.has_iff.2 ⟨o, h1⟩)
      refine ⟨?_, h2, ?_⟩
      · unfold save
        by_cases hh : s.log.has h = true
        · simp only [hh, if_true]; exact h1
        · rw [if_neg hh, Map.get_set]
          split
          · rename_i hhk
            subst hhk
            exact absurd (Map.has_iff.2 ⟨o, h1⟩) hh
          · exact h1
      · intro j hj hHj
        rw [has_log_save] at hj
        simp only [Bool.or_eq_true, decide_eq_true_eq] at hj
        rcases hj with rfl | hj
        · exact hk
        · exact h3 j hj hHj
    rw [this]
  | none =>
    have hnone : ∀ k, s.log.has k = true → k < H := by
      intro k hk
      obtain ⟨o, ho⟩ := Map.has_iff.1 hk
      have := (List.find?_eq_none.1 hf) (k, o) (Map.get_eq_some_iff.1 ho)
      simp only [decide_eq_true_eq] at this
      omega
    have hno : ¬ s.log.has h = true := fun hh => by have := hnone h hh; omega
    have : (s.save v h).log.entries.find? (fun e => decide (H ≤ e.1)) = some (h, s.cur) := by
      rw [find?_ge_iff]
      refine ⟨?_, hH, ?_⟩
      · unfold save; simp [hno]
      · intro j hj hHj
        rw [has_log_save] at hj
        simp only [Bool.or_eq_true, decide_eq_true_eq] at hj
        rcases hj with rfl | hj
        · exact le_refl _
        · have := hnone j hj; omega
    rw [this]

/-- Every logged height is at most the height of the last save, when heights do not decrease. -/
def upTo (s : Snap) (h : Nat) : Prop := ∀ k, s.log.has k = true → k ≤ h

theorem upTo_save {s : Snap} {h h' : Nat} (v : Nat) (hs : s.upTo h) (hh : h ≤ h') : (s.save v h').upTo h' := by
  intro k hk
  rw [has_log_save] at hk
  simp only [Bool.or_eq_true, decide_eq_true_eq] at hk
  rcases hk with rfl | hk
  · exact le_refl _
  · exact le_trans (hs k hk) hh

theorem upTo_mono {s : Snap} {h h' : Nat} (hs : s.upTo h) (hh : h ≤ h') : s.upTo h' :=
  fun k hk => le_trans (hs k hk) hh

end Snap

end Verif
