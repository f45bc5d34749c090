import Verif.Base.Snapshot

/-!
# Sequences of saves to a snapshot item
-/

namespace Verif.Snap

/-- `s'` results from `s` by saving, or not, some value at each of the given heights in turn. -/
inductive Steps : Snap → List Nat → Snap → Prop
  | nil (s : Snap) : Steps s [] s
  | skip {s s' : Snap} (h : Nat) {t : List Nat} : Steps s t s' → Steps s (h :: t) s'
  | save {s s' : Snap} (v h : Nat) {t : List Nat} : Steps (s.save v h) t s' → Steps s (h :: t) s'

theorem Steps.cons {s s1 s' : Snap} {h : Nat} {t : List Nat} (h1 : s1 = s ∨ ∃ v, s1 = s.save v h)
    (h2 : Steps s1 t s') : Steps s (h :: t) s' := by
  rcases h1 with rfl | ⟨v, rfl⟩
  · exact .skip h h2
  · exact .save v h h2

/-- Saves at `H` or later do not change the value at `H`. -/
theorem Steps.mayLoadAt {s s' : Snap} {hs : List Nat} (h : Steps s hs s') {H : Nat}
    (hmono : hs.Pairwise (· ≤ ·)) (hge : ∀ h ∈ hs, H ≤ h ∧ s.upTo h) : s'.mayLoadAt H = s.mayLoadAt H := by
  induction h with
  | nil s => rfl
  | skip h _ ih =>
    exact ih (List.pairwise_cons.1 hmono).2 (fun x hx => hge x (List.mem_cons_of_mem _ hx))
  | save v h _ ih =>
    have hc := hge h List.mem_cons_self
    have hm := List.pairwise_cons.1 hmono
    rw [ih hm.2, mayLoadAt_save hc.1 hc.2]
    intro x hx
    exact ⟨(hge x (List.mem_cons_of_mem _ hx)).1, upTo_mono (upTo_save v hc.2 (le_refl _)) (hm.1 x hx)⟩

/-- Logged heights come from the given ones. -/
theorem Steps.logs {s s' : Snap} {hs : List Nat} (h : Steps s hs s') {j : Nat} (hj : s'.log.has j = true) :
    s.log.has j = true ∨ j ∈ hs := by
  induction h with
  | nil s => exact Or.inl hj
  | skip h _ ih =>
    rcases ih hj with h | h
    · exact Or.inl h
    · exact Or.inr (List.mem_cons_of_mem _ h)
  | save v h _ ih =>
    rcases ih hj with h1 | h1
    · rw [has_log_save] at h1
      simp only [Bool.or_eq_true, decide_eq_true_eq] at h1
      rcases h1 with rfl | h1
      · exact Or.inr List.mem_cons_self
      · exact Or.inl h1
    · exact Or.inr (List.mem_cons_of_mem _ h1)

/-- Heights logged by a sequence of saves. -/
theorem has_log_saves (l : List (Nat × Nat)) (s : Snap) (k : Nat)
    (h : (s.saves l).log.has k = true) : s.log.has k = true ∨ k ∈ l.map (·.2) := by
  unfold Snap.saves at h
  induction l generalizing s with
  | nil => exact Or.inl h
  | cons e t ih =>
    rw [List.foldl_cons] at h
    rcases ih _ h with h1 | h1
    · rw [Snap.has_log_save] at h1
      simp only [Bool.or_eq_true, decide_eq_true_eq] at h1
      rcases h1 with rfl | h1
      · exact Or.inr (by simp)
      · exact Or.inl h1
    · exact Or.inr (by simp only [List.map_cons, List.mem_cons]; exact Or.inr h1)

/-- Value at `H` after two parts of a history: everything logged before is below `H`, everything after is at `H` or
later and in order. -/
theorem Steps.split {s s' : Snap} {hs : List Nat} (h : Steps s hs s') {H w : Nat} (hcur : s.cur = some w)
    (hlog : ∀ j, s.log.has j = true → j < H) (hmono : hs.Pairwise (· ≤ ·)) (hge : ∀ x ∈ hs, H ≤ x) :
    s'.loadAt H = w := by
  unfold loadAt
  rw [h.mayLoadAt hmono (fun x hx => ⟨hge x hx, fun j hj => le_trans (le_of_lt (hlog j hj)) (hge x hx)⟩),
    mayLoadAt_of_lt hlog, hcur]
  rfl

end Verif.Snap
