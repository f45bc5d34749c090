import Verif.Distributor.Props12

/-!
# Funds distributor: a larger minimum weight is paid for by those below it (C184)
-/

set_option linter.unusedSimpArgs false

namespace Verif.Distributor
open Verif

/-! ### Specification -/

/-- The second history differs from the first one in that new minimum weights are no smaller in it, and in who claims what and
when, which is left open in both. -/
inductive StricterHistory : List Call → List Call → Prop
  | nil : StricterHistory [] []
  | min (e : Env) (d : Bool) {n n' : Nat} (hn : n ≤ n') {h h' : List Call} (t : StricterHistory h h') :
    StricterHistory (⟨e, .updateMin n, d⟩ :: h) (⟨e, .updateMin n', d⟩ :: h')
  | same (c : Call) (hc : isClaim c = false) (hm : ∀ n, c.msg ≠ .updateMin n) {h h' : List Call}
    (t : StricterHistory h h') : StricterHistory (c :: h) (c :: h')
  | claim (c : Call) (hc : isClaim c = true) {h h' : List Call} (t : StricterHistory h h') : StricterHistory (c :: h) h'
  | claim' (c : Call) (hc : isClaim c = true) {h h' : List Call} (t : StricterHistory h h') : StricterHistory h (c :: h')

/-- Whenever an asset is distributed in a history, the user's weight is at least the minimum. -/
def aboveFor (u : Addr) (a : AssetInfo) : State → List Call → Prop
  | _, [] => True
  | s, c :: t => (funds c a ≠ 0 → s.min ≤ weight s u) ∧ aboveFor u a (step s c).1 t

/-- Whenever an asset is distributed in a history, the user's weight is below the minimum. -/
def belowFor (u : Addr) (a : AssetInfo) : State → List Call → Prop
  | _, [] => True
  | s, c :: t => (funds c a ≠ 0 → weight s u < s.min) ∧ belowFor u a (step s c).1 t

/-! ### Lemmas -/

/-- How the states of the two histories compare. -/
structure Stricter (s s' : State) : Prop where
  weights : s'.weights = s.weights
  min : s.min ≤ s'.min

theorem stricter_sum {s s' : State} (hi : Inv s) (hi' : Inv s') (h : Stricter s s') :
    s'.effective.sum (fun _ w => w) ≤ s.effective.sum (fun _ w => w) := by
  have key : ∀ {t : State}, Inv t → t.effective.sum (fun _ w => w) = t.weights.sum (fun _ w => effWeight w t.min) := by
    intro t it
    have : t.effective = t.weights.mapVals (fun _ w => effWeight w t.min) := by
      refine Map.ext_get (fun x => ?_)
      rw [it.eff, Map.get_mapVals]
    rw [this, Map.sum_mapVals]
  rw [key hi, key hi', h.weights]
  refine Map.sum_le_sum (fun x w _ => ?_)
  have := h.min
  unfold effWeight
  split <;> split <;> omega

theorem stricter_share {s s' : State} (hi : Inv s) (hi' : Inv s') (h : Stricter s s') {u : Addr} (hu : s'.min ≤ weight s' u)
    (f : Nat) : (f : ℚ) * effective s u / (s.effective.sum (fun _ w => w) : Nat) ≤
      (f : ℚ) * effective s' u / (s'.effective.sum (fun _ w => w) : Nat) := by
  have hw : weight s' u = weight s u := by unfold weight; rw [h.weights]
  have hm := h.min
  have e1 : effective s' u = weight s u := by
    rw [eff_eq hi', hw]
    unfold effWeight
    rw [if_pos (by omega)]
  have e2 : effective s u = weight s u := by
    rw [eff_eq hi]
    unfold effWeight
    rw [if_pos (by omega)]
  rw [e1, e2]
  rcases Nat.eq_zero_or_pos (weight s u) with h0 | h0
  · rw [h0]; simp
  · have hle := stricter_sum hi hi' h
    have hpos : 0 < s'.effective.sum (fun _ w => w) := by
      have : effective s' u ≤ s'.effective.sum (fun _ w => w) := by
        unfold effective
        cases hx : s'.effective.get u with
        | none => exact Nat.zero_le _
        | some y => exact Map.le_sum (fun _ w => w) hx
      omega
    exact div_le_div_of_nonneg_left (mul_nonneg (Nat.cast_nonneg _) (Nat.cast_nonneg _)) (by exact_mod_cast hpos)
      (by exact_mod_cast hle)

theorem share_below (u : Addr) (a : AssetInfo) : ∀ (h : List Call) {s : State}, Inv s → belowFor u a s h →
    exactShare u a s h = 0
  | [], _, _, _ => rfl
  | c :: t, s, hi, hb => by
    unfold exactShare
    rw [share_below u a t (step_inv hi c).1 hb.2, add_zero]
    split
    · by_cases hf : funds c a = 0
      · rw [hf]; simp
      · have h1 : effective s u = 0 := by
          have := hb.1 hf
          rw [eff_eq hi]
          unfold effWeight
          rw [if_neg (by omega)]
        rw [h1]; simp
    · rfl

theorem stricter_next {u : Addr} {a : AssetInfo} {s s' : State} (hi : Inv s) (hi' : Inv s') (hh : Stricter s s') {c c' : Call}
    (hc : accepted s c) (hc' : accepted s' c') (hf : funds c' a = funds c a) {h h' : List Call}
    (hab : aboveFor u a s' (c' :: h')) (ih : exactShare u a (step s c).1 h ≤ exactShare u a (step s' c').1 h') :
    exactShare u a s (c :: h) ≤ exactShare u a s' (c' :: h') := by
  have e1 : exactShare u a s (c :: h) =
      (funds c a : ℚ) * effective s u / (s.effective.sum (fun _ w => w) : Nat) + exactShare u a (step s c).1 h := by
    conv_lhs => unfold exactShare
    rw [if_pos hc]
  have e2 : exactShare u a s' (c' :: h') =
      (funds c a : ℚ) * effective s' u / (s'.effective.sum (fun _ w => w) : Nat) + exactShare u a (step s' c').1 h' := by
    conv_lhs => unfold exactShare
    rw [if_pos hc', hf]
  rw [e1, e2]
  refine add_le_add ?_ ih
  by_cases h0 : funds c a = 0
  · rw [h0]; simp
  · exact stricter_share hi hi' hh (hab.1 (by rw [hf]; exact h0)) _

theorem stricter_compare {u : Addr} (a : AssetInfo) {h h' : List Call} (hs : StricterHistory h h') :
    ∀ {s s' : State}, Inv s → Inv s' → Stricter s s' → allAccepted s h → allAccepted s' h' → aboveFor u a s' h' →
      exactShare u a s h ≤ exactShare u a s' h' := by
  induction hs with
  | nil => intro s s' _ _ _ _ _ _; exact le_refl _
  | @min e d n n' hn h h' _ ih =>
    intro s s' hi hi' hh ha ha' hab
    have key : ∀ {t : State} {k : Nat}, Inv t → accepted t ⟨e, .updateMin k, d⟩ →
        (step t ⟨e, .updateMin k, d⟩).1.weights = t.weights ∧ (step t ⟨e, .updateMin k, d⟩).1.min = k := by
      intro t k it hk
      rcases step_cases t ⟨e, .updateMin k, d⟩ with ⟨x, hx, _, he, _⟩ | ⟨_, hn⟩
      · rw [he]; exact (exec_effect it hx).2.1 k rfl
      · exact absurd hk hn
    have k1 := key hi (ha.1 rfl)
    have k2 := key hi' (ha'.1 rfl)
    exact stricter_next hi hi' hh (ha.1 rfl) (ha'.1 rfl) rfl hab
      (ih (step_inv hi _).1 (step_inv hi' _).1 ⟨by rw [k1.1, k2.1, hh.weights], by rw [k1.2, k2.2]; exact hn⟩ ha.2 ha'.2 hab.2)
  | @same c hc hm h h' _ ih =>
    intro s s' hi hi' hh ha ha' hab
    have key : ∀ {t : State}, Inv t → accepted t c → (step t c).1.min = t.min ∧
        ((∃ l, c.msg = .updateWeights l ∧ (step t c).1.weights = l.foldl (fun m p => m.set p.1 p.2) t.weights) ∨
          (∀ l, c.msg ≠ .updateWeights l) ∧ (step t c).1.weights = t.weights) := by
      intro t it hk
      rcases step_cases t c with ⟨x, hx, _, he, _⟩ | ⟨_, hn⟩
      · rw [he]
        by_cases hw : ∃ l, c.msg = .updateWeights l
        · obtain ⟨l, hw⟩ := hw
          obtain ⟨q1, q2⟩ := (exec_effect it hx).1 l hw
          exact ⟨q2, .inl ⟨l, hw, q1⟩⟩
        · have hw : ∀ l, c.msg ≠ .updateWeights l := fun l hl => hw ⟨l, hl⟩
          obtain ⟨q1, q2⟩ := (exec_effect it hx).2.2 hw hm
          exact ⟨q2, .inr ⟨hw, q1⟩⟩
      · exact absurd hk hn
    obtain ⟨m1, k1⟩ := key hi (ha.1 hc)
    obtain ⟨m2, k2⟩ := key hi' (ha'.1 hc)
    refine stricter_next hi hi' hh (ha.1 hc) (ha'.1 hc) rfl hab
      (ih (step_inv hi _).1 (step_inv hi' _).1 ⟨?_, by rw [m1, m2]; exact hh.min⟩ ha.2 ha'.2 hab.2)
    rcases k1 with ⟨l, hl, q⟩ | ⟨hl, q⟩ <;> rcases k2 with ⟨l', hl', q'⟩ | ⟨hl', q'⟩
    · rw [hl] at hl'
      cases hl'
      rw [q, q', hh.weights]
    · exact absurd hl (hl' l)
    · exact absurd hl' (hl l')
    · rw [q, q', hh.weights]
  | @claim c hc h h' _ ih =>
    intro s s' hi hi' hh ha ha' hab
    obtain ⟨k1, k2, _⟩ := claim_keeps hi hc
    rw [exact_claim hi hc]
    exact ih (step_inv hi c).1 hi' ⟨by rw [k1]; exact hh.weights, by rw [k2]; exact hh.min⟩ ha.2 ha' hab
  | @claim' c hc h h' _ ih =>
    intro s s' hi hi' hh ha ha' hab
    obtain ⟨k1, k2, _⟩ := claim_keeps hi' hc
    rw [exact_claim hi' hc]
    exact ih hi (step_inv hi' c).1 ⟨by rw [k1]; exact hh.weights, by rw [k2]; exact hh.min⟩ ha ha'.2 hab.2

theorem init_stricter {ad : Addr} {m m' : Option Nat} {l : List (Addr × Nat)} {s s' : State} (hm : m.getD 0 ≤ m'.getD 0)
    (h : init ad m l = .ok s) (h' : init ad m' l = .ok s') : Stricter s s' :=
  ⟨(init_fold_weights _ _ _ h').trans (init_fold_weights _ _ _ h).symm,
    by rw [(init_inv h).2.2.1, (init_inv h').2.2.1]; exact hm⟩

/-! ### Theorems -/

/-- **A larger minimum weight never harms those who reach it.** Take two histories in which the same is distributed and everybody
has the same weights, and in which the minimum weight for rewards is never smaller in the second one. The exact share of a user
whose weight reaches the minimum at every distribution of the second history is no smaller in it, and what the user got is not
less but for the rounding there. -/
theorem C184_above {ad : Addr} {mw mw' : Option Nat} {ws : List (Addr × Nat)} {s s' : State} (hmw : mw.getD 0 ≤ mw'.getD 0)
    (h0 : init ad mw ws = .ok s) (h0' : init ad mw' ws = .ok s') {h h' : List Call} (hs : StricterHistory h h')
    (ha : allAccepted s h) (ha' : allAccepted s' h') (a : AssetInfo) {u : Addr} (hu : aboveFor u a s' h') :
    exactShare u a s h ≤ exactShare u a s' h' ∧
    (distributed a s' h' < 2 ^ 128 → (got u a s h : ℚ) < (got u a s' h' : Nat) + 1 + roundings u a s' h') := by
  have hc := stricter_compare a hs (init_inv h0).1 (init_inv h0').1 (init_stricter hmw h0 h0') ha ha' hu
  refine ⟨hc, fun hb => ?_⟩
  have h1 : (got u a s h : ℚ) ≤ exactShare u a s h := C124_never_more ad mw ws s h h0 u a
  have h2 := C124_within_rounding ad mw' ws s' h' h0' u a hb
  exact lt_of_le_of_lt (le_trans h1 hc) h2

/-- **And those who never reach it get nothing.** -/
theorem C184_below {ad : Addr} {mw : Option Nat} {ws : List (Addr × Nat)} {s : State} (h0 : init ad mw ws = .ok s)
    {h : List Call} (a : AssetInfo) {u : Addr} (hu : belowFor u a s h) : got u a s h = 0 := by
  have h1 : (got u a s h : ℚ) ≤ exactShare u a s h := C124_never_more ad mw ws s h h0 u a
  rw [share_below u a h (init_inv h0).1 hu] at h1
  have : (got u a s h : ℚ) = 0 := le_antisymm h1 (Nat.cast_nonneg _)
  exact_mod_cast this

/-! ### Examples -/

/-- Two distributions of 60 around a change of the minimum to `n`. -/
def stricterHistory (n : Nat) : List Call :=
  [giving openEnv 60 (.native 5), ⟨{ openEnv with sender := 100 }, .updateMin n, true⟩, giving openEnv 60 (.native 5)]

theorem stricterHistory_stricter {n m : Nat} (h : n ≤ m) : StricterHistory (stricterHistory n) (stricterHistory m) :=
  .same _ rfl (fun _ h => by simp [giving] at h) (.min _ _ h (.same _ rfl (fun _ h => by simp [giving] at h) .nil))

/-- Hypotheses of `C184_above`: users 1, 2 and 3 have weights 1, 2 and 3, and the minimum is raised to 1 or to 3 between two
distributions of 60. User 3 gets 60 with the one and 90 with the other. -/
example : ∃ s, init 100 none [(1, 1), (2, 2), (3, 3)] = .ok s ∧ StricterHistory (stricterHistory 1) (stricterHistory 3) ∧
    allAccepted s (stricterHistory 1) ∧ allAccepted s (stricterHistory 3) ∧ aboveFor 3 (.native 5) s (stricterHistory 3) ∧
    got 3 (.native 5) s (stricterHistory 1) = 60 ∧ got 3 (.native 5) s (stricterHistory 3) = 90 :=
  ⟨_, rfl, stricterHistory_stricter (by decide), by decide +kernel, by decide +kernel,
    ⟨fun _ => by decide +kernel, fun _ => by decide +kernel, fun _ => by decide +kernel, trivial⟩, by decide +kernel,
    by decide +kernel⟩

/-- Hypotheses of `C184_below`: with a minimum of two from the start, user 1 gets nothing. -/
example : ∃ s, init 100 (some 2) [(1, 1), (2, 2), (3, 3)] = .ok s ∧ belowFor 1 (.native 5) s (stricterHistory 3) ∧
    distributed (.native 5) s (stricterHistory 3) = 120 :=
  ⟨_, rfl, ⟨fun _ => by decide +kernel, fun _ => by decide +kernel, fun _ => by decide +kernel, trivial⟩, by decide +kernel⟩

end Verif.Distributor
