import Verif.Distributor.Lemmas2

set_option linter.unusedSimpArgs false

/-!
# Funds distributor: rounding bounds of one distribution, and acceptance of weight updates
-/

namespace Verif.Distributor
open Verif

namespace Ledger

/-- Number of entries listed for an asset. -/
def count (a : Nat) (l : List (Nat × Nat)) : Nat := (l.filter (fun f => decide (f.1 = a))).length

theorem count_cons (a : Nat) (f : Nat × Nat) (l : List (Nat × Nat)) :
    count a (f :: l) = (if f.1 = a then 1 else 0) + count a l := by
  unfold count
  by_cases h : f.1 = a
  · simp [h]; omega
  · simp [h]

theorem distributes_global {t : Nat} : ∀ (l : List (Nat × Nat)) (L L' : Ledger),
    l.foldlM (distributeOne t) L = .ok L' → L'.dist = L.dist ∧
    ∀ a, ∃ inc, L'.global a = L.global a + inc ∧ t * inc ≤ ONE * listed a l ∧
      ONE * listed a l ≤ t * inc + t * count a l ∧ (L.global a < M128 → L'.global a < M128)
  | [], L, L', h => by
    rw [foldlM_nil_ok_iff] at h
    subst h
    exact ⟨rfl, fun a => ⟨0, rfl, by simp, by simp [listed], id⟩⟩
  | f :: l, L, L', h => by
    obtain ⟨L1, h1, h2⟩ := foldlM_cons_ok_iff.1 h
    obtain ⟨ht, _, hlt, d1, g1⟩ := distributeOne_ok h1
    obtain ⟨i1, i2⟩ := distributes_global l L1 L' h2
    refine ⟨i1.trans d1, fun a => ?_⟩
    obtain ⟨inc, e1, e2, e3, e4⟩ := i2 a
    rw [listed_cons, count_cons]
    have hg := g1 a
    by_cases ha : f.1 = a
    · rw [if_pos ha] at hg ⊢
      rw [if_pos ha]
      have h3 := Nat.mul_div_le (f.2 * ONE) t
      have h4 := Nat.lt_mul_div_succ (f.2 * ONE) (Nat.pos_of_ne_zero ht)
      rw [Nat.mul_add, Nat.mul_one] at h4
      generalize f.2 * ONE / t = q at *
      refine ⟨q + inc, by omega, ?_, ?_, fun _ => e4 (by rw [hg, ← ha]; exact hlt)⟩
      · rw [Nat.mul_add, Nat.mul_add, Nat.mul_comm ONE f.2]
        omega
      · rw [Nat.mul_add, Nat.mul_add, Nat.mul_add, Nat.mul_comm ONE f.2]
        omega
    · rw [if_neg ha] at hg ⊢
      rw [if_neg ha, Nat.zero_add, Nat.zero_add]
      refine ⟨inc, by omega, e2, e3, fun hx => e4 (by omega)⟩

end Ledger

/-- Two-sided bound on the growth of a rounded-down amount. -/
theorem floor_growth (w D inc T A k : Nat) (h1 : T * inc ≤ ONE * A) (h2 : ONE * A ≤ T * inc + T * k) (hT : 0 < T) :
    w * D / ONE ≤ w * (D + inc) / ONE ∧
    T * (w * (D + inc) / ONE - w * D / ONE) < A * w + T ∧
    A * w * ONE < ONE * T * (w * (D + inc) / ONE - w * D / ONE) + ONE * T + k * w * T := by
  have hone : 0 < ONE := by decide
  have hm : w * D / ONE ≤ w * (D + inc) / ONE := Nat.div_le_div_right (Nat.mul_le_mul_left _ (by omega))
  have a1 := Nat.mul_div_le (w * (D + inc)) ONE
  have a2 := Nat.lt_mul_div_succ (w * (D + inc)) hone
  have b1 := Nat.mul_div_le (w * D) ONE
  have b2 := Nat.lt_mul_div_succ (w * D) hone
  rw [Nat.mul_succ] at a2 b2
  have hx : w * (D + inc) = w * D + w * inc := Nat.mul_add _ _ _
  generalize w * (D + inc) / ONE = y at *
  generalize w * D / ONE = x at *
  rw [hx] at a1 a2
  generalize w * D = X at *
  have hs : ONE * (y - x) = ONE * y - ONE * x := Nat.mul_sub _ _ _
  have hxy : ONE * x ≤ ONE * y := Nat.mul_le_mul_left _ hm
  refine ⟨hm, ?_, ?_⟩
  · have h5 : ONE * (y - x) < w * inc + ONE := by omega
    generalize y - x = z at *
    have h6 : T * (ONE * z) < T * (w * inc + ONE) := Nat.mul_lt_mul_of_pos_left h5 hT
    have h7 : w * (T * inc) ≤ w * (ONE * A) := Nat.mul_le_mul_left _ h1
    have h8 : ONE * (T * z) < ONE * (A * w + T) := by
      have e1 : T * (ONE * z) = ONE * (T * z) := Nat.mul_left_comm _ _ _
      have e2 : T * (w * inc + ONE) = w * (T * inc) + ONE * T := by
        rw [Nat.mul_add, Nat.mul_left_comm, Nat.mul_comm T ONE]
      have e3 : ONE * (A * w + T) = w * (ONE * A) + ONE * T := by
        rw [Nat.mul_add, Nat.mul_left_comm w, Nat.mul_comm w A]
      rw [e2] at h6
      rw [e3, ← e1]
      exact lt_of_lt_of_le h6 (Nat.add_le_add_right h7 _)
    exact Nat.lt_of_mul_lt_mul_left h8
  · have h5 : w * inc < ONE * (y - x) + ONE := by omega
    generalize y - x = z at *
    have h6 : T * (w * inc) < T * (ONE * z + ONE) := Nat.mul_lt_mul_of_pos_left h5 hT
    have h7 : w * (ONE * A) ≤ w * (T * inc + T * k) := Nat.mul_le_mul_left _ h2
    have e1 : A * w * ONE = w * (ONE * A) := by rw [Nat.mul_comm A w, Nat.mul_assoc, Nat.mul_comm A ONE]
    have e2 : w * (T * inc + T * k) = T * (w * inc) + k * w * T := by
      rw [Nat.mul_add, Nat.mul_left_comm, Nat.mul_comm (k * w) T, Nat.mul_comm k w, Nat.mul_left_comm T w k]
    have e3 : T * (ONE * z + ONE) = ONE * T * z + ONE * T := by
      rw [Nat.mul_add, Nat.mul_left_comm, Nat.mul_comm T ONE, ← Nat.mul_assoc]
    rw [e1]
    rw [e2] at h7
    rw [e3] at h6
    exact lt_of_le_of_lt h7 (Nat.add_lt_add_right h6 _)

/-- Bound on the growth of one user's amount when the global index grows. -/
theorem amt_growth {L L' : Ledger} {u : Addr} {a w inc T A k r' : Nat} (hd : L'.dist = L.dist)
    (hidx : (L.at_ u a).index ≤ L.global a) (hg : L'.global a = L.global a + inc)
    (h1 : T * inc ≤ ONE * A) (h2 : ONE * A ≤ T * inc + T * k) (hT : 0 < T) (hr : L'.amt u w a = .ok r') :
    ∃ r, L.amt u w a = .ok r ∧ r ≤ r' ∧ T * (r' - r) < A * w + T ∧
      A * w * ONE < ONE * T * (r' - r) + ONE * T + k * w * T := by
  obtain ⟨_, hlt, hr'⟩ := Ledger.amt_ok_iff.1 hr
  have hat : L'.at_ u a = L.at_ u a := by unfold Ledger.at_; rw [hd]
  have hD : L'.global a - (L.at_ u a).index = (L.global a - (L.at_ u a).index) + inc := by omega
  rw [hat, hD] at hr'
  obtain ⟨f1, f2, f3⟩ := floor_growth w (L.global a - (L.at_ u a).index) inc T A k h1 h2 hT
  generalize hx : w * (L.global a - (L.at_ u a).index) / ONE = x at *
  generalize w * (L.global a - (L.at_ u a).index + inc) / ONE = y at *
  refine ⟨x + (L.at_ u a).pending, Ledger.amt_ok_iff.2 ⟨hidx, by omega, by rw [hx]⟩, by omega, ?_, ?_⟩
  · rw [hr', show y + (L.at_ u a).pending - (x + (L.at_ u a).pending) = y - x by omega]
    exact f2
  · rw [hr', show y + (L.at_ u a).pending - (x + (L.at_ u a).pending) = y - x by omega]
    exact f3

theorem query_native {s : State} {u : Addr} {d r : Nat} :
    queryRewards s u [d] [] = .ok ([(d, r)], []) ↔ s.native.amt u (effective s u) d = .ok r := by
  unfold queryRewards effective Ledger.rewards Ledger.amt
  simp only [List.not_mem_nil, if_false]
  unfold Ledger.rewards
  cases h : reward (s.native.global d) (s.native.dist.get (toLex (u, d))) ((s.effective.get u).getD 0) with
  | error e =>
    constructor
    · intro h; cases h
    · intro h; cases h
  | ok x =>
    constructor
    · intro h
      have h : (.ok ([(d, x)], []) : Except Err _) = .ok ([(d, r)], []) := h
      simp only [Except.ok.injEq, Prod.mk.injEq, List.cons.injEq, and_true, true_and] at h
      rw [h]
    · intro h
      have h : x = r := by cases h; rfl
      rw [h]
      rfl

theorem query_cw20 {s : State} {u : Addr} {d r : Nat} :
    queryRewards s u [] [d] = .ok ([], [(d, r)]) ↔ s.cw20.amt u (effective s u) d = .ok r := by
  unfold queryRewards effective Ledger.rewards Ledger.amt
  simp only [List.not_mem_nil, if_false]
  unfold Ledger.rewards
  cases h : reward (s.cw20.global d) (s.cw20.dist.get (toLex (u, d))) ((s.effective.get u).getD 0) with
  | error e =>
    constructor
    · intro h; cases h
    · intro h; cases h
  | ok x =>
    constructor
    · intro h
      have h : (.ok ([], [(d, x)]) : Except Err _) = .ok ([], [(d, r)]) := h
      simp only [Except.ok.injEq, Prod.mk.injEq, List.cons.injEq, and_true, true_and] at h
      rw [h]
    · intro h
      have h : x = r := by cases h; rfl
      rw [h]
      rfl

/-- A zero weight gains nothing. -/
theorem amt_zero_weight {L L' : Ledger} {u : Addr} {a inc : Nat} (hd : L'.dist = L.dist)
    (hidx : (L.at_ u a).index ≤ L.global a) (hg : L'.global a = L.global a + inc) : L'.amt u 0 a = L.amt u 0 a := by
  have hat : L'.at_ u a = L.at_ u a := by unfold Ledger.at_; rw [hd]
  unfold Ledger.amt reward newReward
  have h1 : csub (L.global a) (L.at_ u a).index = .ok (L.global a - (L.at_ u a).index) := csub_ok.2 ⟨hidx, rfl⟩
  have h2 : csub (L'.global a) (L.at_ u a).index = .ok (L'.global a - (L.at_ u a).index) :=
    csub_ok.2 ⟨by omega, rfl⟩
  unfold Ledger.at_ at h1 h2
  rw [hd]
  simp only [h1, h2]
  simp only [bind, Except.bind, Nat.zero_mul, Nat.zero_div]

theorem settle_both_exists {s : State} (hc : Core s) (ho : ∀ a, owedOf s a < ONE * M128) (u : Addr) :
    (∃ n, s.native.settle u ((s.effective.get u).getD 0) = .ok n) ∧
    (∃ c, s.cw20.settle u ((s.effective.get u).getD 0) = .ok c) :=
  ⟨Ledger.settle_exists (fun a => amt_exists hc.native (ho (.native a))),
   Ledger.settle_exists (fun a => amt_exists hc.cw20 (ho (.cw20 a)))⟩

theorem updateOne_exists {s : State} (hi : Inv s) (ho : ∀ a, owedOf s a < ONE * M128) {p : Addr × Nat}
    (ht : s.total + p.2 < M128) : ∃ s', updateOne s p = .ok s' ∧ s'.total ≤ s.total + p.2 := by
  obtain ⟨⟨n, hn⟩, c, hcw⟩ := settle_both_exists hi.toCore ho p.1
  have hr : ∃ x, refresh s p.1 = .ok x := by
    unfold refresh
    cases hu : s.effective.get p.1 with
    | none => exact ⟨_, rfl⟩
    | some w =>
      rw [hu] at hn hcw
      exact ⟨(n, c), bind_ok_iff.2 ⟨n, hn, bind_ok_iff.2 ⟨c, hcw, rfl⟩⟩⟩
  obtain ⟨x, hx⟩ := hr
  have hew : effWeight p.2 s.min ≤ p.2 := by unfold effWeight; split <;> omega
  obtain ⟨t1, t, h1, h2, h3⟩ := total_change_exists hi.toCore (u := p.1) (w := effWeight p.2 s.min) (by omega)
  refine ⟨_, bind_ok_iff.2 ⟨x, hx, bind_ok_iff.2 ⟨t1, h1, bind_ok_iff.2 ⟨t, h2, rfl⟩⟩⟩, ?_⟩
  show t ≤ _
  omega

theorem updates_exist : ∀ (l : List (Addr × Nat)) {s : State}, Inv s → (∀ a, owedOf s a < ONE * M128) →
    s.total + (l.map (·.2)).sum < M128 → ∃ s', l.foldlM updateOne s = .ok s'
  | [], s, _, _, _ => ⟨s, rfl⟩
  | p :: l, s, hi, ho, ht => by
    rw [List.map_cons, List.sum_cons] at ht
    obtain ⟨s1, h1, ht1⟩ := updateOne_exists hi ho (p := p) (by omega)
    obtain ⟨i1, q1, _⟩ := updateOne_ok hi h1
    obtain ⟨s', h2⟩ := updates_exist l i1 (fun a => lt_of_le_of_lt (q1.owed a) (ho a)) (by omega)
    exact ⟨s', foldlM_cons_ok_iff.2 ⟨s1, h1, h2⟩⟩

theorem minOne_exists {b : Bool} {s : State} (hc : Core s) (ho : ∀ a, owedOf s a < ONE * M128) {p : Addr × Nat}
    (ht : s.total + p.2 < M128) : ∃ s', minOne b s p = .ok s' ∧ s'.total ≤ s.total + p.2 := by
  obtain ⟨⟨n, hn⟩, c, hcw⟩ := settle_both_exists hc ho p.1
  have hew : (if b then p.2 else 0) ≤ p.2 := by split <;> omega
  obtain ⟨t1, t, h1, h2, h3⟩ := total_change_exists hc (u := p.1) (w := if b then p.2 else 0) (by omega)
  refine ⟨{ s with native := n, cw20 := c, effective := s.effective.set p.1 (if b then p.2 else 0), total := t },
    bind_ok_iff.2 ⟨n, hn, bind_ok_iff.2 ⟨c, hcw, bind_ok_iff.2 ⟨t1, h1, bind_ok_iff.2 ⟨t, h2, rfl⟩⟩⟩⟩, ?_⟩
  show t ≤ _
  omega

theorem mins_exist {b : Bool} : ∀ (l : List (Addr × Nat)) {s : State}, Core s → (∀ a, owedOf s a < ONE * M128) →
    s.total + (l.map (·.2)).sum < M128 → ∃ s', l.foldlM (minOne b) s = .ok s'
  | [], s, _, _, _ => ⟨s, rfl⟩
  | p :: l, s, hc, ho, ht => by
    rw [List.map_cons, List.sum_cons] at ht
    obtain ⟨s1, h1, ht1⟩ := minOne_exists (b := b) hc ho (p := p) (by omega)
    obtain ⟨q1, _⟩ := minOne_ok hc h1
    obtain ⟨s', h2⟩ := mins_exist (b := b) l q1.core (fun a => lt_of_le_of_lt (q1.owed a) (ho a)) (by omega)
    exact ⟨s', foldlM_cons_ok_iff.2 ⟨s1, h1, h2⟩⟩

theorem filter_sum_le : ∀ (l : List (Addr × Nat)) (p : Addr × Nat → Bool),
    ((l.filter p).map (·.2)).sum ≤ (l.map (·.2)).sum
  | [], _ => le_refl _
  | x :: l, p => by
    have ih := filter_sum_le l p
    by_cases h : p x = true
    · rw [List.filter_cons_of_pos h]
      simp only [List.map_cons, List.sum_cons]
      omega
    · rw [List.filter_cons_of_neg h]
      simp only [List.map_cons, List.sum_cons]
      omega

theorem affected_sum (s : State) (old new : Nat) :
    ((affected s old new).map (·.2)).sum ≤ s.weights.sum (fun _ w => w) := filter_sum_le _ _

end Verif.Distributor
