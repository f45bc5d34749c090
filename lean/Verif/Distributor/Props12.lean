import Verif.Distributor.Props6
import Verif.Distributor.Props11

/-!
# Funds distributor: more weight never means smaller rewards (C182)
-/

set_option linter.unusedSimpArgs false

namespace Verif.Distributor
open Verif

/-! ### Specification -/

/-- The second list of weights gives `u` no less in any line, and the others the same. -/
def Raised (u : Addr) (l l' : List (Addr × Nat)) : Prop :=
  List.Forall₂ (fun p q => q.1 = p.1 ∧ p.2 ≤ q.2 ∧ (p.1 ≠ u → q.2 = p.2)) l l'

/-- The second history differs from the first one in that `u` is given no less weight at any time, and in who claims what and
when, which is left open in both. -/
inductive RaisedHistory (u : Addr) : List Call → List Call → Prop
  | nil : RaisedHistory u [] []
  | weights (e : Env) (d : Bool) {l l' : List (Addr × Nat)} (hl : Raised u l l') {h h' : List Call}
    (t : RaisedHistory u h h') : RaisedHistory u (⟨e, .updateWeights l, d⟩ :: h) (⟨e, .updateWeights l', d⟩ :: h')
  | same (c : Call) (hc : isClaim c = false) (hw : ∀ l, c.msg ≠ .updateWeights l) {h h' : List Call}
    (t : RaisedHistory u h h') : RaisedHistory u (c :: h) (c :: h')
  | claim (c : Call) (hc : isClaim c = true) {h h' : List Call} (t : RaisedHistory u h h') : RaisedHistory u (c :: h) h'
  | claim' (c : Call) (hc : isClaim c = true) {h h' : List Call} (t : RaisedHistory u h h') : RaisedHistory u h (c :: h')

/-! ### Lemmas -/

/-- How the states of the two histories compare. -/
structure Higher (u : Addr) (s s' : State) : Prop where
  min : s'.min = s.min
  other : ∀ x, x ≠ u → s'.weights.get x = s.weights.get x
  le : weight s u ≤ weight s' u

theorem raised_fold {u : Addr} {l l' : List (Addr × Nat)} (hl : Raised u l l') : ∀ {w w' : Map Addr Nat},
    (∀ x, x ≠ u → w'.get x = w.get x) → (w.get u).getD 0 ≤ (w'.get u).getD 0 →
    (∀ x, x ≠ u → (l'.foldl (fun m p => m.set p.1 p.2) w').get x = (l.foldl (fun m p => m.set p.1 p.2) w).get x) ∧
    ((l.foldl (fun m p => m.set p.1 p.2) w).get u).getD 0 ≤ ((l'.foldl (fun m p => m.set p.1 p.2) w').get u).getD 0 := by
  induction hl with
  | nil => intro w w' h1 h2; exact ⟨h1, h2⟩
  | @cons p q l l' hpq _ ih =>
    intro w w' h1 h2
    obtain ⟨hk, hle, ho⟩ := hpq
    rw [List.foldl_cons, List.foldl_cons]
    refine ih (fun x hx => ?_) ?_
    · rw [Map.get_set, Map.get_set, hk]
      by_cases hp : p.1 = x
      · rw [if_pos hp, if_pos hp, ho (by rw [hp]; exact hx)]
      · rw [if_neg hp, if_neg hp]
        exact h1 x hx
    · rw [Map.get_set, Map.get_set, hk]
      by_cases hp : p.1 = u
      · rw [if_pos hp, if_pos hp]
        exact hle
      · rw [if_neg hp, if_neg hp]
        exact h2

theorem effWeight_mono {m w w' : Nat} (h : w ≤ w') : effWeight w m ≤ effWeight w' m := by
  unfold effWeight
  split <;> split <;> omega

theorem higher_eff {u : Addr} {s s' : State} (hi : Inv s) (hi' : Inv s') (h : Higher u s s') :
    (∀ x, x ≠ u → effective s' x = effective s x) ∧ effective s u ≤ effective s' u ∧
    s'.effective.sum (fun _ w => w) + effective s u = s.effective.sum (fun _ w => w) + effective s' u := by
  refine ⟨fun x hx => ?_, ?_, ?_⟩
  · rw [eff_eq hi, eff_eq hi', h.min]
    unfold weight
    rw [h.other x hx]
  · rw [eff_eq hi, eff_eq hi', h.min]
    exact effWeight_mono h.le
  · have hrest : s'.effective.remove u = s.effective.remove u := by
      refine Map.ext_get (fun x => ?_)
      rw [Map.get_remove, Map.get_remove]
      by_cases hu : u = x
      · rw [if_pos hu, if_pos hu]
      · rw [if_neg hu, if_neg hu, hi.eff, hi'.eff, h.other x (Ne.symm hu), h.min]
    have h1 := Map.sum_remove s.effective (fun _ w => w) u
    have h2 := Map.sum_remove s'.effective (fun _ w => w) u
    have hc : ∀ t : State, Map.contrib (fun _ w => w) u (t.effective.get u) = effective t u := by
      intro t
      unfold effective
      cases t.effective.get u <;> rfl
    rw [hc] at h1 h2
    rw [hrest] at h2
    omega

/-- One distribution, if the two states compare. -/
theorem higher_share {u : Addr} {s s' : State} (hi : Inv s) (hi' : Inv s') (h : Higher u s s') (f : Nat) :
    ((f : ℚ) * effective s u / (s.effective.sum (fun _ w => w) : Nat) ≤
      (f : ℚ) * effective s' u / (s'.effective.sum (fun _ w => w) : Nat)) ∧
    ∀ x, x ≠ u → (f : ℚ) * effective s' x / (s'.effective.sum (fun _ w => w) : Nat) ≤
      (f : ℚ) * effective s x / (s.effective.sum (fun _ w => w) : Nat) := by
  obtain ⟨ho, hle, hsum⟩ := higher_eff hi hi' h
  have htwo : ∀ x, x ≠ u → effective s x + effective s u ≤ s.effective.sum (fun _ w => w) := by
    intro x hx
    have h1 := Map.sum_remove s.effective (fun _ w => w) u
    have h2 : effective s x ≤ (s.effective.remove u).sum (fun _ w => w) := by
      unfold effective
      cases hy : s.effective.get x with
      | none => exact Nat.zero_le _
      | some y => exact Map.le_sum (fun _ w => w) (by rw [Map.get_remove, if_neg (Ne.symm hx)]; exact hy)
    have h3 : Map.contrib (fun _ w => w) u (s.effective.get u) = effective s u := by
      unfold effective
      cases s.effective.get u <;> rfl
    omega
  have hone : effective s u ≤ s.effective.sum (fun _ w => w) := by
    unfold effective
    cases hx : s.effective.get u with
    | none => exact Nat.zero_le _
    | some y => exact Map.le_sum (fun _ w => w) hx
  obtain ⟨r, hr⟩ : ∃ r, s.effective.sum (fun _ w => w) = r + effective s u :=
    ⟨s.effective.sum (fun _ w => w) - effective s u, by omega⟩
  have hr' : s'.effective.sum (fun _ w => w) = r + effective s' u := by omega
  have hq : ((s.effective.sum (fun _ w => w) : Nat) : ℚ) = r + effective s u := by rw [hr]; push_cast; ring
  have hq' : ((s'.effective.sum (fun _ w => w) : Nat) : ℚ) = r + effective s' u := by rw [hr']; push_cast; ring
  refine ⟨?_, fun x hx => ?_⟩
  · exact part_le (f := f) (x := effective s' u) (x' := effective s u) (Nat.cast_nonneg _)
      (Nat.cast_nonneg _) (Nat.cast_nonneg r) (by exact_mod_cast hle) hq' hq
  · rw [ho x hx]
    refine part_ge (x := effective s' u) (x' := effective s u) (Nat.cast_nonneg _) (Nat.cast_nonneg _)
      (Nat.cast_nonneg _) ?_ (by exact_mod_cast hle) hq' hq
    have := htwo x hx
    exact_mod_cast (by omega : effective s x ≤ r)

theorem raised_next {u : Addr} {a : AssetInfo} {s s' : State} (hi : Inv s) (hi' : Inv s') (hh : Higher u s s') {c c' : Call}
    (hc : accepted s c) (hc' : accepted s' c') (hf : funds c' a = funds c a) {h h' : List Call}
    (ih : exactShare u a (step s c).1 h ≤ exactShare u a (step s' c').1 h' ∧
      ∀ x, x ≠ u → exactShare x a (step s' c').1 h' ≤ exactShare x a (step s c).1 h) :
    exactShare u a s (c :: h) ≤ exactShare u a s' (c' :: h') ∧
      ∀ x, x ≠ u → exactShare x a s' (c' :: h') ≤ exactShare x a s (c :: h) := by
  obtain ⟨g1, g2⟩ := higher_share hi hi' hh (funds c a)
  have e1 : ∀ x, exactShare x a s (c :: h) =
      (funds c a : ℚ) * effective s x / (s.effective.sum (fun _ w => w) : Nat) + exactShare x a (step s c).1 h := by
    intro x
    conv_lhs => unfold exactShare
    rw [if_pos hc]
  have e2 : ∀ x, exactShare x a s' (c' :: h') =
      (funds c a : ℚ) * effective s' x / (s'.effective.sum (fun _ w => w) : Nat) + exactShare x a (step s' c').1 h' := by
    intro x
    conv_lhs => unfold exactShare
    rw [if_pos hc', hf]
  refine ⟨?_, fun x hx => ?_⟩
  · rw [e1, e2]
    exact add_le_add g1 ih.1
  · rw [e1, e2]
    exact add_le_add (g2 x hx) (ih.2 x hx)

theorem raised_compare {u : Addr} (a : AssetInfo) {h h' : List Call} (hs : RaisedHistory u h h') :
    ∀ {s s' : State}, Inv s → Inv s' → Higher u s s' → allAccepted s h → allAccepted s' h' →
      exactShare u a s h ≤ exactShare u a s' h' ∧ ∀ x, x ≠ u → exactShare x a s' h' ≤ exactShare x a s h := by
  induction hs with
  | nil => intro s s' _ _ _ _ _; exact ⟨le_refl _, fun _ _ => le_refl _⟩
  | @weights e d l l' hl h h' _ ih =>
    intro s s' hi hi' hh ha ha'
    have hc := ha.1 rfl
    have hc' := ha'.1 rfl
    have key : ∀ {t : State} {k : List (Addr × Nat)}, Inv t → accepted t ⟨e, .updateWeights k, d⟩ →
        (step t ⟨e, .updateWeights k, d⟩).1.weights = k.foldl (fun m p => m.set p.1 p.2) t.weights ∧
        (step t ⟨e, .updateWeights k, d⟩).1.min = t.min := by
      intro t k it hk
      rcases step_cases t ⟨e, .updateWeights k, d⟩ with ⟨x, hx, _, he, _⟩ | ⟨_, hn⟩
      · rw [he]; exact (exec_effect it hx).1 k rfl
      · exact absurd hk hn
    have hst := key hi hc
    have hst' := key hi' hc'
    have hw := raised_fold hl (w := s.weights) (w' := s'.weights) hh.other hh.le
    refine raised_next hi hi' hh hc hc' rfl
      (ih (step_inv hi _).1 (step_inv hi' _).1 ⟨?_, fun x hx => ?_, ?_⟩ ha.2 ha'.2)
    · rw [hst.2, hst'.2, hh.min]
    · rw [hst.1, hst'.1]; exact hw.1 x hx
    · unfold weight; rw [hst.1, hst'.1]; exact hw.2
  | @same c hc hw h h' _ ih =>
    intro s s' hi hi' hh ha ha'
    have key : ∀ {t : State}, Inv t → accepted t c → (step t c).1.weights = t.weights ∧
        ((∃ n, c.msg = .updateMin n ∧ (step t c).1.min = n) ∨ (∀ n, c.msg ≠ .updateMin n) ∧ (step t c).1.min = t.min) := by
      intro t it hk
      rcases step_cases t c with ⟨x, hx, _, he, _⟩ | ⟨_, hn⟩
      · rw [he]
        by_cases hm : ∃ n, c.msg = .updateMin n
        · obtain ⟨n, hm⟩ := hm
          obtain ⟨q1, q2⟩ := (exec_effect it hx).2.1 n hm
          exact ⟨q1, .inl ⟨n, hm, q2⟩⟩
        · have hm : ∀ n, c.msg ≠ .updateMin n := fun n hn => hm ⟨n, hn⟩
          obtain ⟨q1, q2⟩ := (exec_effect it hx).2.2 hw hm
          exact ⟨q1, .inr ⟨hm, q2⟩⟩
      · exact absurd hk hn
    obtain ⟨k1, k2⟩ := key hi (ha.1 hc)
    obtain ⟨k1', k2'⟩ := key hi' (ha'.1 hc)
    refine raised_next hi hi' hh (ha.1 hc) (ha'.1 hc) rfl
      (ih (step_inv hi _).1 (step_inv hi' _).1 ⟨?_, fun x hx => ?_, ?_⟩ ha.2 ha'.2)
    · rcases k2 with ⟨n, hn, q⟩ | ⟨hn, q⟩ <;> rcases k2' with ⟨n', hn', q'⟩ | ⟨hn', q'⟩
      · rw [hn] at hn'
        cases hn'
        rw [q, q']
      · exact absurd hn (hn' n)
      · exact absurd hn' (hn n')
      · rw [q, q', hh.min]
    · rw [k1, k1']; exact hh.other x hx
    · unfold weight; rw [k1, k1']; exact hh.le
  | @claim c hc h h' _ ih =>
    intro s s' hi hi' hh ha ha'
    obtain ⟨k1, k2, _⟩ := claim_keeps hi hc
    have := ih (step_inv hi c).1 hi' ⟨by rw [k2]; exact hh.min, fun x hx => by rw [k1]; exact hh.other x hx,
      by have := hh.le; unfold weight at this ⊢; rw [k1]; exact this⟩ ha.2 ha'
    simp only [exact_claim hi hc]
    exact this
  | @claim' c hc h h' _ ih =>
    intro s s' hi hi' hh ha ha'
    obtain ⟨k1, k2, _⟩ := claim_keeps hi' hc
    have := ih hi (step_inv hi' c).1 ⟨by rw [k2]; exact hh.min, fun x hx => by rw [k1]; exact hh.other x hx,
      by have := hh.le; unfold weight at this ⊢; rw [k1]; exact this⟩ ha ha'.2
    simp only [exact_claim hi' hc]
    exact this

theorem init_higher {ad : Addr} {m : Option Nat} {l l' : List (Addr × Nat)} {s s' : State} {u : Addr} (hl : Raised u l l')
    (h : init ad m l = .ok s) (h' : init ad m l' = .ok s') : Higher u s s' := by
  have hw := init_fold_weights _ _ _ h
  have hw' := init_fold_weights _ _ _ h'
  have hh := raised_fold hl (w := Map.empty) (w' := Map.empty) (fun _ _ => rfl) (le_refl _)
  refine ⟨by rw [(init_inv h).2.2.1, (init_inv h').2.2.1], fun x hx => ?_, ?_⟩
  · rw [hw, hw']; exact hh.1 x hx
  · unfold weight; rw [hw, hw']; exact hh.2

/-! ### Theorems -/

/-- **More weight never means smaller rewards.** Take two histories in which the same is distributed, and that differ in that one
user is given no less weight at any time in the second one. Then the exact share of the user in what is distributed is no smaller
in the second one, and what the user got is not less but for the rounding there. -/
theorem C182_more {ad : Addr} {mw : Option Nat} {ws ws' : List (Addr × Nat)} {s s' : State} {u : Addr}
    (hws : Raised u ws ws') (h0 : init ad mw ws = .ok s) (h0' : init ad mw ws' = .ok s')
    {h h' : List Call} (hs : RaisedHistory u h h') (ha : allAccepted s h) (ha' : allAccepted s' h') (a : AssetInfo) :
    exactShare u a s h ≤ exactShare u a s' h' ∧
    (distributed a s' h' < 2 ^ 128 → (got u a s h : ℚ) < (got u a s' h' : Nat) + 1 + roundings u a s' h') := by
  have hc := raised_compare a hs (init_inv h0).1 (init_inv h0').1 (init_higher hws h0 h0') ha ha'
  refine ⟨hc.1, fun hb => ?_⟩
  have h1 : (got u a s h : ℚ) ≤ exactShare u a s h := C124_never_more ad mw ws s h h0 u a
  have h2 := C124_within_rounding ad mw ws' s' h' h0' u a hb
  exact lt_of_le_of_lt (le_trans h1 hc.1) h2

/-- **And it never means larger rewards for anybody else**: the exact share of every other user is no larger in the second history,
and what they got is not more but for the rounding in the first one. -/
theorem C182_others {ad : Addr} {mw : Option Nat} {ws ws' : List (Addr × Nat)} {s s' : State} {u : Addr}
    (hws : Raised u ws ws') (h0 : init ad mw ws = .ok s) (h0' : init ad mw ws' = .ok s')
    {h h' : List Call} (hs : RaisedHistory u h h') (ha : allAccepted s h) (ha' : allAccepted s' h') (a : AssetInfo) {x : Addr}
    (hx : x ≠ u) :
    exactShare x a s' h' ≤ exactShare x a s h ∧
    (distributed a s h < 2 ^ 128 → (got x a s' h' : ℚ) < (got x a s h : Nat) + 1 + roundings x a s h) := by
  have hc := raised_compare a hs (init_inv h0).1 (init_inv h0').1 (init_higher hws h0 h0') ha ha'
  refine ⟨hc.2 x hx, fun hb => ?_⟩
  have h1 : (got x a s' h' : ℚ) ≤ exactShare x a s' h' := C124_never_more ad mw ws' s' h' h0' x a
  have h2 := C124_within_rounding ad mw ws s h h0 x a hb
  exact lt_of_le_of_lt (le_trans h1 (hc.2 x hx)) h2

/-! ### Example -/

/-- Two distributions of 60 around a change of the weight of user 1 to `n`. -/
def raisedHistory (n : Nat) : List Call :=
  [giving openEnv 60 (.native 5), ⟨{ openEnv with sender := 100 }, .updateWeights [(1, n), (2, 2)], true⟩,
    giving openEnv 60 (.native 5)]

theorem raised_example {n m : Nat} (h : n ≤ m) (k : Nat) : Raised 1 [(1, n), (2, k)] [(1, m), (2, k)] :=
  .cons ⟨rfl, h, fun hh => absurd rfl hh⟩ (.cons ⟨rfl, le_refl _, fun _ => rfl⟩ .nil)

theorem raisedHistory_raised {n m : Nat} (h : n ≤ m) : RaisedHistory 1 (raisedHistory n) (raisedHistory m) :=
  .same _ rfl (fun _ h => by simp [giving] at h) (.weights _ _ (raised_example h 2)
    (.same _ rfl (fun _ h => by simp [giving] at h) .nil))

/-- Hypotheses of both theorems: user 1 has 1 and later 2 of the weights, or 4 and later 4; the user gets 20 and 30, or 40 and 40,
and user 2 the rest. -/
example : ∃ s s', init 100 none [(1, 1), (2, 2)] = .ok s ∧ init 100 none [(1, 4), (2, 2)] = .ok s' ∧
    Raised 1 [(1, 1), (2, 2)] [(1, 4), (2, 2)] ∧ RaisedHistory 1 (raisedHistory 2) (raisedHistory 4) ∧
    allAccepted s (raisedHistory 2) ∧ allAccepted s' (raisedHistory 4) ∧
    got 1 (.native 5) s (raisedHistory 2) = 50 ∧ got 1 (.native 5) s' (raisedHistory 4) = 80 ∧
    got 2 (.native 5) s (raisedHistory 2) = 70 ∧ got 2 (.native 5) s' (raisedHistory 4) = 40 :=
  ⟨_, _, rfl, rfl, raised_example (by decide) 2, raisedHistory_raised (by decide),
    by decide +kernel, by decide +kernel, by decide +kernel, by decide +kernel, by decide +kernel, by decide +kernel⟩

end Verif.Distributor
