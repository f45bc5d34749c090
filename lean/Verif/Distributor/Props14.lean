import Verif.Distributor.Props13

/-!
# Funds distributor: splitting a distribution gains nothing (C186)
-/

set_option linter.unusedSimpArgs false

namespace Verif.Distributor
open Verif

/-! ### Lemmas -/

theorem giving_total {s : State} {e : Env} {n : Nat} {a : AssetInfo} :
    (step s (giving e n a)).1.total = s.total := by
  rcases step_cases s (giving e n a) with ⟨x, hx, _, he, _⟩ | ⟨he, _⟩
  · rw [he]
    cases a with
    | native d =>
      have hx : exec s e (.distributeNative [(d, n)]) = .ok x := hx
      simp only [exec] at hx
      obtain ⟨s', h1, hx⟩ := bind_ok_iff.1 hx
      have hx := pure_ok_iff.1 hx
      subst hx
      obtain ⟨_, _, m, h3, rfl⟩ := distributeNative_ok_iff.1 h1
      rfl
    | cw20 d =>
      have hx : exec s { e with sender := d } (.receiveCw20 true n) = .ok x := hx
      simp only [exec] at hx
      obtain ⟨s', h1, hx⟩ := bind_ok_iff.1 hx
      have hx := pure_ok_iff.1 hx
      subst hx
      obtain ⟨_, _, _, L, h3, rfl⟩ := receiveCw20_ok_iff.1 h1
      rfl
    | cw1155 c i =>
      have hx : exec s e (.distributeNative []) = .ok x := hx
      simp only [exec] at hx
      obtain ⟨s', h1, hx⟩ := bind_ok_iff.1 hx
      have hx := pure_ok_iff.1 hx
      subst hx
      obtain ⟨_, _, m, h3, rfl⟩ := distributeNative_ok_iff.1 h1
      rfl
  · rw [he]

theorem funds_giving {e : Env} {n : Nat} {a : AssetInfo} (ha : ∀ c i, a ≠ .cw1155 c i) : funds (giving e n a) a = n := by
  cases a with
  | native d => simp [giving, funds]
  | cw20 d => simp [giving, funds]
  | cw1155 c i => exact (ha c i rfl).elim

/-- What comes of some distributions of the same asset. -/
structure After (a : AssetInfo) (s t : State) (inc n : Nat) : Prop where
  inv : Inv t
  index : indexOf t a = indexOf s a + inc
  eff : ∀ u, effective t u = effective s u
  total : t.total = s.total
  native : ∀ d, a = .native d → t.native.dist = s.native.dist
  cw20 : ∀ d, a = .cw20 d → t.cw20.dist = s.cw20.dist
  owed : owedOf t a ≤ owedOf s a + ONE * n

theorem after_one {s : State} (hi : Inv s) {e : Env} {n : Nat} {a : AssetInfo} (ha : ∀ c i, a ≠ .cw1155 c i)
    (h : accepted s (giving e n a)) : After a s (step s (giving e n a)).1 (n * ONE / s.total) n := by
  obtain ⟨g1, g2, g3, g4⟩ := giving_effect h
  obtain ⟨i1, _, o1⟩ := step_inv hi (giving e n a)
  have o1 := o1 a
  rw [if_pos h, funds_giving ha] at o1
  exact ⟨i1, g1, g2, giving_total, g3, g4, by omega⟩

/-- What the parts add to the index. -/
def parts (T : Nat) (ns : List Nat) : Nat := (ns.map (fun n => n * ONE / T)).sum

theorem parts_le (T : Nat) : ∀ ns : List Nat, parts T ns ≤ ns.sum * ONE / T ∧ ns.sum * ONE / T ≤ parts T ns + ns.length
  | [] => ⟨by simp [parts], by simp [parts]⟩
  | n :: t => by
    obtain ⟨h1, h2⟩ := parts_le T t
    have e1 : parts T (n :: t) = n * ONE / T + parts T t := rfl
    rw [e1, List.sum_cons, Nat.add_mul, List.length_cons]
    have h3 : n * ONE / T + t.sum * ONE / T ≤ (n * ONE + t.sum * ONE) / T ∧
        (n * ONE + t.sum * ONE) / T ≤ n * ONE / T + t.sum * ONE / T + 1 := by
      rcases Nat.eq_zero_or_pos T with h | h
      · subst h; simp
      · rw [Nat.add_div h]
        split <;> omega
    omega

theorem after_all {e : Env} {a : AssetInfo} (ha : ∀ c i, a ≠ .cw1155 c i) (hal : Allowed e a) : ∀ (ns : List Nat) {s : State},
    Inv s → s.total ≠ 0 → indexOf s a + parts s.total ns < M128 →
    allAccepted s (ns.map (fun n => giving e n a)) ∧
    After a s (run s (ns.map (fun n => giving e n a))) (parts s.total ns) ns.sum
  | [], s, hi, _, _ => ⟨trivial, hi, rfl, fun _ => rfl, rfl, fun _ _ => rfl, fun _ _ => rfl, Nat.le_add_right _ _⟩
  | n :: t, s, hi, ht, hb => by
    have e1 : parts s.total (n :: t) = n * ONE / s.total + parts s.total t := rfl
    rw [e1] at hb
    have hacc : accepted s (giving e n a) := (giving_iff ha).2 ⟨hal, ht, by omega⟩
    have h1 := after_one hi ha hacc
    have h2 := after_all ha hal t h1.inv (by rw [h1.total]; exact ht) (by rw [h1.total, h1.index]; omega)
    obtain ⟨h2, h3⟩ := h2
    rw [h1.total] at h3
    refine ⟨⟨fun _ => hacc, h2⟩, h3.inv, ?_, fun u => (h3.eff u).trans (h1.eff u), h3.total.trans h1.total,
      fun d hd => (h3.native d hd).trans (h1.native d hd), fun d hd => (h3.cw20 d hd).trans (h1.cw20 d hd), ?_⟩
    · have := h3.index
      rw [h1.index] at this
      rw [e1, ← Nat.add_assoc]
      exact this
    · have h4 := h3.owed
      have h5 := h1.owed
      rw [List.sum_cons, Nat.mul_add]
      exact le_trans h4 (by omega)

theorem amt_compare {L1 L2 : Ledger} {u : Addr} {a w k r1 r2 : Nat} (hd : L1.dist = L2.dist) (hle : L1.global a ≤ L2.global a)
    (hk : L2.global a ≤ L1.global a + k) (h1 : L1.amt u w a = .ok r1) (h2 : L2.amt u w a = .ok r2) :
    r1 ≤ r2 ∧ r2 ≤ r1 + w * k / ONE + 1 := by
  obtain ⟨a1, _, e1⟩ := Ledger.amt_ok_iff.1 h1
  obtain ⟨a2, _, e2⟩ := Ledger.amt_ok_iff.1 h2
  have hat : L2.at_ u a = L1.at_ u a := by unfold Ledger.at_; rw [hd]
  rw [hat] at a2 e2
  generalize (L1.at_ u a).index = i at *
  have q1 : w * (L1.global a - i) ≤ w * (L2.global a - i) := Nat.mul_le_mul_left _ (by omega)
  have q2 : w * (L2.global a - i) ≤ w * (L1.global a - i) + w * k := by
    rw [← Nat.mul_add]
    exact Nat.mul_le_mul_left _ (by omega)
  have q3 := Nat.div_le_div_right (c := ONE) q1
  have q4 := Nat.div_le_div_right (c := ONE) q2
  have q5 : (w * (L1.global a - i) + w * k) / ONE ≤ w * (L1.global a - i) / ONE + w * k / ONE + 1 := by
    rw [Nat.add_div (by decide)]
    split <;> omega
  omega

/-! ### Theorem -/

/-- **Splitting a distribution gains nothing.** If a distribution of an asset is accepted, it is also accepted in parts. Every user
can claim after the parts at most what the user can claim after the whole, and less by at most the rounding of the parts: the
user's weight over 10^18 for each part, and one unit. -/
theorem C186_parts (ad : Addr) (mw : Option Nat) (ws : List (Addr × Nat)) (s0 : State) (h : List Call)
    (h0 : init ad mw ws = .ok s0) (e : Env) (a : AssetInfo) (ha : ∀ c i, a ≠ .cw1155 c i) (ns : List Nat)
    (hacc : accepted (run s0 h) (giving e ns.sum a)) (hb : distributed a s0 h + ns.sum < 2 ^ 128) :
    allAccepted (run s0 h) (ns.map (fun n => giving e n a)) ∧
    ∀ u, claimable (run (run s0 h) (ns.map (fun n => giving e n a))) u a ≤
        claimable (step (run s0 h) (giving e ns.sum a)).1 u a ∧
      claimable (step (run s0 h) (giving e ns.sum a)).1 u a ≤
        claimable (run (run s0 h) (ns.map (fun n => giving e n a))) u a +
          effective (run s0 h) u * ns.length / 10 ^ 18 + 1 := by
  obtain ⟨i0, _, _, o0⟩ := init_inv h0
  have hi : Inv (run s0 h) := (run_inv h i0).1
  have how := (run_inv h i0).2.2 a
  rw [o0 a, Nat.zero_add] at how
  have hlt : ONE * (distributed a s0 h + ns.sum) < ONE * M128 := Nat.mul_lt_mul_of_pos_left hb (by decide)
  rw [Nat.mul_add] at hlt
  generalize run s0 h = s at *
  obtain ⟨hal, ht, hfit⟩ := (giving_iff ha).1 hacc
  obtain ⟨p1, p2⟩ := parts_le s.total ns
  obtain ⟨k1, k2⟩ := after_all ha hal ns hi ht (by omega)
  have k3 := after_one hi ha hacc
  refine ⟨k1, fun u => ?_⟩
  have b1 : owedOf (run s (ns.map (fun n => giving e n a))) a < ONE * M128 := lt_of_le_of_lt k2.owed (by omega)
  have b2 : owedOf (step s (giving e ns.sum a)).1 a < ONE * M128 := lt_of_le_of_lt k3.owed (by omega)
  have g1 : indexOf (run s (ns.map (fun n => giving e n a))) a ≤ indexOf (step s (giving e ns.sum a)).1 a := by
    rw [k2.index, k3.index]; omega
  have g2 : indexOf (step s (giving e ns.sum a)).1 a ≤ indexOf (run s (ns.map (fun n => giving e n a))) a + ns.length := by
    rw [k2.index, k3.index]; omega
  have f1 := k2.eff u
  have f2 := k3.eff u
  cases a with
  | native d =>
    obtain ⟨r1, h1⟩ := amt_exists (u := u) (a := d) k2.inv.native b1
    obtain ⟨r2, h2⟩ := amt_exists (u := u) (a := d) k3.inv.native b2
    have q1 : ((run s (ns.map (fun n => giving e n (.native d)))).effective.get u).getD 0 = effective s u := f1
    have q2 : ((step s (giving e ns.sum (.native d))).1.effective.get u).getD 0 = effective s u := f2
    rw [q1] at h1
    rw [q2] at h2
    rw [claimable_native, claimable_native, f1, f2, h1, h2]
    exact amt_compare ((k2.native d rfl).trans (k3.native d rfl).symm) g1 g2 h1 h2
  | cw20 d =>
    obtain ⟨r1, h1⟩ := amt_exists (u := u) (a := d) k2.inv.cw20 b1
    obtain ⟨r2, h2⟩ := amt_exists (u := u) (a := d) k3.inv.cw20 b2
    have q1 : ((run s (ns.map (fun n => giving e n (.cw20 d)))).effective.get u).getD 0 = effective s u := f1
    have q2 : ((step s (giving e ns.sum (.cw20 d))).1.effective.get u).getD 0 = effective s u := f2
    rw [q1] at h1
    rw [q2] at h2
    rw [claimable_cw20, claimable_cw20, f1, f2, h1, h2]
    exact amt_compare ((k2.cw20 d rfl).trans (k3.cw20 d rfl).symm) g1 g2 h1 h2
  | cw1155 c i => exact (ha c i rfl).elim

/-- Weights of three times 10^18: one unit thrice gives nobody anything, three units at once give one to each of the three. -/
example : ∃ s0, init 1 none [(7, 10 ^ 18), (8, 10 ^ 18), (9, 10 ^ 18)] = .ok s0 ∧
    accepted s0 (giving openEnv [1, 1, 1].sum (.native 5)) ∧
    claimable (run s0 ([1, 1, 1].map (fun n => giving openEnv n (.native 5)))) 7 (.native 5) = 0 ∧
    claimable (step s0 (giving openEnv [1, 1, 1].sum (.native 5))).1 7 (.native 5) = 1 :=
  ⟨_, rfl, by decide +kernel, by decide +kernel, by decide +kernel⟩

end Verif.Distributor
