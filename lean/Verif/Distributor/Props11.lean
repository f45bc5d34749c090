import Verif.Distributor.Props4
import Verif.Distributor.Props8
import Verif.Distributor.Props10

/-!
# Funds distributor: how much can ever be distributed of an asset (C181)
-/

set_option linter.unusedSimpArgs false

namespace Verif.Distributor
open Verif

/-! ## Specification -/

/-- What was distributed of an asset for each unit of the weight that counted at that time, over a history. -/
def perWeight (a : AssetInfo) : State → List Call → ℚ
  | _, [] => 0
  | s, c :: t =>
    (if accepted s c then (funds c a : ℚ) / (s.effective.sum (fun _ w => w) : Nat) else 0) + perWeight a (step s c).1 t

/-- Number of coins of an asset in a message. -/
def coinsIn (c : Call) (a : AssetInfo) : Nat :=
  match c.msg with
  | .distributeNative l => (l.filter (fun f => decide (AssetInfo.native f.1 = a))).length
  | .receiveCw20 _ _ => if AssetInfo.cw20 c.env.sender = a then 1 else 0
  | _ => 0

/-- How many coins of an asset were distributed over a history. -/
def coinsGiven (a : AssetInfo) : State → List Call → Nat
  | _, [] => 0
  | s, c :: t => (if accepted s c then coinsIn c a else 0) + coinsGiven a (step s c).1 t

/-- The message that distributes `n` units of an asset: sent with the coins, or by the token. -/
def giving (e : Env) (n : Nat) : AssetInfo → Call
  | .native d => ⟨e, .distributeNative [(d, n)], true⟩
  | .cw20 t => ⟨{ e with sender := t }, .receiveCw20 true n, true⟩
  | .cw1155 _ _ => ⟨e, .distributeNative [], false⟩

/-! ## Lemmas -/

/-- The index of an asset. -/
def indexOf (s : State) : AssetInfo → Nat
  | .native d => s.native.global d
  | .cw20 t => s.cw20.global t
  | .cw1155 _ _ => 0

theorem indexOf_same {s s' : State} (h : SameIdx s s') (a : AssetInfo) : indexOf s' a = indexOf s a := by
  cases a with
  | native d => exact Ledger.global_congr h.1 d
  | cw20 d => exact Ledger.global_congr h.2 d
  | cw1155 _ _ => rfl

theorem count_native (l : List (Nat × Nat)) (d : Nat) :
    (l.filter (fun f => decide (AssetInfo.native f.1 = AssetInfo.native d))).length = Ledger.count d l := by
  unfold Ledger.count
  simp only [AssetInfo.native.injEq]

/-- What an accepted message does to the index of an asset. -/
theorem exec_index {s : State} {e : Env} {m : Msg} {x : State × List Out} (h : exec s e m = .ok x) (a : AssetInfo) :
    ∃ inc, indexOf x.1 a = indexOf s a + inc ∧ s.total * inc ≤ ONE * funds ⟨e, m, true⟩ a ∧
      ONE * funds ⟨e, m, true⟩ a ≤ s.total * inc + s.total * coinsIn ⟨e, m, true⟩ a ∧
      (indexOf s a < M128 → indexOf x.1 a < M128) ∧ (inc ≠ 0 → s.total ≠ 0) := by
  have same : SameIdx s x.1 → funds ⟨e, m, true⟩ a = 0 → _ := fun hi hf =>
    (⟨0, by rw [indexOf_same hi]; rfl, by simp, by rw [hf]; simp, fun hh => by rw [indexOf_same hi]; exact hh,
      fun hh => (hh rfl).elim⟩ : ∃ inc, indexOf x.1 a = indexOf s a + inc ∧ s.total * inc ≤ ONE * funds ⟨e, m, true⟩ a ∧
      ONE * funds ⟨e, m, true⟩ a ≤ s.total * inc + s.total * coinsIn ⟨e, m, true⟩ a ∧
      (indexOf s a < M128 → indexOf x.1 a < M128) ∧ (inc ≠ 0 → s.total ≠ 0))
  cases m with
  | updateWeights l =>
    refine same ?_ rfl
    simp only [exec] at h
    obtain ⟨s', h1, h⟩ := bind_ok_iff.1 h
    have h := pure_ok_iff.1 h
    subst h
    unfold updateWeights at h1
    obtain ⟨_, h1⟩ := ite_ok_iff.1 h1
    exact fold_idx (fun _ _ _ hh => updateOne_idx hh) l _ _ h1
  | updateMin n =>
    refine same ?_ rfl
    simp only [exec] at h
    obtain ⟨s', h1, h⟩ := bind_ok_iff.1 h
    have h := pure_ok_iff.1 h
    subst h
    unfold updateMin at h1
    obtain ⟨_, h1⟩ := ite_ok_iff.1 h1
    split at h1
    · cases h1; exact ⟨rfl, rfl⟩
    · obtain ⟨s1, h2, h1⟩ := bind_ok_iff.1 h1
      have h1 := pure_ok_iff.1 h1
      subst h1
      have := fold_idx (f := minOne (decide (s.min > n))) (fun _ _ _ hh => minOne_idx hh) _ _ _ h2
      exact this
  | claim u ds ts =>
    refine same ?_ rfl
    simp only [exec] at h
    obtain ⟨_, _, n, d, h3, h4, h5⟩ := claim_ok_iff.1 h
    rw [h5]
    exact ⟨claims_idx _ h3, claims_idx _ h4⟩
  | distributeNative l =>
    simp only [exec] at h
    obtain ⟨s', h1, h⟩ := bind_ok_iff.1 h
    have h := pure_ok_iff.1 h
    subst h
    obtain ⟨_, ht, n, h2, rfl⟩ := distributeNative_ok_iff.1 h1
    cases a with
    | native d =>
      obtain ⟨inc, e1, e2, e3, e4⟩ := (Ledger.distributes_global _ _ _ h2).2 d
      have hf : funds ⟨e, .distributeNative l, true⟩ (.native d) = Ledger.listed d l := sum_native l d
      have hc : coinsIn ⟨e, .distributeNative l, true⟩ (.native d) = Ledger.count d l := count_native l d
      rw [hf, hc]
      exact ⟨inc, e1, e2, e3, e4, fun _ => ht⟩
    | cw20 d => exact ⟨0, rfl, by simp, by simp [funds], id, fun _ => ht⟩
    | cw1155 _ _ => exact ⟨0, rfl, by simp, by simp [funds], id, fun _ => ht⟩
  | receiveCw20 k n =>
    simp only [exec] at h
    obtain ⟨s', h1, h⟩ := bind_ok_iff.1 h
    have h := pure_ok_iff.1 h
    subst h
    obtain ⟨_, _, ht, c, h2, rfl⟩ := receiveCw20_ok_iff.1 h1
    cases a with
    | native d => exact ⟨0, rfl, by simp, by simp [funds], id, fun _ => ht⟩
    | cw20 d =>
      have h3 : [(e.sender, n)].foldlM (Ledger.distributeOne s.total) s.cw20 = .ok c :=
        foldlM_cons_ok_iff.2 ⟨c, h2, foldlM_nil_ok_iff.2 rfl⟩
      obtain ⟨inc, e1, e2, e3, e4⟩ := (Ledger.distributes_global _ _ _ h3).2 d
      have hf : funds ⟨e, .receiveCw20 k n, true⟩ (.cw20 d) = Ledger.listed d [(e.sender, n)] := by
        unfold funds Ledger.listed
        simp [AssetInfo.cw20.injEq]
      have hc : coinsIn ⟨e, .receiveCw20 k n, true⟩ (.cw20 d) = Ledger.count d [(e.sender, n)] := by
        unfold coinsIn Ledger.count
        by_cases hd : e.sender = d <;> simp [hd]
      rw [hf, hc]
      exact ⟨inc, e1, e2, e3, e4, fun _ => ht⟩
    | cw1155 _ _ => exact ⟨0, rfl, by simp, by simp [funds], id, fun _ => ht⟩

theorem index_mono (s : State) (c : Call) (a : AssetInfo) : indexOf s a ≤ indexOf (step s c).1 a := by
  rcases step_cases s c with ⟨x, hx, _, he, _⟩ | ⟨he, _⟩
  · rw [he]
    obtain ⟨inc, h1, _⟩ := exec_index hx a
    omega
  · rw [he]

theorem index_run (a : AssetInfo) : ∀ (t : List Call) (s : State), indexOf s a ≤ indexOf (run s t) a
  | [], _ => le_refl _
  | c :: t, s => le_trans (index_mono s c a) (index_run a t _)

/-- The index counts what was distributed per unit of weight, but for rounding. -/
theorem run_index (a : AssetInfo) : ∀ (h : List Call) {s : State}, Inv s → indexOf s a < M128 →
    indexOf (run s h) a < M128 ∧
    ((indexOf (run s h) a : ℚ) ≤ indexOf s a + ONE * perWeight a s h) ∧
    ((indexOf s a : ℚ) + ONE * perWeight a s h ≤ indexOf (run s h) a + coinsGiven a s h)
  | [], s, _, hl => ⟨hl, by simp [perWeight, run], by simp [perWeight, coinsGiven, run]⟩
  | c :: t, s, hi, hl => by
    have i1 := (step_inv hi c).1
    rcases step_cases s c with ⟨x, hx, _, he, hacc⟩ | ⟨he, hacc⟩
    · obtain ⟨inc, h1, h2, h3, h4, h5⟩ := exec_index hx a
      have hf : funds ⟨c.env, c.msg, true⟩ a = funds c a := rfl
      have hc : coinsIn ⟨c.env, c.msg, true⟩ a = coinsIn c a := rfl
      rw [hf] at h2 h3
      rw [hc] at h3
      have hl1 : indexOf (step s c).1 a < M128 := by rw [he]; exact h4 hl
      obtain ⟨k1, k2, k3⟩ := run_index a t i1 hl1
      have e1 : indexOf (step s c).1 a = indexOf s a + inc := by rw [he]; exact h1
      rw [e1, Nat.cast_add] at k2 k3
      have low : (ONE : ℚ) * ((funds c a : ℚ) / (s.total : ℚ)) ≤ inc + coinsIn c a := by
        by_cases h0 : s.total = 0
        · rw [h0]
          simp only [Nat.cast_zero, div_zero, mul_zero]
          positivity
        · have hp : (0 : ℚ) < s.total := by exact_mod_cast Nat.pos_of_ne_zero h0
          rw [← mul_div_assoc, div_le_iff₀ hp]
          have : (ONE : ℚ) * funds c a ≤ s.total * inc + s.total * coinsIn c a := by exact_mod_cast h3
          linarith
      have high : (inc : ℚ) ≤ ONE * ((funds c a : ℚ) / (s.total : ℚ)) := by
        by_cases hz : inc = 0
        · rw [hz, Nat.cast_zero]
          exact mul_nonneg (Nat.cast_nonneg _) (div_nonneg (Nat.cast_nonneg _) (Nat.cast_nonneg _))
        have h0 := h5 hz
        have hp : (0 : ℚ) < s.total := by exact_mod_cast Nat.pos_of_ne_zero h0
        rw [← mul_div_assoc, le_div_iff₀ hp]
        have : (s.total : ℚ) * inc ≤ ONE * funds c a := by exact_mod_cast h2
        linarith
      have d1 : perWeight a s (c :: t) = (funds c a : ℚ) / (s.total : ℚ) + perWeight a (step s c).1 t := by
        show (if accepted s c then _ else _) + _ = _
        rw [if_pos hacc, ← hi.total]
      have d2 : (coinsGiven a s (c :: t) : ℚ) = coinsIn c a + coinsGiven a (step s c).1 t := by
        show (((if accepted s c then _ else _) + _ : Nat) : ℚ) = _
        rw [if_pos hacc, Nat.cast_add]
      rw [d1, d2, mul_add]
      have e2 : run s (c :: t) = run (step s c).1 t := rfl
      rw [e2]
      clear d1 d2 e2 hl1 h1 h2 h3 h4 h5 hf hc e1 he hx hl
      generalize (ONE : ℚ) * ((funds c a : ℚ) / (s.total : ℚ)) = X at *
      generalize (ONE : ℚ) * perWeight a (step s c).1 t = Y at *
      exact ⟨k1, by linarith, by linarith⟩
    · have e0 : (step s c).1 = s := by rw [he]
      obtain ⟨k1, k2, k3⟩ := run_index a t hi hl
      have d1 : perWeight a s (c :: t) = perWeight a s t := by
        show (if accepted s c then _ else _) + _ = _
        rw [if_neg hacc, zero_add, e0]
      have d2 : coinsGiven a s (c :: t) = coinsGiven a s t := by
        show (if accepted s c then _ else _) + _ = _
        rw [if_neg hacc, Nat.zero_add, e0]
      have e2 : run s (c :: t) = run s t := by
        show run (step s c).1 t = _
        rw [e0]
      rw [d1, d2, e2]
      exact ⟨k1, k2, k3⟩

theorem init_index {ad : Addr} {mw : Option Nat} {ws : List (Addr × Nat)} {s0 : State} (h0 : init ad mw ws = .ok s0)
    (a : AssetInfo) : indexOf s0 a = 0 := by
  obtain ⟨_, ⟨h1, h2⟩, _, _⟩ := inits_ok ws (s := ⟨ad, mw.getD 0, Map.empty, Map.empty, 0, Ledger.empty, Ledger.empty⟩)
    ⟨⟨rfl, fun u a d hd => (by cases hd), fun u a d hd => (by cases hd)⟩, fun u => rfl⟩ ⟨rfl, rfl⟩ h0
  cases a with
  | native d => show s0.native.global d = 0; rw [h1]; rfl
  | cw20 d => show s0.cw20.global d = 0; rw [h2]; rfl
  | cw1155 _ _ => rfl

/-- When a distribution of an asset is accepted. -/
theorem giving_iff {s : State} {e : Env} {n : Nat} {a : AssetInfo} (ha : ∀ c i, a ≠ .cw1155 c i) :
    accepted s (giving e n a) ↔ Allowed e a ∧ s.total ≠ 0 ∧ indexOf s a + n * ONE / s.total < M128 := by
  cases a with
  | native d =>
    constructor
    · rintro ⟨_, r, hr⟩
      have hr : exec s e (.distributeNative [(d, n)]) = .ok r := hr
      simp only [exec] at hr
      obtain ⟨s', h1, _⟩ := bind_ok_iff.1 hr
      obtain ⟨h1, h2, m, h3, _⟩ := distributeNative_ok_iff.1 h1
      obtain ⟨L, h3, _⟩ := foldlM_cons_ok_iff.1 h3
      exact ⟨h1 (d, n) (by simp), h2, (Ledger.distributeOne_ok h3).2.2.1⟩
    · rintro ⟨h1, h2, h3⟩
      obtain ⟨L, hL⟩ := Ledger.distributeOne_exists (L := s.native) (f := (d, n)) h2 h3
      refine ⟨rfl, ({ s with native := L }, []), ?_⟩
      show exec s e (.distributeNative [(d, n)]) = .ok _
      simp only [exec]
      refine bind_ok_iff.2 ⟨{ s with native := L }, distributeNative_ok_iff.2 ⟨?_, h2, L, ?_, rfl⟩, rfl⟩
      · intro f hf
        rw [List.mem_singleton] at hf
        rw [hf]
        exact h1
      · exact foldlM_cons_ok_iff.2 ⟨L, hL, foldlM_nil_ok_iff.2 rfl⟩
  | cw20 d =>
    constructor
    · rintro ⟨_, r, hr⟩
      have hr : exec s { e with sender := d } (.receiveCw20 true n) = .ok r := hr
      simp only [exec] at hr
      obtain ⟨s', h1, _⟩ := bind_ok_iff.1 hr
      obtain ⟨_, h1, h2, m, h3, _⟩ := receiveCw20_ok_iff.1 h1
      exact ⟨h1, h2, (Ledger.distributeOne_ok h3).2.2.1⟩
    · rintro ⟨h1, h2, h3⟩
      obtain ⟨L, hL⟩ := Ledger.distributeOne_exists (L := s.cw20) (f := (d, n)) h2 h3
      refine ⟨rfl, ({ s with cw20 := L }, []), ?_⟩
      show exec s { e with sender := d } (.receiveCw20 true n) = .ok _
      simp only [exec]
      exact bind_ok_iff.2 ⟨{ s with cw20 := L }, receiveCw20_ok_iff.2 ⟨rfl, h1, h2, L, hL, rfl⟩, rfl⟩
  | cw1155 c i => exact (ha c i rfl).elim

/-! ## C181 -/

/-- **A limit for ever.** Over any history, what is distributed of an asset for each unit of weight adds up to less than
2^128 / 10^18 units, about 3.4 * 10^20, but for the rounding of 10^-18 units for each coin. -/
theorem C181_limit (ad : Addr) (mw : Option Nat) (ws : List (Addr × Nat)) (s0 : State) (h : List Call)
    (h0 : init ad mw ws = .ok s0) (a : AssetInfo) :
    10 ^ 18 * perWeight a s0 h < 2 ^ 128 + coinsGiven a s0 h := by
  obtain ⟨k1, _, k3⟩ := run_index a h (init_inv h0).1 (by rw [init_index h0 a]; decide)
  rw [init_index h0 a, Nat.cast_zero, zero_add] at k3
  have k1' : (indexOf (run s0 h) a : ℚ) < 2 ^ 128 := by
    have : indexOf (run s0 h) a < 2 ^ 128 := k1
    exact_mod_cast this
  have hone : ((ONE : Nat) : ℚ) = 10 ^ 18 := by norm_num [ONE]
  rw [hone] at k3
  linarith

/-- **Up to the limit** distributions of an allowed asset are accepted, while somebody has a weight that counts. -/
theorem C181_room (ad : Addr) (mw : Option Nat) (ws : List (Addr × Nat)) (s0 : State) (h : List Call)
    (h0 : init ad mw ws = .ok s0) (e : Env) (n : Nat) (a : AssetInfo) (ha : ∀ c i, a ≠ .cw1155 c i) (hal : Allowed e a)
    (ht : (run s0 h).total ≠ 0)
    (hr : 10 ^ 18 * (perWeight a s0 h + n / (run s0 h).total) < 2 ^ 128) : accepted (run s0 h) (giving e n a) := by
  obtain ⟨_, k2, _⟩ := run_index a h (init_inv h0).1 (by rw [init_index h0 a]; decide)
  rw [init_index h0 a, Nat.cast_zero, zero_add] at k2
  refine (giving_iff ha).2 ⟨hal, ht, ?_⟩
  have hone : ((ONE : Nat) : ℚ) = 10 ^ 18 := by norm_num [ONE]
  have hp : (0 : ℚ) < (run s0 h).total := by exact_mod_cast Nat.pos_of_ne_zero ht
  have h1 : ((n * ONE / (run s0 h).total : Nat) : ℚ) ≤ 10 ^ 18 * (n / (run s0 h).total) := by
    rw [← mul_div_assoc, le_div_iff₀ hp, ← hone]
    have : n * ONE / (run s0 h).total * (run s0 h).total ≤ n * ONE := Nat.div_mul_le_self _ _
    have : ((n * ONE / (run s0 h).total * (run s0 h).total : Nat) : ℚ) ≤ ((n * ONE : Nat) : ℚ) := by exact_mod_cast this
    push_cast at this
    push_cast
    linarith
  rw [hone] at k2
  have : ((indexOf (run s0 h) a + n * ONE / (run s0 h).total : Nat) : ℚ) < ((2 ^ 128 : Nat) : ℚ) := by
    rw [Nat.cast_add]
    push_cast at h1 k2 hr ⊢
    linarith
  exact_mod_cast this

/-- **What does not fit once never fits again**, unless weight is added: a distribution of an allowed asset that is refused,
although somebody has a weight that counts, is refused at any later time at which the total weight is not larger, as are larger
ones. -/
theorem C181_forever {s : State} {e e' : Env} {n n' : Nat} {a : AssetInfo} (hal : Allowed e a) (ht : s.total ≠ 0)
    (hn : ¬ accepted s (giving e n a)) (t : List Call) (hw : (run s t).total ≤ s.total) (hle : n ≤ n') :
    ¬ accepted (run s t) (giving e' n' a) := by
  by_cases ha : ∀ c i, a ≠ .cw1155 c i
  · intro hacc
    obtain ⟨_, h0, h1⟩ := (giving_iff ha).1 hacc
    refine hn ((giving_iff ha).2 ⟨hal, ht, ?_⟩)
    have h2 := index_run a t s
    have h3 : n * ONE / s.total ≤ n' * ONE / (run s t).total :=
      Nat.div_le_div (Nat.mul_le_mul_right _ hle) hw h0
    omega
  · rw [not_forall] at ha
    obtain ⟨c, ha⟩ := ha
    rw [not_forall] at ha
    obtain ⟨i, ha⟩ := ha
    rw [not_not] at ha
    rw [ha]
    rintro ⟨hd, _⟩
    cases hd

/-- What a distribution does to the rewards of a user of weight one, if that is all the weight there is. -/
theorem ledger_alone {L L' : Ledger} {u : Addr} {a n : Nat} {r : Nat} (hd : L'.dist = L.dist)
    (hg : L'.global a = L.global a + n * ONE) (h : L.amt u 1 a = .ok r) (h' : ∃ r', L'.amt u 1 a = .ok r') :
    L'.amt u 1 a = .ok (r + n) := by
  obtain ⟨r', h'⟩ := h'
  rw [h']
  obtain ⟨h1, _, h3⟩ := Ledger.amt_ok_iff.1 h
  obtain ⟨_, _, h4⟩ := Ledger.amt_ok_iff.1 h'
  have hat : L'.at_ u a = L.at_ u a := by unfold Ledger.at_; rw [hd]
  rw [hat, hg, Nat.one_mul, Nat.sub_add_comm h1, Nat.add_mul_div_right _ _ (by decide)] at h4
  rw [Nat.one_mul] at h3
  rw [h4, h3]
  congr 1
  omega

/-- What an accepted distribution does. -/
theorem giving_effect {s : State} {e : Env} {n : Nat} {a : AssetInfo} (h : accepted s (giving e n a)) :
    indexOf (step s (giving e n a)).1 a = indexOf s a + n * ONE / s.total ∧
    (∀ u, effective (step s (giving e n a)).1 u = effective s u) ∧
    (∀ d, a = .native d → (step s (giving e n a)).1.native.dist = s.native.dist) ∧
    ∀ d, a = .cw20 d → (step s (giving e n a)).1.cw20.dist = s.cw20.dist := by
  rcases step_cases s (giving e n a) with ⟨x, hx, _, he, _⟩ | ⟨_, hn⟩
  · rw [he]
    cases a with
    | native d =>
      have hx : exec s e (.distributeNative [(d, n)]) = .ok x := hx
      simp only [exec] at hx
      obtain ⟨s', h1, hx⟩ := bind_ok_iff.1 hx
      have hx := pure_ok_iff.1 hx
      subst hx
      obtain ⟨_, _, m, h3, rfl⟩ := distributeNative_ok_iff.1 h1
      obtain ⟨L, h7, h4⟩ := foldlM_cons_ok_iff.1 h3
      rw [foldlM_nil_ok_iff] at h4
      subst h4
      obtain ⟨_, _, _, h5, h6⟩ := Ledger.distributeOne_ok h7
      refine ⟨?_, fun u => rfl, fun _ _ => h5, fun _ hh => (by cases hh)⟩
      have := h6 d
      rw [if_pos rfl] at this
      exact this
    | cw20 d =>
      have hx : exec s { e with sender := d } (.receiveCw20 true n) = .ok x := hx
      simp only [exec] at hx
      obtain ⟨s', h1, hx⟩ := bind_ok_iff.1 hx
      have hx := pure_ok_iff.1 hx
      subst hx
      obtain ⟨_, _, _, L, h3, rfl⟩ := receiveCw20_ok_iff.1 h1
      obtain ⟨_, _, _, h5, h6⟩ := Ledger.distributeOne_ok h3
      refine ⟨?_, fun u => rfl, fun _ hh => (by cases hh), fun _ _ => h5⟩
      have := h6 d
      rw [if_pos rfl] at this
      exact this
    | cw1155 c i =>
      obtain ⟨hd, _⟩ := h
      cases hd
  · exact (hn h).elim

/-- A state in which all the weight that counts is one unit. -/
theorem alone_state {s : State} (hi : Inv s) {e : Env} {a : AssetInfo} (k1 : indexOf s a < M128) (ha : ∀ c i, a ≠ .cw1155 c i)
    (hal : Allowed e a) {u : Addr} (hu : effective s u = 1) (ht : s.total = 1)
    (hb : owedOf s a + ONE * (2 ^ 128 / 10 ^ 18) < ONE * M128) :
    ∃ n, n ≤ 2 ^ 128 / 10 ^ 18 ∧ accepted s (giving e n a) ∧
      claimable (step s (giving e n a)).1 u a = claimable s u a + n ∧
      M128 ≤ indexOf (step s (giving e n a)).1 a + ONE := by
  have hfit : indexOf s a + (M128 - 1 - indexOf s a) / ONE * ONE < M128 := by
    have := Nat.div_mul_le_self (M128 - 1 - indexOf s a) ONE
    omega
  have hfull : M128 ≤ indexOf s a + (M128 - 1 - indexOf s a) / ONE * ONE + ONE := by
    have := Nat.lt_div_mul_add (a := M128 - 1 - indexOf s a) (b := ONE) (by decide)
    omega
  have hn : (M128 - 1 - indexOf s a) / ONE ≤ 2 ^ 128 / 10 ^ 18 :=
    Nat.div_le_div_right (by unfold M128; omega)
  generalize (M128 - 1 - indexOf s a) / ONE = n at *
  have hacc : accepted s (giving e n a) := (giving_iff ha).2 ⟨hal, by omega, by rw [ht, Nat.div_one]; exact hfit⟩
  obtain ⟨g1, g2, g3, g4⟩ := giving_effect hacc
  rw [ht, Nat.div_one] at g1
  refine ⟨n, hn, hacc, ?_, by omega⟩
  · obtain ⟨i1, _, o1⟩ := step_inv hi (giving e n a)
    have o1 := o1 a
    rw [if_pos hacc] at o1
    have hfu : funds (giving e n a) a = n := by
      cases a with
      | native d => simp [giving, funds]
      | cw20 d => simp [giving, funds]
      | cw1155 c i => exact (ha c i rfl).elim
    rw [hfu] at o1
    have hle := Nat.mul_le_mul_left ONE hn
    have b0 : owedOf s a < ONE * M128 := by omega
    have b1 : owedOf (step s (giving e n a)).1 a < ONE * M128 := by omega
    have hu' := g2 u
    rw [hu] at hu'
    cases a with
    | native d =>
      rw [claimable_native, claimable_native, hu, hu']
      obtain ⟨r, hr⟩ := amt_exists (u := u) (a := d) hi.native b0
      have hr' := amt_exists (u := u) (a := d) i1.native b1
      have q : (s.effective.get u).getD 0 = 1 := hu
      have q' : ((step s (giving e n (.native d))).1.effective.get u).getD 0 = 1 := hu'
      rw [q] at hr
      rw [q'] at hr'
      rw [ledger_alone (g3 d rfl) g1 hr hr', hr]
      rfl
    | cw20 d =>
      rw [claimable_cw20, claimable_cw20, hu, hu']
      obtain ⟨r, hr⟩ := amt_exists (u := u) (a := d) hi.cw20 b0
      have hr' := amt_exists (u := u) (a := d) i1.cw20 b1
      have q : (s.effective.get u).getD 0 = 1 := hu
      have q' : ((step s (giving e n (.cw20 d))).1.effective.get u).getD 0 = 1 := hu'
      rw [q] at hr
      rw [q'] at hr'
      rw [ledger_alone (g4 d rfl) g1 hr hr', hr]
      rfl
    | cw1155 c i => exact (ha c i rfl).elim

/-- **One member can use up the limit, at no cost.** Let a user have weight one, and nobody else any that counts, after whatever
history. Then there is an amount that can be distributed (by anyone, so by this user) of which the user can claim back all; and
then never again can so much be distributed of the asset as one unit for each unit of weight, whatever happens and however much
weight there is. -/
theorem C181_alone (ad : Addr) (mw : Option Nat) (ws : List (Addr × Nat)) (s0 : State) (h : List Call)
    (h0 : init ad mw ws = .ok s0) (e : Env) (a : AssetInfo) (ha : ∀ c i, a ≠ .cw1155 c i) (hal : Allowed e a) (u : Addr)
    (hu : effective (run s0 h) u = 1) (ht : (run s0 h).total = 1)
    (hb : distributed a s0 h + 2 ^ 128 / 10 ^ 18 < 2 ^ 128) :
    ∃ n, n ≤ 2 ^ 128 / 10 ^ 18 ∧ accepted (run s0 h) (giving e n a) ∧
      claimable (step (run s0 h) (giving e n a)).1 u a = claimable (run s0 h) u a + n ∧
      ∀ (t : List Call) (e' : Env) (n' : Nat), (run (step (run s0 h) (giving e n a)).1 t).total ≤ n' →
        ¬ accepted (run (step (run s0 h) (giving e n a)).1 t) (giving e' n' a) := by
  obtain ⟨i0, _, _, o0⟩ := init_inv h0
  obtain ⟨k1, _, _⟩ := run_index a h i0 (by rw [init_index h0 a]; decide)
  have hi : Inv (run s0 h) := (run_inv h i0).1
  have how := (run_inv h i0).2.2 a
  rw [o0 a, Nat.zero_add] at how
  have hlt : ONE * (distributed a s0 h + 2 ^ 128 / 10 ^ 18) < ONE * M128 := Nat.mul_lt_mul_of_pos_left hb (by decide)
  rw [Nat.mul_add] at hlt
  generalize run s0 h = s at *
  obtain ⟨n, hn, hacc, hcl, g1⟩ := alone_state hi k1 ha hal hu ht (by omega)
  refine ⟨n, hn, hacc, hcl, ?_⟩
  · intro t e' n' hle hx
    obtain ⟨_, h1, h2⟩ := (giving_iff ha).1 hx
    have h3 := index_run a t (step s (giving e n a)).1
    have h5 : ONE ≤ n' * ONE / (run (step s (giving e n a)).1 t).total := by
      rw [Nat.le_div_iff_mul_le (Nat.pos_of_ne_zero h1), Nat.mul_comm]
      exact Nat.mul_le_mul_right _ hle
    omega

/-- Anybody may distribute asset 5. -/
def openEnv : Env := ⟨9, fun _ => false, ⟨Map.empty, Map.empty, Map.empty⟩, [.native 5]⟩

/-- Hypotheses of `C181_alone`, and of `C181_room` for what comes first: one member, with an NFT, in a new DAO. -/
example : ∃ s0, init 1 none [(7, 1)] = .ok s0 ∧ Allowed openEnv (.native 5) ∧
    effective (run s0 [giving openEnv 10 (.native 5)]) 7 = 1 ∧
    (run s0 [giving openEnv 10 (.native 5)]).total = 1 ∧ perWeight (.native 5) s0 [giving openEnv 10 (.native 5)] = 10 ∧
    distributed (.native 5) s0 [giving openEnv 10 (.native 5)] = 10 :=
  ⟨_, rfl, Or.inr (by decide), by decide +kernel, by decide +kernel, by decide +kernel, by decide +kernel⟩

/-- Hypotheses of `C181_forever`: after 340 coins with 18 decimals for one NFT, another 10 are refused while two NFTs are staked,
so for ever while no more than two are. -/
example : ∃ s0 t, init 1 none [(7, 1)] = .ok s0 ∧
    t = [giving openEnv (340 * 10 ^ 18) (.native 5), ⟨{ openEnv with sender := 7 }, .claim 7 [5] [], true⟩,
      ⟨{ openEnv with sender := 1 }, .updateWeights [(8, 1)], true⟩] ∧
    claimed 7 (.native 5) s0 t = 340 * 10 ^ 18 ∧ (run s0 t).total = 2 ∧
    accepted (run s0 t) (giving openEnv (10 ^ 17) (.native 5)) ∧
    ¬ accepted (run s0 t) (giving openEnv (10 ^ 19) (.native 5)) :=
  ⟨_, _, rfl, rfl, by decide +kernel, by decide +kernel, by decide +kernel, by decide +kernel⟩

end Verif.Distributor
