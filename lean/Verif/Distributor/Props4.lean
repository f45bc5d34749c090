import Verif.Distributor.Shares

/-!
# Funds distributor: over any history a user gets the user's exact share, rounded down (C124)
-/

namespace Verif.Distributor
open Verif

theorem share_empty (u : Addr) (w d : Nat) : Ledger.empty.share u w d = 0 := by
  unfold Ledger.share
  have h1 : (Ledger.empty.at_ u d) = ⟨0, 0⟩ := rfl
  have h2 : Ledger.empty.global d = 0 := rfl
  rw [h1, h2]
  simp

theorem init_share {ad : Addr} {m : Option Nat} {l : List (Addr × Nat)} {s : State} (h : init ad m l = .ok s) (u : Addr)
    (a : AssetInfo) : shareOf s u a = 0 := by
  have h0 : Inv ⟨ad, m.getD 0, Map.empty, Map.empty, 0, Ledger.empty, Ledger.empty⟩ :=
    ⟨⟨rfl, (fun _ _ _ h => by cases h), (fun _ _ _ h => by cases h)⟩, fun _ => rfl⟩
  obtain ⟨_, hl, _, _⟩ := inits_ok l h0 ⟨rfl, rfl⟩ h
  cases a with
  | native d => unfold shareOf; rw [hl.1]; exact share_empty _ _ _
  | cw20 d => unfold shareOf; rw [hl.2]; exact share_empty _ _ _
  | cw1155 _ _ => rfl

theorem claimable_le_share (s : State) (u : Addr) (a : AssetInfo) : ONE * claimable s u a ≤ shareOf s u a := by
  have key : ∀ (L : Ledger) (w d : Nat), ONE * amount (L.amt u w d) ≤ L.share u w d := by
    intro L w d
    cases h : L.amt u w d with
    | error _ => exact Nat.zero_le _
    | ok r => exact Ledger.amt_le_share h
  cases a with
  | native d => rw [claimable_native]; exact key _ _ _
  | cw20 d => rw [claimable_cw20]; exact key _ _ _
  | cw1155 _ _ => exact Nat.zero_le _

theorem share_lt_claimable {s : State} (hc : Core s) (u : Addr) (a : AssetInfo) (ho : owedOf s a < ONE * M128) :
    shareOf s u a < ONE * claimable s u a + ONE := by
  have key : ∀ (L : Ledger) (d : Nat), L.Ok s.effective → L.owed s.effective d < ONE * M128 →
      L.share u (effective s u) d < ONE * amount (L.amt u (effective s u) d) + ONE := by
    intro L d hok hlt
    obtain ⟨r, hr⟩ := amt_exists hok (u := u) hlt
    have h2 : L.amt u (effective s u) d = .ok r := hr
    rw [h2]
    exact Ledger.share_lt h2
  cases a with
  | native d => rw [claimable_native]; exact key _ d hc.native ho
  | cw20 d => rw [claimable_cw20]; exact key _ d hc.cw20 ho
  | cw1155 _ _ => exact Nat.succ_pos _

/-- C124: nobody gets more than their exact share. Over any history, what a user has been paid of an asset and can still
claim is at most the sum, over the distributions of that asset, of the part of it that the user's weight was of the weight
of all the users at that time. -/
theorem C124_never_more (ad : Addr) (mw : Option Nat) (ws : List (Addr × Nat)) (s0 : State) (h : List Call)
    (h0 : init ad mw ws = .ok s0) (u : Addr) (a : AssetInfo) :
    ((claimed u a s0 h + claimable (run s0 h) u a : Nat) : ℚ) ≤ exactShare u a s0 h := by
  obtain ⟨i0, _, _, _⟩ := init_inv h0
  have h1 := (run_share u a h i0).1
  rw [init_share h0, Nat.cast_zero, zero_add] at h1
  have h2 : (ONE : ℚ) * claimable (run s0 h) u a ≤ shareOf (run s0 h) u a := by
    exact_mod_cast claimable_le_share (run s0 h) u a
  have hone : (0 : ℚ) < ONE := by norm_num [ONE]
  refine le_of_mul_le_mul_left ?_ hone
  rw [Nat.cast_add, mul_add]
  linarith

/-- C124: and everybody gets their exact share but for rounding: less than one unit now, less than one unit for each claim
of the user for that asset, each change of the user's weight and each change of the minimum weight that makes the user
eligible or not, and the user's weight over 10^18 for each coin distributed. (Less than 2^128 units were distributed.) -/
theorem C124_within_rounding (ad : Addr) (mw : Option Nat) (ws : List (Addr × Nat)) (s0 : State) (h : List Call)
    (h0 : init ad mw ws = .ok s0) (u : Addr) (a : AssetInfo) (hb : distributed a s0 h < 2 ^ 128) :
    exactShare u a s0 h <
      ((claimed u a s0 h + claimable (run s0 h) u a : Nat) : ℚ) + 1 + roundings u a s0 h := by
  obtain ⟨i0, _, _, o0⟩ := init_inv h0
  have hlt : owedOf s0 a + ONE * distributed a s0 h < ONE * M128 := by
    rw [o0 a, Nat.zero_add]
    exact Nat.mul_lt_mul_of_pos_left hb (by decide)
  have h1 := (run_share u a h i0).2 hlt
  rw [init_share h0, Nat.cast_zero, zero_add] at h1
  obtain ⟨i1, _, _⟩ := run_inv h i0
  have h2 : (shareOf (run s0 h) u a : ℚ) < ONE * claimable (run s0 h) u a + ONE := by
    exact_mod_cast share_lt_claimable i1.toCore u a (history_owed h0 a hb)
  have hone : (0 : ℚ) < ONE := by norm_num [ONE]
  refine lt_of_mul_lt_mul_left ?_ hone.le
  rw [Nat.cast_add, mul_add, mul_add, mul_add, mul_one]
  linarith

theorem sum_all : ∀ (us : List Addr) (eff : Map Addr Nat), us.Nodup →
    (∀ u x, eff.get u = some x → x ≠ 0 → u ∈ us) →
    (us.map (fun u => (eff.get u).getD 0)).sum = eff.sum (fun _ w => w)
  | [], eff, _, h => by
    rw [Map.sum_congr (g := fun _ _ => 0) (fun u x hx => by
      by_contra h0
      simpa using h u x hx h0)]
    rw [Map.sum_zero]
    rfl
  | u :: us, eff, hn, h => by
    rw [List.nodup_cons] at hn
    have ih := sum_all us (eff.remove u) hn.2 (fun v x hv h0 => by
      rw [Map.get_remove] at hv
      by_cases huv : u = v
      · rw [if_pos huv] at hv; cases hv
      · rw [if_neg huv] at hv
        exact (List.mem_cons.1 (h v x hv h0)).resolve_left (fun e => huv e.symm))
    have h1 := Map.sum_remove eff (fun _ w => w) u
    have h2 : (us.map (fun v => ((eff.remove u).get v).getD 0)) = us.map (fun v => (eff.get v).getD 0) := by
      refine List.map_congr_left (fun v hv => ?_)
      rw [Map.get_remove, if_neg (fun h => hn.1 (by rw [h]; exact hv))]
    rw [h2] at ih
    rw [List.map_cons, List.sum_cons, ih]
    cases hu : eff.get u with
    | none => rw [hu] at h1; simp only [Map.contrib_none] at h1; simp; omega
    | some x => rw [hu] at h1; simp only [Map.contrib_some] at h1; simp; omega

theorem exact_sum (a : AssetInfo) (us : List Addr) (hn : us.Nodup) : ∀ (h : List Call) {s : State}, Inv s →
    (∀ u, (run s h).weights.has u = true → u ∈ us) →
    (us.map (fun u => exactShare u a s h)).sum = distributed a s h
  | [], s, _, _ => by simp [exactShare, distributed]
  | c :: t, s, hi, hus => by
    have i1 := (step_inv hi c).1
    have ih := exact_sum a us hn t i1 hus
    have hall : ∀ u x, s.effective.get u = some x → u ∈ us := by
      intro u x hx
      refine hus u (run_known t i1 (step_known hi c ?_))
      rw [hi.eff] at hx
      cases hw : s.weights.get u with
      | none => rw [hw] at hx; cases hx
      | some y => exact Map.has_iff.2 ⟨y, hw⟩
    have hs := sum_all us s.effective hn (fun u x hx _ => hall u x hx)
    have hsum : ∀ (l : List Addr) (k : ℚ), (l.map (fun u => k * (effective s u : ℚ))).sum =
        k * ((l.map (fun u => (s.effective.get u).getD 0)).sum : Nat) := by
      intro l k
      induction l with
      | nil => simp
      | cons v l ihl =>
        simp only [List.map_cons, List.sum_cons, ihl, Nat.cast_add, mul_add]
        rfl
    have hadd : ∀ (l : List Addr) (f g : Addr → ℚ), (l.map (fun u => f u + g u)).sum = (l.map f).sum + (l.map g).sum := by
      intro l f g
      induction l with
      | nil => simp
      | cons v l ihl => simp only [List.map_cons, List.sum_cons, ihl]; ring
    have hd : distributed a s (c :: t) =
      (if accepted s c then funds c a else 0) + distributed a (step s c).1 t := rfl
    show (us.map (fun u => (if accepted s c then
      (funds c a : ℚ) * effective s u / (s.effective.sum (fun _ w => w) : Nat) else 0) +
      exactShare u a (step s c).1 t)).sum = _
    rw [hadd, ih, hd, Nat.cast_add]
    congr 1
    by_cases hacc : accepted s c
    · simp only [if_pos hacc]
      have hf : funds c a = 0 ∨ s.total ≠ 0 := by
        obtain ⟨x, hx, _⟩ := accepted_exec hacc
        unfold funds
        cases hm : c.msg with
        | updateWeights _ => exact .inl rfl
        | updateMin _ => exact .inl rfl
        | claim _ _ _ => exact .inl rfl
        | distributeNative l =>
          rw [hm] at hx
          simp only [exec] at hx
          obtain ⟨s', h1, _⟩ := bind_ok_iff.1 hx
          exact .inr (distributeNative_ok_iff.1 h1).2.1
        | receiveCw20 k n =>
          rw [hm] at hx
          simp only [exec] at hx
          obtain ⟨s', h1, _⟩ := bind_ok_iff.1 hx
          exact .inr (receiveCw20_ok_iff.1 h1).2.2.1
      have hm : ∀ u, (funds c a : ℚ) * effective s u / (s.effective.sum (fun _ w => w) : Nat) =
          ((funds c a : ℚ) / (s.effective.sum (fun _ w => w) : Nat)) * effective s u := fun u => by ring
      simp only [hm]
      rw [hsum, hs]
      rcases hf with hf | hf
      · rw [hf]; simp
      · rw [hi.total] at hf
        have : ((s.effective.sum (fun _ w => w) : Nat) : ℚ) ≠ 0 := by exact_mod_cast hf
        rw [div_mul_cancel₀ _ this]
    · simp [if_neg hacc]

/-- C124: the exact shares of all the users add up to what was distributed. (`us` has all the users who have ever been
given a weight.) -/
theorem C124_shares_add_up (ad : Addr) (mw : Option Nat) (ws : List (Addr × Nat)) (s0 : State) (h : List Call)
    (h0 : init ad mw ws = .ok s0) (a : AssetInfo) (us : List Addr) (hn : us.Nodup)
    (hus : ∀ u, (run s0 h).weights.has u = true → u ∈ us) :
    (us.map (fun u => exactShare u a s0 h)).sum = distributed a s0 h :=
  exact_sum a us hn h (init_inv h0).1 hus

/-- Hypotheses met: of 10 coins distributed among weights 1 and 2, user 1 was paid 3 (the exact share is 10/3), and user 2
can claim 6 (20/3). User 1 claimed once and had two weight changes. -/
example : distributed (.native 5) exInit exHistory < 2 ^ 128 ∧
    exactShare 1 (.native 5) exInit exHistory = 10 / 3 ∧ exactShare 2 (.native 5) exInit exHistory = 20 / 3 ∧
    claimed 1 (.native 5) exInit exHistory + claimable (run exInit exHistory) 1 (.native 5) = 3 ∧
    claimed 2 (.native 5) exInit exHistory + claimable (run exInit exHistory) 2 (.native 5) = 6 ∧
    roundings 1 (.native 5) exInit exHistory = 3 + 1 / 10 ^ 18 ∧
    roundings 2 (.native 5) exInit exHistory = 2 / 10 ^ 18 := by
  decide +kernel

/-- Hypotheses met: the users of the history. -/
example : [1, 2, 3, 7].Nodup ∧ (∀ u, (run exInit exHistory).weights.has u = true → u ∈ [1, 2, 3, 7]) ∧
    ([1, 2, 3, 7].map (fun u => exactShare u (.cw20 900) exInit exHistory)) = [50, 20, 0, 30] := by
  refine ⟨by decide, fun u hu => ?_, by decide +kernel⟩
  have h1 : u ∈ (run exInit exHistory).weights.keys := Map.mem_keys.2 (Map.has_iff.1 hu)
  have h2 : (run exInit exHistory).weights.keys = [1, 2, 3, 7] := by decide +kernel
  rw [h2] at h1
  exact h1

end Verif.Distributor
