import Verif.Distributor.Props3
import Verif.Distributor.Spec3
import Mathlib.Tactic.Linarith
import Mathlib.Tactic.FieldSimp
import Mathlib.Tactic.Ring

set_option linter.unusedSimpArgs false

/-!
# Funds distributor: helper lemmas on the share of one user
-/

namespace Verif.Distributor
open Verif

/-- 10^18 times the unrounded amount due to a user of an asset. -/
def shareOf (s : State) (u : Addr) : AssetInfo → Nat
  | .native d => s.native.share u (effective s u) d
  | .cw20 t => s.cw20.share u (effective s u) t
  | .cw1155 _ _ => 0

namespace Ledger

theorem Ok.share_none {L : Ledger} {eff : Map Addr Nat} (h : L.Ok eff) {u : Addr} (hu : eff.get u = none) (a : Nat) :
    L.share u 0 a = 0 := by
  have hd : L.dist.get (toLex (u, a)) = none := by
    cases hd : L.dist.get (toLex (u, a)) with
    | none => rfl
    | some d =>
      have := (h u a d hd).2.1
      rw [Map.has_iff] at this
      obtain ⟨v, hv⟩ := this
      rw [hu] at hv
      cases hv
  unfold share at_
  rw [hd]
  simp

theorem ClaimedAll.share {L L' : Ledger} {eff : Map Addr Nat} {u : Addr} {w : Nat} {l : List Nat}
    {pays : List (Nat × Nat)} (h : ClaimedAll L L' eff u w l pays) (hok : L.Ok eff) (hw : (eff.get u).getD 0 = w) (b : Nat) :
    L'.share u w b + ONE * Ledger.listed b pays ≤ L.share u w b ∧
    L.share u w b ≤ L'.share u w b + ONE * Ledger.listed b pays + (if b ∈ l then ONE else 0) := by
  have hsh : ∀ v x, v ≠ u → L'.share v x b = L.share v x b := by
    intro v x hv
    unfold Ledger.share at_
    rw [global_congr h.idx, h.others v b (fun hx => hv hx.1)]
  constructor
  · have h2 := sum_change eff (fun u w => L'.share u w b) (fun u w => L.share u w b) u hsh
    have h3 := h.owed b
    unfold Ledger.owed at h3
    cases hu : eff.get u with
    | none =>
      rw [hu] at h2 hw
      have hw : 0 = w := hw
      subst hw
      simp only [Map.contrib_none] at h2
      rw [hok.share_none hu, h.ok.share_none hu]
      omega
    | some x =>
      rw [hu] at h2 hw
      have hw : x = w := hw
      subst hw
      simp only [Map.contrib_some] at h2
      omega
  · by_cases hb : b ∈ l
    · rw [if_pos hb]
      have h1 := share_lt (h.listed b hb).1
      omega
    · rw [if_neg hb]
      have : L'.share u w b = L.share u w b := by
        unfold Ledger.share at_
        rw [global_congr h.idx, h.others u b (fun hx => hb hx.2)]
      omega

theorem ClaimedAll.share_other {L L' : Ledger} {eff : Map Addr Nat} {u v : Addr} {w : Nat} {l : List Nat}
    {pays : List (Nat × Nat)} (h : ClaimedAll L L' eff u w l pays) (hv : v ≠ u) (x b : Nat) :
    L'.share v x b = L.share v x b := by
  unfold Ledger.share at_
  rw [global_congr h.idx, h.others v b (fun hx => hv hx.1)]

/-- A distribution gives a user the user's part of it, rounded down. -/
theorem distribute_share {t : Nat} {L L' : Ledger} {l : List (Nat × Nat)} {eff : Map Addr Nat}
    (h : l.foldlM (distributeOne t) L = .ok L') (hok : L.Ok eff) (ht : t ≠ 0) (u : Addr) (w a : Nat) :
    (L'.share u w a : ℚ) ≤ L.share u w a + ONE * ((listed a l : ℚ) * w / t) ∧
    (L.share u w a : ℚ) + ONE * ((listed a l : ℚ) * w / t) ≤ L'.share u w a + w * count a l := by
  obtain ⟨hd, hg⟩ := distributes_global l L L' h
  obtain ⟨inc, e1, e2, e3, _⟩ := hg a
  have hs : L'.share u w a = L.share u w a + w * inc := by
    have hi := hok.index_le u a
    unfold share
    have : L'.at_ u a = L.at_ u a := by unfold at_; rw [hd]
    rw [this, e1, Nat.add_comm (L.global a), Nat.add_sub_assoc hi, Nat.mul_add]
    omega
  have ht' : (0 : ℚ) < t := by exact_mod_cast Nat.pos_of_ne_zero ht
  have e2' : (t : ℚ) * inc ≤ ONE * listed a l := by exact_mod_cast e2
  have e3' : (ONE : ℚ) * listed a l ≤ t * inc + t * count a l := by exact_mod_cast e3
  have hw : (0 : ℚ) ≤ w := Nat.cast_nonneg w
  have hq : (ONE : ℚ) * ((listed a l : ℚ) * w / t) = w * (ONE * listed a l / t) := by ring
  rw [hs, hq]
  push_cast
  have f1 : (inc : ℚ) ≤ ONE * listed a l / t := by rw [le_div_iff₀ ht']; linarith
  have f2 : (ONE * listed a l / t : ℚ) ≤ inc + count a l := by rw [div_le_iff₀ ht']; linarith
  have g1 := mul_le_mul_of_nonneg_left f1 hw
  have g2 := mul_le_mul_of_nonneg_left f2 hw
  constructor <;> linarith

end Ledger

/-- Settling one user keeps the amounts due, but for less than a unit of that user. -/
theorem change_share {s : State} {v : Addr} {w t m : Nat} {n c : Ledger} {ws : Map Addr Nat}
    (hn : Ledger.Fresh s.native n v (effective s v)) (hcw : Ledger.Fresh s.cw20 c v (effective s v)) (u : Addr)
    (a : AssetInfo) :
    shareOf { s with
      native := n, cw20 := c, weights := ws, effective := s.effective.set v w, total := t, min := m } u a ≤ shareOf s u a ∧
    (Core s → owedOf s a < ONE * M128 → shareOf s u a ≤ shareOf { s with
      native := n, cw20 := c, weights := ws, effective := s.effective.set v w, total := t, min := m } u a +
      if v = u then ONE else 0) := by
  have he : effective { s with
      native := n, cw20 := c, weights := ws, effective := s.effective.set v w, total := t, min := m } u =
      if v = u then w else effective s u := effective_set s v u w
  have key : ∀ (L L' : Ledger) (b : Nat), Ledger.Fresh L L' v (effective s v) →
      L'.share u (if v = u then w else effective s u) b ≤ L.share u (effective s u) b ∧
      (L.Ok s.effective → L.owed s.effective b < ONE * M128 → L.share u (effective s u) b ≤
        L'.share u (if v = u then w else effective s u) b + if v = u then ONE else 0) := by
    intro L L' b hf
    by_cases hv : v = u
    · subst hv
      rw [if_pos rfl, if_pos rfl]
      exact ⟨hf.share w b, fun hok ho => Nat.le_of_lt (hf.share_ge (amt_exists hok ho) w)⟩
    · rw [if_neg hv, if_neg hv]
      have := hf.share_other (fun h => hv h.symm) (effective s u) b
      exact ⟨Nat.le_of_eq this, fun _ _ => by omega⟩
  cases a with
  | native d =>
    simp only [shareOf, he]
    exact ⟨(key _ _ d hn).1, fun hc ho => (key _ _ d hn).2 hc.native ho⟩
  | cw20 d =>
    simp only [shareOf, he]
    exact ⟨(key _ _ d hcw).1, fun hc ho => (key _ _ d hcw).2 hc.cw20 ho⟩
  | cw1155 _ _ => exact ⟨Nat.zero_le _, fun _ _ => Nat.zero_le _⟩

theorem updateOne_share {s s' : State} (hi : Inv s) {p : Addr × Nat} (h : updateOne s p = .ok s') (u : Addr)
    (a : AssetInfo) : shareOf s' u a ≤ shareOf s u a ∧
    (owedOf s a < ONE * M128 → shareOf s u a ≤ shareOf s' u a + if p.1 = u then ONE else 0) := by
  unfold updateOne at h
  obtain ⟨x, h1, h⟩ := bind_ok_iff.1 h
  obtain ⟨t1, h2, h⟩ := bind_ok_iff.1 h
  obtain ⟨t, h3, h⟩ := bind_ok_iff.1 h
  obtain ⟨f1, f2⟩ := refresh_ok hi.toCore h1
  cases pure_ok_iff.1 h
  have := change_share f1 f2 u a (m := s.min) (ws := s.weights.set p.1 p.2) (t := t) (w := effWeight p.2 s.min)
  exact ⟨this.1, this.2 hi.toCore⟩

theorem updates_share (u : Addr) (a : AssetInfo) : ∀ (l : List (Addr × Nat)) {s s' : State}, Inv s →
    l.foldlM updateOne s = .ok s' → shareOf s' u a ≤ shareOf s u a ∧
    (owedOf s a < ONE * M128 →
      shareOf s u a ≤ shareOf s' u a + ONE * (l.filter (fun p => decide (p.1 = u))).length)
  | [], s, s', hi, h => by
    rw [foldlM_nil_ok_iff] at h
    subst h
    simp
  | p :: l, s, s', hi, h => by
    obtain ⟨s1, h1, h2⟩ := foldlM_cons_ok_iff.1 h
    obtain ⟨i1, q1, _, _⟩ := updateOne_ok hi h1
    obtain ⟨a1, a2⟩ := updateOne_share hi h1 u a
    obtain ⟨b1, b2⟩ := updates_share u a l i1 h2
    refine ⟨Nat.le_trans b1 a1, fun ho => ?_⟩
    have a2 := a2 ho
    have b2 := b2 (lt_of_le_of_lt (q1.owed a) ho)
    by_cases hp : p.1 = u
    · rw [if_pos hp] at a2
      rw [List.filter_cons_of_pos (by simpa using hp), List.length_cons, Nat.mul_add, Nat.mul_one, ← Nat.add_assoc]
      exact Nat.le_trans a2 (Nat.add_le_add_right b2 _)
    · rw [if_neg hp] at a2
      rw [List.filter_cons_of_neg (by simpa using hp)]
      omega

theorem minOne_share {b : Bool} {s s' : State} (hc : Core s) {p : Addr × Nat} (h : minOne b s p = .ok s') (u : Addr)
    (a : AssetInfo) : shareOf s' u a ≤ shareOf s u a ∧
    (owedOf s a < ONE * M128 → shareOf s u a ≤ shareOf s' u a + if p.1 = u then ONE else 0) := by
  unfold minOne at h
  obtain ⟨n, h1, h⟩ := bind_ok_iff.1 h
  obtain ⟨c, h2, h⟩ := bind_ok_iff.1 h
  obtain ⟨t1, h3, h⟩ := bind_ok_iff.1 h
  obtain ⟨t, h4, h⟩ := bind_ok_iff.1 h
  cases pure_ok_iff.1 h
  have := change_share (Ledger.fresh_settle hc.native h1) (Ledger.fresh_settle hc.cw20 h2) u a (m := s.min)
    (ws := s.weights) (t := t) (w := if b then p.2 else 0)
  exact ⟨this.1, this.2 hc⟩

theorem mins_share {b : Bool} (u : Addr) (a : AssetInfo) : ∀ (l : List (Addr × Nat)) {s s' : State}, Core s →
    (l.map (·.1)).Nodup → l.foldlM (minOne b) s = .ok s' → shareOf s' u a ≤ shareOf s u a ∧
    (owedOf s a < ONE * M128 → shareOf s u a ≤ shareOf s' u a + if u ∈ l.map (·.1) then ONE else 0)
  | [], s, s', hc, _, h => by
    rw [foldlM_nil_ok_iff] at h
    subst h
    simp
  | p :: l, s, s', hc, hn, h => by
    obtain ⟨s1, h1, h2⟩ := foldlM_cons_ok_iff.1 h
    rw [List.map_cons, List.nodup_cons] at hn
    obtain ⟨q1, _, _, _⟩ := minOne_ok hc h1
    obtain ⟨a1, a2⟩ := minOne_share hc h1 u a
    obtain ⟨b1, b2⟩ := mins_share u a l q1.core hn.2 h2
    refine ⟨Nat.le_trans b1 a1, fun ho => ?_⟩
    have a2 := a2 ho
    have b2 := b2 (lt_of_le_of_lt (q1.owed a) ho)
    rw [List.map_cons]
    by_cases hp : p.1 = u
    · rw [if_pos hp] at a2
      rw [if_neg (by rw [← hp]; exact hn.1)] at b2
      rw [if_pos (by simp [hp])]
      omega
    · rw [if_neg hp] at a2
      have : u ∈ p.1 :: l.map (·.1) ↔ u ∈ l.map (·.1) := by
        rw [List.mem_cons]
        exact ⟨fun h => h.resolve_left (fun h => hp h.symm), .inr⟩
      simp only [this]
      omega

theorem updateMin_share {s s' : State} (hi : Inv s) {e : Env} {m : Nat} (h : updateMin s e m = .ok s') (u : Addr)
    (a : AssetInfo) : shareOf s' u a ≤ shareOf s u a ∧
    (owedOf s a < ONE * M128 →
      shareOf s u a ≤ shareOf s' u a + if (s.min ≤ weight s u ↔ m ≤ weight s u) then 0 else ONE) := by
  unfold updateMin at h
  obtain ⟨hs, h⟩ := ite_ok_iff.1 h
  by_cases hm : s.min = m
  · rw [if_pos hm] at h
    cases h
    exact ⟨le_refl _, fun _ => Nat.le_add_right _ _⟩
  · rw [if_neg hm] at h
    obtain ⟨s1, h1, h⟩ := bind_ok_iff.1 h
    have h' := pure_ok_iff.1 h
    subst h'
    obtain ⟨b1, b2⟩ := mins_share u a _ hi.toCore (affected_nodup s s.min m) h1
    have he : shareOf { s1 with min := m } u a = shareOf s1 u a := by cases a <;> rfl
    rw [he]
    refine ⟨b1, fun ho => Nat.le_trans (b2 ho) (Nat.add_le_add_left ?_ _)⟩
    by_cases hu : u ∈ (affected s s.min m).map (·.1)
    · rw [if_pos hu, if_neg]
      obtain ⟨p, hp, rfl⟩ := List.mem_map.1 hu
      obtain ⟨hg, hr⟩ := affected_iff.1 hp
      unfold weight
      rw [hg]
      simp only [Option.getD_some]
      omega
    · rw [if_neg hu]
      exact Nat.zero_le _

/-- One accepted message and the amount due to a user. -/
theorem exec_share {s : State} (hi : Inv s) {e : Env} {m : Msg} {x : State × List Out} (h : exec s e m = .ok x)
    (u : Addr) (a : AssetInfo) :
    ((shareOf x.1 u a : ℚ) + ONE * paid u a x.2 ≤ shareOf s u a +
      ONE * ((fundsOf e m a : ℚ) * effective s u / (s.effective.sum (fun _ w => w) : Nat))) ∧
    (owedOf s a < ONE * M128 → (shareOf s u a : ℚ) +
      ONE * ((fundsOf e m a : ℚ) * effective s u / (s.effective.sum (fun _ w => w) : Nat)) ≤
      shareOf x.1 u a + ONE * paid u a x.2 + ONE * rounding u a s e m) := by
  have hnil : paid u a [] = 0 := rfl
  have hone : ((ONE : Nat) : ℚ) = 10 ^ 18 := by norm_num [ONE]
  cases m with
  | updateWeights l =>
    simp only [exec] at h
    obtain ⟨s', h1, h⟩ := bind_ok_iff.1 h
    cases pure_ok_iff.1 h
    unfold updateWeights at h1
    obtain ⟨_, h1⟩ := ite_ok_iff.1 h1
    obtain ⟨a1, a2⟩ := updates_share u a l hi h1
    have hf : fundsOf e (.updateWeights l) a = 0 := by cases a <;> rfl
    rw [hf]
    simp only [hnil, rounding]
    have a1' : (shareOf s' u a : ℚ) ≤ shareOf s u a := by exact_mod_cast a1
    refine ⟨by simpa using a1', fun ho => ?_⟩
    have a2' : (shareOf s u a : ℚ) ≤ shareOf s' u a + ONE * (l.filter (fun p => decide (p.1 = u))).length := by
      exact_mod_cast a2 ho
    simpa using a2'
  | updateMin n =>
    simp only [exec] at h
    obtain ⟨s', h1, h⟩ := bind_ok_iff.1 h
    cases pure_ok_iff.1 h
    obtain ⟨a1, a2⟩ := updateMin_share hi h1 u a
    have hf : fundsOf e (.updateMin n) a = 0 := by cases a <;> rfl
    rw [hf]
    simp only [hnil, rounding]
    have a1' : (shareOf s' u a : ℚ) ≤ shareOf s u a := by exact_mod_cast a1
    refine ⟨by simpa using a1', fun ho => ?_⟩
    have a2 := a2 ho
    by_cases hc : (s.min ≤ weight s u ↔ n ≤ weight s u)
    · rw [if_pos hc] at a2 ⊢
      have a2' : (shareOf s u a : ℚ) ≤ shareOf s' u a := by exact_mod_cast a2
      simpa using a2'
    · rw [if_neg hc] at a2 ⊢
      have a2' : (shareOf s u a : ℚ) ≤ shareOf s' u a + ONE := by exact_mod_cast a2
      simpa using a2'
  | distributeNative l =>
    simp only [exec] at h
    obtain ⟨s', h1, h⟩ := bind_ok_iff.1 h
    cases pure_ok_iff.1 h
    obtain ⟨_, ht, n, h2, rfl⟩ := distributeNative_ok_iff.1 h1
    simp only [hnil, ← hi.total]
    cases a with
    | native d =>
      obtain ⟨b1, b2⟩ := Ledger.distribute_share h2 hi.native ht u (effective s u) d
      have hf : fundsOf e (.distributeNative l) (.native d) = Ledger.listed d l := sum_native l d
      rw [hf]
      have hc : (l.filter (fun f => decide (AssetInfo.native f.1 = AssetInfo.native d))).length = Ledger.count d l := by
        unfold Ledger.count
        congr 1
        refine List.filter_congr (fun f _ => ?_)
        simp only [AssetInfo.native.injEq]
      have hs' : shareOf { s with native := n } u (.native d) = n.share u (effective s u) d := rfl
      have hs : shareOf s u (.native d) = s.native.share u (effective s u) d := rfl
      simp only [rounding, hc]
      rw [hs', hs]
      refine ⟨by simpa using b1, fun _ => ?_⟩
      have : (ONE : ℚ) * ((effective s u : ℚ) * Ledger.count d l / 10 ^ 18) = effective s u * Ledger.count d l := by
        rw [hone]; field_simp
      rw [this]
      simpa using b2
    | cw20 d =>
      have hf : fundsOf e (.distributeNative l) (.cw20 d) = 0 := by
        show (l.map (fun f => if AssetInfo.native f.1 = AssetInfo.cw20 d then f.2 else 0)).sum = 0
        refine sum_zero_of (fun y hy => ?_)
        obtain ⟨f, _, rfl⟩ := List.mem_map.1 hy
        rfl
      have hs' : shareOf { s with native := n } u (.cw20 d) = shareOf s u (.cw20 d) := rfl
      rw [hf, hs']
      simp [rounding]
    | cw1155 c i =>
      have hf : fundsOf e (.distributeNative l) (.cw1155 c i) = 0 := by
        show (l.map (fun f => if AssetInfo.native f.1 = AssetInfo.cw1155 c i then f.2 else 0)).sum = 0
        refine sum_zero_of (fun y hy => ?_)
        obtain ⟨f, _, rfl⟩ := List.mem_map.1 hy
        rfl
      rw [hf]
      simp [rounding, shareOf]
  | claim v l t =>
    obtain ⟨_, _, he⟩ := claim_effect hi.toCore h
    obtain ⟨_, _, _, h4, _⟩ := he.frame
    obtain ⟨pn, pc, hout, cn, cc⟩ := he.pays
    have hf : fundsOf e (.claim v l t) a = 0 := by cases a <;> rfl
    have hef : effective x.1 u = effective s u := by unfold effective; rw [h4]
    rw [hf, hout, paid_payMsgs]
    have key : ∀ (L L' : Ledger) (k : List Nat) (pays : List (Nat × Nat)) (b : Nat), L.Ok s.effective →
        L.ClaimedAll L' s.effective v (effective s v) k pays →
        ((L'.share u (effective s u) b : ℚ) + ONE * (if u = v then Ledger.listed b pays else 0 : Nat) ≤
          L.share u (effective s u) b) ∧
        (L.share u (effective s u) b : ℚ) ≤ L'.share u (effective s u) b +
          ONE * (if u = v then Ledger.listed b pays else 0 : Nat) + ONE * (if v = u ∧ b ∈ k then 1 else 0) := by
      intro L L' k pays b hok hc
      by_cases hv : u = v
      · subst hv
        obtain ⟨c1, c2⟩ := hc.share hok rfl b
        simp only [if_true, true_and]
        refine ⟨by exact_mod_cast c1, ?_⟩
        by_cases hb : b ∈ k
        · rw [if_pos hb] at c2 ⊢
          rw [mul_one]
          exact_mod_cast c2
        · rw [if_neg hb] at c2 ⊢
          rw [mul_zero, add_zero]
          exact_mod_cast c2
      · rw [if_neg hv, if_neg (fun h => hv h.1.symm), hc.share_other hv]
        simp
    cases a with
    | native d =>
      have hmem : AssetInfo.native d ∈ l.map AssetInfo.native ++ t.map AssetInfo.cw20 ↔ d ∈ l := by simp
      rw [paidAll_native]
      simp only [rounding, hmem, shareOf, hef]
      obtain ⟨k1, k2⟩ := key _ _ _ _ d hi.native cn
      refine ⟨by simpa using k1, fun _ => by simpa using k2⟩
    | cw20 d =>
      have hmem : AssetInfo.cw20 d ∈ l.map AssetInfo.native ++ t.map AssetInfo.cw20 ↔ d ∈ t := by simp
      rw [paidAll_cw20]
      simp only [rounding, hmem, shareOf, hef]
      obtain ⟨k1, k2⟩ := key _ _ _ _ d hi.cw20 cc
      refine ⟨by simpa using k1, fun _ => by simpa using k2⟩
    | cw1155 y i =>
      rw [paidAll_cw1155]
      simp [rounding, shareOf]
  | receiveCw20 k n =>
    simp only [exec] at h
    obtain ⟨s', h1, h⟩ := bind_ok_iff.1 h
    cases pure_ok_iff.1 h
    obtain ⟨_, _, ht, c, h2, rfl⟩ := receiveCw20_ok_iff.1 h1
    simp only [hnil, ← hi.total]
    have h2' : [(e.sender, n)].foldlM (Ledger.distributeOne s.total) s.cw20 = .ok c :=
      foldlM_cons_ok_iff.2 ⟨c, h2, foldlM_nil_ok_iff.2 rfl⟩
    cases a with
    | native d =>
      have hf : fundsOf e (.receiveCw20 k n) (.native d) = 0 := rfl
      have hs' : shareOf { s with cw20 := c } u (.native d) = shareOf s u (.native d) := rfl
      rw [hf, hs']
      simp [rounding]
    | cw20 d =>
      obtain ⟨b1, b2⟩ := Ledger.distribute_share h2' hi.cw20 ht u (effective s u) d
      have hl : Ledger.listed d [(e.sender, n)] = if e.sender = d then n else 0 := by
        unfold Ledger.listed; simp
      have hct : Ledger.count d [(e.sender, n)] = if e.sender = d then 1 else 0 := by
        unfold Ledger.count
        by_cases hd : e.sender = d <;> simp [hd]
      have hf : fundsOf e (.receiveCw20 k n) (.cw20 d) = if e.sender = d then n else 0 := by
        show (if AssetInfo.cw20 e.sender = AssetInfo.cw20 d then n else 0) = _
        simp only [AssetInfo.cw20.injEq]
      have hs' : shareOf { s with cw20 := c } u (.cw20 d) = c.share u (effective s u) d := rfl
      have hs : shareOf s u (.cw20 d) = s.cw20.share u (effective s u) d := rfl
      rw [hl] at b1 b2
      rw [hct] at b2
      rw [hf, hs', hs]
      refine ⟨by simpa using b1, fun _ => ?_⟩
      have : (ONE : ℚ) * rounding u (.cw20 d) s e (.receiveCw20 k n) =
          effective s u * ((if e.sender = d then 1 else 0 : Nat) : ℚ) := by
        unfold rounding
        simp only [AssetInfo.cw20.injEq]
        rw [hone]
        by_cases hd : e.sender = d
        · simp only [hd, if_true]; field_simp; simp
        · simp [hd]
      rw [this]
      simpa using b2
    | cw1155 y i =>
      have hf : fundsOf e (.receiveCw20 k n) (.cw1155 y i) = 0 := rfl
      rw [hf]
      simp [rounding, shareOf]

theorem run_share (u : Addr) (a : AssetInfo) : ∀ (h : List Call) {s : State}, Inv s →
    ((shareOf (run s h) u a : ℚ) + ONE * claimed u a s h ≤ shareOf s u a + ONE * exactShare u a s h) ∧
    (owedOf s a + ONE * distributed a s h < ONE * M128 →
      (shareOf s u a : ℚ) + ONE * exactShare u a s h ≤
        shareOf (run s h) u a + ONE * claimed u a s h + ONE * roundings u a s h)
  | [], s, _ => by simp [run, claimed, exactShare, roundings]
  | c :: t, s, hi => by
    obtain ⟨i1, _, o1⟩ := step_inv hi c
    have o1 := o1 a
    obtain ⟨r1, r2⟩ := run_share u a t i1
    have hone : (0 : ℚ) ≤ ONE := Nat.cast_nonneg _
    have hd : distributed a s (c :: t) =
      (if accepted s c then funds c a else 0) + distributed a (step s c).1 t := rfl
    have hc : claimed u a s (c :: t) = paid u a (step s c).2 + claimed u a (step s c).1 t := rfl
    have he : exactShare u a s (c :: t) =
      (if accepted s c then (funds c a : ℚ) * effective s u / (s.effective.sum (fun _ w => w) : Nat) else 0) +
      exactShare u a (step s c).1 t := rfl
    have hl : roundings u a s (c :: t) =
      (if accepted s c then rounding u a s c.env c.msg else 0) + roundings u a (step s c).1 t := rfl
    have hr : run s (c :: t) = run (step s c).1 t := rfl
    have hstep : ((shareOf (step s c).1 u a : ℚ) + ONE * paid u a (step s c).2 ≤ shareOf s u a +
        ONE * (if accepted s c then (funds c a : ℚ) * effective s u / (s.effective.sum (fun _ w => w) : Nat) else 0)) ∧
        (owedOf s a < ONE * M128 → (shareOf s u a : ℚ) +
          ONE * (if accepted s c then (funds c a : ℚ) * effective s u / (s.effective.sum (fun _ w => w) : Nat) else 0) ≤
          shareOf (step s c).1 u a + ONE * paid u a (step s c).2 +
            ONE * (if accepted s c then rounding u a s c.env c.msg else 0)) := by
      rcases step_cases s c with ⟨x, hx, _, hst, hacc⟩ | ⟨hst, hacc⟩
      · rw [hst, if_pos hacc, if_pos hacc, ← funds_eq]
        exact exec_share hi hx u a
      · rw [hst, if_neg hacc, if_neg hacc]
        have : paid u a [] = 0 := rfl
        simp [this]
    rw [hr, hc, he, hl, Nat.cast_add]
    simp only [mul_add]
    generalize (if accepted s c then (funds c a : ℚ) * effective s u / (s.effective.sum (fun _ w => w) : Nat) else 0) = f
      at hstep ⊢
    generalize (if accepted s c then rounding u a s c.env c.msg else 0) = r at hstep ⊢
    refine ⟨?_, fun hb => ?_⟩
    · have := hstep.1
      linarith
    · rw [hd, Nat.mul_add] at hb
      have h1 := hstep.2 (by omega)
      have h2 := r2 (by omega)
      linarith

end Verif.Distributor
