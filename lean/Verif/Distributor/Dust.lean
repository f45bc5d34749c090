import Verif.Distributor.Props
import Verif.Distributor.Spec2

set_option linter.unusedSimpArgs false

/-!
# Funds distributor: helper lemmas on rounding losses

`owedOf` (the unrounded amount due, in units of 10^-18) is bounded from below here; the bounds from above are in
`Lemmas2`.
-/

namespace Verif.Distributor
open Verif

namespace Ledger

theorem share_lt {L : Ledger} {u : Addr} {w a r : Nat} (h : L.amt u w a = .ok r) : L.share u w a < ONE * r + ONE := by
  obtain ⟨_, _, rfl⟩ := amt_ok_iff.1 h
  unfold share
  rw [Nat.mul_add]
  have := Nat.lt_mul_div_succ (w * (L.global a - (L.at_ u a).index)) (show 0 < ONE by decide)
  rw [Nat.mul_succ] at this
  omega

theorem Fresh.share_ge {L L' : Ledger} {u : Addr} {w a : Nat} (h : Fresh L L' u w) (he : ∃ r, L.amt u w a = .ok r)
    (w' : Nat) : L.share u w a < L'.share u w' a + ONE := by
  obtain ⟨r, hr⟩ := he
  have h1 := share_lt hr
  have h2 := amt_le_share ((h.same w' a).trans hr)
  omega

theorem Fresh.owed_ge {L L' : Ledger} {eff : Map Addr Nat} {u : Addr} {w w' a : Nat} (h : Fresh L L' u w)
    (hw : eff.get u = some w ∨ eff.get u = none) (he : ∃ r, L.amt u w a = .ok r) :
    L.owed eff a ≤ L'.owed (eff.set u w') a + ONE := by
  unfold Ledger.owed
  have h1 := Map.sum_set eff (fun u w => L'.share u w a) u w'
  have h2 := sum_change eff (fun u w => L'.share u w a) (fun u w => L.share u w a) u
    (fun v x hv => h.share_other hv x a)
  have h3 := h.share_ge he w'
  rcases hw with hw | hw
  · rw [hw] at h1 h2
    simp only [Map.contrib_some] at h1 h2
    omega
  · rw [hw] at h1 h2
    simp only [Map.contrib_none] at h1 h2
    omega

theorem distribute_owed_ge {t : Nat} {L L' : Ledger} {f : Nat × Nat} {eff : Map Addr Nat}
    (h : L.distributeOne t f = .ok L') (hok : L.Ok eff) (ht : t = eff.sum (fun _ w => w)) (a : Nat) :
    L.owed eff a + ONE * (if f.1 = a then f.2 else 0) ≤ L'.owed eff a + (if f.1 = a then 1 else 0) * t := by
  obtain ⟨ht0, _, _, hd, hg⟩ := distributeOne_ok h
  by_cases ha : f.1 = a
  · have h1 : L'.owed eff a = L.owed eff a + (f.2 * ONE / t) * eff.sum (fun _ w => w) := by
      unfold owed
      rw [← Map.sum_mul_left, ← Map.sum_add]
      refine Map.sum_congr (fun u w _ => ?_)
      have hi := hok.index_le u a
      unfold share
      have : L'.at_ u a = L.at_ u a := by unfold at_; rw [hd]
      rw [this, hg, if_pos ha, Nat.add_comm (L.global a), Nat.add_sub_assoc hi, Nat.mul_add, Nat.mul_comm w]
      omega
    rw [h1, ← ht, if_pos ha, if_pos ha]
    have := Nat.lt_div_mul_add (a := f.2 * ONE) (b := t) (by omega)
    rw [Nat.mul_comm ONE]
    omega
  · have h1 : L'.owed eff a = L.owed eff a := by
      unfold owed
      refine Map.sum_congr (fun u w _ => ?_)
      unfold share at_
      rw [hd, hg, if_neg ha]
      rfl
    rw [if_neg ha, if_neg ha]
    omega

theorem distribute_fold_ge {t : Nat} {eff : Map Addr Nat} (ht : t = eff.sum (fun _ w => w)) (a : Nat) :
    ∀ (l : List (Nat × Nat)) (L L' : Ledger), l.foldlM (distributeOne t) L = .ok L' → L.Ok eff →
    L.owed eff a + ONE * listed a l ≤ L'.owed eff a + count a l * t
  | [], L, L', h, _ => by
    rw [foldlM_nil_ok_iff] at h
    subst h
    simp [listed, count]
  | f :: l, L, L', h, hok => by
    obtain ⟨L1, h1, h2⟩ := foldlM_cons_ok_iff.1 h
    have i := distribute_fold_ge ht a l L1 L' h2 (distribute_Ok h1 hok)
    have h4 := distribute_owed_ge h1 hok ht a
    have h5 : listed a (f :: l) = (if f.1 = a then f.2 else 0) + listed a l := rfl
    rw [h5, Nat.mul_add, count_cons, Nat.add_mul]
    omega

theorem ClaimedAll.owed_ge {L L' : Ledger} {eff : Map Addr Nat} {u : Addr} {w : Nat} {l : List Nat}
    {pays : List (Nat × Nat)} (h : ClaimedAll L L' eff u w l pays) (hw : (eff.get u).getD 0 = w) (b : Nat) :
    L.owed eff b ≤ L'.owed eff b + ONE * Ledger.listed b pays + if b ∈ l then ONE else 0 := by
  have hsh : ∀ v x, ¬ (v = u ∧ b ∈ l) → L'.share v x b = L.share v x b := by
    intro v x hv
    unfold Ledger.share at_
    rw [global_congr h.idx, h.others v b hv]
  by_cases hb : b ∈ l
  · rw [if_pos hb]
    have h1 := share_lt (h.listed b hb).1
    have h2 := sum_change eff (fun u w => L'.share u w b) (fun u w => L.share u w b) u
      (fun v x hv => hsh v x (fun hx => hv hx.1))
    unfold Ledger.owed
    cases hu : eff.get u with
    | none =>
      rw [hu] at h2
      simp only [Map.contrib_none] at h2
      omega
    | some x =>
      rw [hu] at h2 hw
      have hw : x = w := hw
      subst hw
      simp only [Map.contrib_some] at h2
      omega
  · rw [if_neg hb]
    have : L'.owed eff b = L.owed eff b := by
      unfold Ledger.owed
      exact Map.sum_congr (fun v x _ => hsh v x (fun hx => hb hx.2))
    omega

end Ledger

/-- Settling one user costs less than one unit of each asset. -/
theorem change_ge {s : State} (hc : Core s) {u : Addr} {w t m : Nat} {n c : Ledger} {ws : Map Addr Nat}
    (hn : Ledger.Fresh s.native n u (effective s u)) (hcw : Ledger.Fresh s.cw20 c u (effective s u)) (a : AssetInfo)
    (ho : owedOf s a < ONE * M128) :
    owedOf s a ≤ owedOf { s with
      native := n, cw20 := c, weights := ws, effective := s.effective.set u w, total := t, min := m } a + ONE := by
  have hu : s.effective.get u = some (effective s u) ∨ s.effective.get u = none := by
    unfold effective
    cases s.effective.get u with
    | some x => exact .inl rfl
    | none => exact .inr rfl
  cases a with
  | native d => exact hn.owed_ge hu (amt_exists hc.native ho)
  | cw20 d => exact hcw.owed_ge hu (amt_exists hc.cw20 ho)
  | cw1155 _ _ => exact Nat.zero_le _

theorem updateOne_ge {s s' : State} (hi : Inv s) {p : Addr × Nat} (h : updateOne s p = .ok s') (a : AssetInfo)
    (ho : owedOf s a < ONE * M128) : owedOf s a ≤ owedOf s' a + ONE := by
  unfold updateOne at h
  obtain ⟨x, h1, h⟩ := bind_ok_iff.1 h
  obtain ⟨t1, h2, h⟩ := bind_ok_iff.1 h
  obtain ⟨t, h3, h⟩ := bind_ok_iff.1 h
  obtain ⟨f1, f2⟩ := refresh_ok hi.toCore h1
  cases pure_ok_iff.1 h
  exact change_ge hi.toCore f1 f2 a ho (m := s.min)

theorem updates_ge (a : AssetInfo) : ∀ (l : List (Addr × Nat)) {s s' : State}, Inv s → l.foldlM updateOne s = .ok s' →
    owedOf s a < ONE * M128 → owedOf s a ≤ owedOf s' a + ONE * l.length
  | [], s, s', hi, h, _ => by
    rw [foldlM_nil_ok_iff] at h
    subst h
    simp
  | p :: l, s, s', hi, h, ho => by
    obtain ⟨s1, h1, h2⟩ := foldlM_cons_ok_iff.1 h
    obtain ⟨i1, q1, _, _⟩ := updateOne_ok hi h1
    have h3 := updateOne_ge hi h1 a ho
    have h4 := updates_ge a l i1 h2 (lt_of_le_of_lt (q1.owed a) ho)
    rw [List.length_cons, Nat.mul_add, Nat.mul_one, ← Nat.add_assoc]
    exact Nat.le_trans h3 (Nat.add_le_add_right h4 _)

theorem minOne_ge {b : Bool} {s s' : State} (hc : Core s) {p : Addr × Nat} (h : minOne b s p = .ok s') (a : AssetInfo)
    (ho : owedOf s a < ONE * M128) : owedOf s a ≤ owedOf s' a + ONE := by
  unfold minOne at h
  obtain ⟨n, h1, h⟩ := bind_ok_iff.1 h
  obtain ⟨c, h2, h⟩ := bind_ok_iff.1 h
  obtain ⟨t1, h3, h⟩ := bind_ok_iff.1 h
  obtain ⟨t, h4, h⟩ := bind_ok_iff.1 h
  cases pure_ok_iff.1 h
  exact change_ge hc (Ledger.fresh_settle hc.native h1) (Ledger.fresh_settle hc.cw20 h2) a ho (m := s.min)
    (ws := s.weights)

theorem mins_ge {b : Bool} (a : AssetInfo) : ∀ (l : List (Addr × Nat)) {s s' : State}, Core s →
    l.foldlM (minOne b) s = .ok s' → owedOf s a < ONE * M128 → owedOf s a ≤ owedOf s' a + ONE * l.length
  | [], s, s', hc, h, _ => by
    rw [foldlM_nil_ok_iff] at h
    subst h
    simp
  | p :: l, s, s', hc, h, ho => by
    obtain ⟨s1, h1, h2⟩ := foldlM_cons_ok_iff.1 h
    obtain ⟨q1, _, _, _⟩ := minOne_ok hc h1
    have h3 := minOne_ge hc h1 a ho
    have h4 := mins_ge a l q1.core h2 (lt_of_le_of_lt (q1.owed a) ho)
    rw [List.length_cons, Nat.mul_add, Nat.mul_one, ← Nat.add_assoc]
    exact Nat.le_trans h3 (Nat.add_le_add_right h4 _)

theorem affected_eq (s : State) (m : Nat) :
    affected s s.min m = s.weights.entries.filter (fun p => decide (s.min ≤ p.2) != decide (m ≤ p.2)) := by
  unfold affected
  refine List.filter_congr (fun p _ => ?_)
  by_cases h : s.min < m
  · rw [if_pos h]
    by_cases h1 : s.min ≤ p.2 <;> by_cases h2 : m ≤ p.2 <;> simp [h1, h2] <;> omega
  · rw [if_neg h]
    by_cases h1 : s.min ≤ p.2 <;> by_cases h2 : m ≤ p.2 <;> simp [h1, h2] <;> omega

/-- What an accepted message does not pay remains owed, up to its rounding loss. -/
theorem exec_ge {s : State} (hi : Inv s) {e : Env} {m : Msg} {x : State × List Out} (h : exec s e m = .ok x)
    (a : AssetInfo) (ho : owedOf s a < ONE * M128) (h1155 : ∀ c i, a ≠ .cw1155 c i) :
    owedOf s a + ONE * fundsOf e m a ≤ owedOf x.1 a + ONE * paidAll a x.2 + loss s e a m := by
  have hnil : paidAll a [] = 0 := rfl
  have hone : ONE = 10 ^ 18 := rfl
  cases m with
  | updateWeights l =>
    simp only [exec] at h
    obtain ⟨s', h1, h⟩ := bind_ok_iff.1 h
    cases pure_ok_iff.1 h
    unfold updateWeights at h1
    obtain ⟨_, h1⟩ := ite_ok_iff.1 h1
    have h2 := updates_ge a l hi h1 ho
    have hf : fundsOf e (.updateWeights l) a = 0 := by cases a <;> rfl
    rw [hf]
    simp only [hnil, loss, ← hone]
    omega
  | updateMin n =>
    simp only [exec] at h
    obtain ⟨s', h1, h⟩ := bind_ok_iff.1 h
    cases pure_ok_iff.1 h
    have hf : fundsOf e (.updateMin n) a = 0 := by cases a <;> rfl
    rw [hf]
    simp only [hnil, loss, ← hone, ← affected_eq]
    unfold updateMin at h1
    obtain ⟨hs, h1⟩ := ite_ok_iff.1 h1
    by_cases hm : s.min = n
    · rw [if_pos hm] at h1
      cases h1
      omega
    · rw [if_neg hm] at h1
      obtain ⟨s1, h2, h3⟩ := bind_ok_iff.1 h1
      have h3 := pure_ok_iff.1 h3
      rw [← h3]
      have h4 := mins_ge a _ hi.toCore h2 ho
      have h5 : owedOf { s1 with min := n } a = owedOf s1 a := by cases a <;> rfl
      rw [h5]
      omega
  | distributeNative l =>
    simp only [exec] at h
    obtain ⟨s', h1, h⟩ := bind_ok_iff.1 h
    cases pure_ok_iff.1 h
    obtain ⟨_, _, n, h2, rfl⟩ := distributeNative_ok_iff.1 h1
    simp only [hnil]
    cases a with
    | native d =>
      have h3 := Ledger.distribute_fold_ge hi.total d _ _ _ h2 hi.native
      have hf : fundsOf e (.distributeNative l) (.native d) = Ledger.listed d l := sum_native l d
      rw [hf]
      have hc : (l.filter (fun f => decide (AssetInfo.native f.1 = AssetInfo.native d))).length = Ledger.count d l := by
        unfold Ledger.count
        congr 1
        refine List.filter_congr (fun f _ => ?_)
        simp only [AssetInfo.native.injEq]
      have hlo : loss s e (.native d) (.distributeNative l) = Ledger.count d l * s.total := by
        rw [← hc, Nat.mul_comm]
        rfl
      rw [hlo]
      exact h3
    | cw20 d =>
      have hf : fundsOf e (.distributeNative l) (.cw20 d) = 0 := by
        show (l.map (fun f => if AssetInfo.native f.1 = AssetInfo.cw20 d then f.2 else 0)).sum = 0
        refine sum_zero_of (fun y hy => ?_)
        obtain ⟨f, _, rfl⟩ := List.mem_map.1 hy
        rfl
      rw [hf]
      exact Nat.le_trans (Nat.le_add_right _ _) (Nat.le_add_right _ _)
    | cw1155 c i => exact absurd rfl (h1155 c i)
  | claim u l t =>
    obtain ⟨_, _, he⟩ := claim_effect hi.toCore h
    obtain ⟨_, _, _, h4, _⟩ := he.frame
    obtain ⟨pn, pc, hout, cn, cc⟩ := he.pays
    have hf : fundsOf e (.claim u l t) a = 0 := by cases a <;> rfl
    rw [hf, hout]
    unfold loss
    cases a with
    | native d =>
      have h5 := cn.owed_ge rfl d
      rw [paidAll_native]
      unfold owedOf
      rw [h4]
      have hmem : AssetInfo.native d ∈ l.map AssetInfo.native ++ t.map AssetInfo.cw20 ↔ d ∈ l := by simp
      simp only [hmem]
      simp only [hone] at h5 ⊢
      exact h5
    | cw20 d =>
      have h5 := cc.owed_ge rfl d
      rw [paidAll_cw20]
      unfold owedOf
      rw [h4]
      have hmem : AssetInfo.cw20 d ∈ l.map AssetInfo.native ++ t.map AssetInfo.cw20 ↔ d ∈ t := by simp
      simp only [hmem]
      simp only [hone] at h5 ⊢
      exact h5
    | cw1155 x i => exact absurd rfl (h1155 x i)
  | receiveCw20 k n =>
    simp only [exec] at h
    obtain ⟨s', h1, h⟩ := bind_ok_iff.1 h
    cases pure_ok_iff.1 h
    obtain ⟨_, _, _, c, h2, rfl⟩ := receiveCw20_ok_iff.1 h1
    simp only [hnil]
    cases a with
    | native d => exact Nat.le_trans (Nat.le_add_right _ _) (Nat.le_add_right _ _)
    | cw20 d =>
      have h3 := Ledger.distribute_owed_ge h2 hi.cw20 hi.total d
      have hf : fundsOf e (.receiveCw20 k n) (.cw20 d) = if e.sender = d then n else 0 := by
        show (if AssetInfo.cw20 e.sender = AssetInfo.cw20 d then n else 0) = _
        simp only [AssetInfo.cw20.injEq]
      rw [hf]
      unfold loss
      simp only [AssetInfo.cw20.injEq]
      by_cases hd : e.sender = d
      · simp only [if_pos hd] at h3 ⊢
        rw [Nat.one_mul] at h3
        exact h3
      · simp only [if_neg hd] at h3 ⊢
        rw [Nat.zero_mul] at h3
        exact h3
    | cw1155 c i => exact absurd rfl (h1155 c i)

theorem run_ge (a : AssetInfo) (h1155 : ∀ c i, a ≠ .cw1155 c i) : ∀ (h : List Call) {s : State}, Inv s →
    owedOf s a + ONE * distributed a s h < ONE * M128 →
    owedOf s a + ONE * distributed a s h ≤ owedOf (run s h) a + ONE * claimedAll a s h + losses a s h
  | [], s, _, _ => Nat.le_refl _
  | c :: t, s, hi, hb => by
    obtain ⟨i1, _, o1⟩ := step_inv hi c
    have o1 := o1 a
    have hd : distributed a s (c :: t) =
      (if accepted s c then funds c a else 0) + distributed a (step s c).1 t := rfl
    have hc : claimedAll a s (c :: t) = paidAll a (step s c).2 + claimedAll a (step s c).1 t := rfl
    have hl : losses a s (c :: t) =
      (if accepted s c then loss s c.env a c.msg else 0) + losses a (step s c).1 t := rfl
    have hr : run s (c :: t) = run (step s c).1 t := rfl
    rw [hd, Nat.mul_add] at hb
    have h2 := run_ge a h1155 t i1 (by omega)
    rw [hd, hc, hl, hr, Nat.mul_add, Nat.mul_add]
    have h3 : owedOf s a + ONE * (if accepted s c then funds c a else 0) ≤
        owedOf (step s c).1 a + ONE * paidAll a (step s c).2 + (if accepted s c then loss s c.env a c.msg else 0) := by
      rcases step_cases s c with ⟨x, hx, _, he, hacc⟩ | ⟨he, hacc⟩
      · rw [he, if_pos hacc, if_pos hacc, ← funds_eq]
        exact exec_ge hi hx a (by omega) h1155
      · rw [he, if_neg hacc, if_neg hacc]
        exact Nat.le_add_right _ _
    omega

/-! ### From all the users to a list that has them all -/

theorem sum_le_list {f : Addr → Nat → Nat} : ∀ (l : List (Addr × Nat)) (us : List Addr) (g : Addr → Nat),
    (l.map (·.1)).Nodup → (∀ p ∈ l, p.1 ∈ us) → (∀ p ∈ l, f p.1 p.2 ≤ g p.1) →
    (l.map (fun p => f p.1 p.2)).sum ≤ (us.map g).sum
  | [], us, g, _, _, _ => Nat.zero_le _
  | p :: l, us, g, hn, hm, hg => by
    rw [List.map_cons, List.nodup_cons] at hn
    have hp : p.1 ∈ us := hm p List.mem_cons_self
    have h1 : (us.map g).sum = ((p.1 :: us.erase p.1).map g).sum := ((List.perm_cons_erase hp).map g).sum_nat
    have h2 := sum_le_list l (us.erase p.1) g hn.2
      (fun q hq => by
        refine (List.mem_erase_of_ne ?_).2 (hm q (List.mem_cons_of_mem _ hq))
        intro he
        exact hn.1 (List.mem_map.2 ⟨q, hq, he⟩))
      (fun q hq => hg q (List.mem_cons_of_mem _ hq))
    have h3 := hg p List.mem_cons_self
    rw [h1]
    simp only [List.map_cons, List.sum_cons]
    omega

theorem owed_le_claimable {s : State} (hi : Inv s) (us : List Addr) (hus : ∀ u, s.weights.has u = true → u ∈ us)
    (a : AssetInfo) (ho : owedOf s a < ONE * M128) :
    owedOf s a ≤ ONE * (us.map (fun u => claimable s u a)).sum + ONE * us.length := by
  have hmul : ∀ (l : List Addr) (f : Addr → Nat), ONE * (l.map f).sum + ONE * l.length =
      (l.map (fun u => ONE * f u + ONE)).sum := by
    intro l f
    induction l with
    | nil => rfl
    | cons u l ih =>
      simp only [List.map_cons, List.sum_cons, Nat.mul_add, List.length_cons, Nat.mul_succ, ← ih]
      omega
  have hin : ∀ p ∈ s.effective.entries, p.1 ∈ us := by
    intro p hp
    refine hus p.1 ?_
    have h1 : s.effective.get p.1 = some p.2 := Map.get_eq_some_iff.2 hp
    rw [hi.eff] at h1
    cases hw : s.weights.get p.1 with
    | none => rw [hw] at h1; cases h1
    | some x => exact Map.has_iff.2 ⟨x, hw⟩
  rw [hmul]
  have key : ∀ (L : Ledger) (d : Nat), L.Ok s.effective → L.owed s.effective d < ONE * M128 →
      L.owed s.effective d ≤ (us.map (fun u => ONE * amount (L.amt u (effective s u) d) + ONE)).sum := by
    intro L d hok hlt
    unfold Ledger.owed Map.sum
    refine sum_le_list (f := fun u w => L.share u w d) s.effective.entries us _ s.effective.nodup_keys hin
      (fun p hp => ?_)
    have hw : effective s p.1 = p.2 := by
      unfold effective
      rw [Map.get_eq_some_iff.2 hp]
      rfl
    obtain ⟨r, hr⟩ := amt_exists hok (u := p.1) hlt
    have h1 := Ledger.share_lt hr
    have h2 : L.amt p.1 (effective s p.1) d = .ok r := hr
    rw [h2]
    have hw' : (s.effective.get p.1).getD 0 = p.2 := hw
    rw [hw'] at h1
    exact Nat.le_of_lt h1
  cases a with
  | native d =>
    refine Nat.le_trans (key s.native d hi.native ho) (Nat.le_of_eq ?_)
    congr 1
    exact List.map_congr_left (fun u _ => by rw [claimable_native])
  | cw20 d =>
    refine Nat.le_trans (key s.cw20 d hi.cw20 ho) (Nat.le_of_eq ?_)
    congr 1
    exact List.map_congr_left (fun u _ => by rw [claimable_cw20])
  | cw1155 _ _ => exact Nat.zero_le _

theorem has_foldl {u : Addr} : ∀ (l : List (Addr × Nat)) (m : Map Addr Nat), m.has u = true →
    (l.foldl (fun m p => m.set p.1 p.2) m).has u = true
  | [], _, h => h
  | p :: l, m, h => has_foldl l (m.set p.1 p.2) (by rw [Map.has_set, h]; simp)

/-- Users once known stay known. -/
theorem step_known {s : State} (hi : Inv s) (c : Call) {u : Addr} (hu : s.weights.has u = true) :
    (step s c).1.weights.has u = true := by
  rcases step_cases s c with ⟨x, hx, _, he, _⟩ | ⟨he, _⟩
  · rw [he]
    cases hm : c.msg with
    | updateWeights l =>
      rw [hm] at hx
      simp only [exec] at hx
      obtain ⟨s', h1, h⟩ := bind_ok_iff.1 hx
      cases pure_ok_iff.1 h
      unfold updateWeights at h1
      obtain ⟨_, h1⟩ := ite_ok_iff.1 h1
      obtain ⟨_, _, hw⟩ := updates_ok l hi h1
      show s'.weights.has u = true
      rw [hw]
      exact has_foldl l _ hu
    | updateMin n =>
      rw [hm] at hx
      simp only [exec] at hx
      obtain ⟨s', h1, h⟩ := bind_ok_iff.1 hx
      cases pure_ok_iff.1 h
      obtain ⟨_, _, _, hw, _⟩ := updateMin_ok hi h1
      show s'.weights.has u = true
      rw [hw]
      exact hu
    | distributeNative l =>
      rw [hm] at hx
      simp only [exec] at hx
      obtain ⟨s', h1, h⟩ := bind_ok_iff.1 hx
      cases pure_ok_iff.1 h
      obtain ⟨_, _, n, _, rfl⟩ := distributeNative_ok_iff.1 h1
      exact hu
    | receiveCw20 k n =>
      rw [hm] at hx
      simp only [exec] at hx
      obtain ⟨s', h1, h⟩ := bind_ok_iff.1 hx
      cases pure_ok_iff.1 h
      obtain ⟨_, _, _, n, _, rfl⟩ := receiveCw20_ok_iff.1 h1
      exact hu
    | claim v l t =>
      rw [hm] at hx
      obtain ⟨_, _, ef⟩ := claim_effect hi.toCore hx
      rw [ef.frame.2.2.1]
      exact hu
  · rw [he]
    exact hu

theorem run_known {u : Addr} : ∀ (h : List Call) {s : State}, Inv s → s.weights.has u = true →
    (run s h).weights.has u = true
  | [], _, _, hu => hu
  | c :: t, _, hi, hu => run_known t (step_inv hi c).1 (step_known hi c hu)

/-- Only known users are paid. -/
theorem paid_known {s : State} (hi : Inv s) (c : Call) {o : Out} (ho : o ∈ (step s c).2) :
    s.weights.has o.to = true := by
  have hknown : ∀ u, s.effective.get u ≠ none → s.weights.has u = true := by
    intro u hu
    rw [hi.eff] at hu
    cases hw : s.weights.get u with
    | none => rw [hw] at hu; exact absurd rfl hu
    | some x => exact Map.has_iff.2 ⟨x, hw⟩
  have key : ∀ (L L' : Ledger) (u : Addr) (l : List Nat) (pays : List (Nat × Nat)), L.Ok s.effective →
      Ledger.ClaimedAll L L' s.effective u (effective s u) l pays → ∀ p ∈ pays, s.weights.has u = true := by
    intro L L' u l pays hok hc p hp
    refine hknown u (fun hn => ?_)
    have h1 := le_listed (a := p.1) (n := p.2) hp
    have h2 := hc.nonzero p hp
    by_cases hl : p.1 ∈ l
    · have h3 := amount_le_contrib hok u p.1
      have h4 : L.amt u ((s.effective.get u).getD 0) p.1 = .ok (Ledger.listed p.1 pays) := (hc.listed p.1 hl).1
      rw [h4, hn, Map.contrib_none] at h3
      have h5 : ONE * Ledger.listed p.1 pays ≤ 0 := h3
      have hpos : 0 < ONE := by decide
      have := Nat.mul_pos hpos (show 0 < Ledger.listed p.1 pays by omega)
      omega
    · have := hc.unlisted p.1 hl
      omega
  rcases step_cases s c with ⟨x, hx, _, he, _⟩ | ⟨he, _⟩
  · rw [he] at ho
    cases hm : c.msg with
    | claim v l t =>
      rw [hm] at hx
      obtain ⟨_, _, ef⟩ := claim_effect hi.toCore hx
      obtain ⟨pn, pc, hout, cn, cc⟩ := ef.pays
      rw [hout] at ho
      unfold payMsgs at ho
      rcases List.mem_append.1 ho with h | h
      · obtain ⟨p, hp, rfl⟩ := List.mem_map.1 h
        exact key _ _ _ _ _ hi.native cn p hp
      · obtain ⟨p, hp, rfl⟩ := List.mem_map.1 h
        exact key _ _ _ _ _ hi.cw20 cc p hp
    | _ =>
      have := C41_only_claims_pay s c (by rw [hm]; intros; simp)
      rw [he] at this
      rw [this] at ho
      cases ho
  · rw [he] at ho
    cases ho

theorem paidAll_le {a : AssetInfo} {us : List Addr} : ∀ (outs : List Out), (∀ o ∈ outs, o.to ∈ us) →
    paidAll a outs ≤ (us.map (fun u => paid u a outs)).sum
  | [], _ => Nat.zero_le _
  | o :: t, h => by
    have ih := paidAll_le (a := a) t (fun o ho => h o (List.mem_cons_of_mem _ ho))
    have hsplit : ∀ (l : List Addr), (l.map (fun u => paid u a (o :: t))).sum =
        (l.map (fun u => if o.to = u ∧ o.asset = a then o.amount else 0)).sum + (l.map (fun u => paid u a t)).sum := by
      intro l
      induction l with
      | nil => rfl
      | cons u l ih =>
        simp only [List.map_cons, List.sum_cons]
        rw [ih]
        have : paid u a (o :: t) = (if o.to = u ∧ o.asset = a then o.amount else 0) + paid u a t := rfl
        omega
    have hone : ∀ (l : List Addr), o.to ∈ l → (if o.asset = a then o.amount else 0) ≤
        (l.map (fun u => if o.to = u ∧ o.asset = a then o.amount else 0)).sum := by
      intro l hl
      induction l with
      | nil => cases hl
      | cons u l ih =>
        rw [List.map_cons, List.sum_cons]
        rcases List.mem_cons.1 hl with rfl | hl
        · simp only [true_and]
          exact Nat.le_add_right _ _
        · exact Nat.le_trans (ih hl) (Nat.le_add_left _ _)
    have h1 : paidAll a (o :: t) = (if o.asset = a then o.amount else 0) + paidAll a t := rfl
    have h2 := hone us (h o List.mem_cons_self)
    rw [hsplit, h1]
    omega

theorem claimedAll_le (a : AssetInfo) (us : List Addr) : ∀ (h : List Call) {s : State}, Inv s →
    (∀ u, (run s h).weights.has u = true → u ∈ us) →
    claimedAll a s h ≤ (us.map (fun u => claimed u a s h)).sum
  | [], _, _, _ => Nat.zero_le _
  | c :: t, s, hi, hus => by
    have i1 := (step_inv hi c).1
    have ih := claimedAll_le a us t i1 hus
    have hp := paidAll_le (a := a) (us := us) (step s c).2
      (fun o ho => hus _ (run_known t i1 (step_known hi c (paid_known hi c ho))))
    have hsplit : ∀ (l : List Addr), (l.map (fun u => claimed u a s (c :: t))).sum =
        (l.map (fun u => paid u a (step s c).2)).sum + (l.map (fun u => claimed u a (step s c).1 t)).sum := by
      intro l
      induction l with
      | nil => rfl
      | cons u l ih =>
        simp only [List.map_cons, List.sum_cons]
        rw [ih]
        have : claimed u a s (c :: t) = paid u a (step s c).2 + claimed u a (step s c).1 t := rfl
        omega
    rw [hsplit]
    have : claimedAll a s (c :: t) = paidAll a (step s c).2 + claimedAll a (step s c).1 t := rfl
    omega

end Verif.Distributor
