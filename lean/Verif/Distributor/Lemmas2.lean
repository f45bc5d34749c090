import Verif.Distributor.Lemmas

set_option linter.unusedSimpArgs false

/-!
# Funds distributor: helper lemmas on states and histories
-/

namespace Verif.Distributor
open Verif

/-- The total counts the effective weights and the ledgers are in order. -/
structure Core (s : State) : Prop where
  total : s.total = s.effective.sum (fun _ w => w)
  native : s.native.Ok s.effective
  cw20 : s.cw20.Ok s.effective

/-- Invariant of the distributor. -/
structure Inv (s : State) : Prop extends Core s where
  eff : ∀ u, s.effective.get u = (s.weights.get u).map (fun w => effWeight w s.min)

/-- 10^18 times the unrounded amount due of an asset. -/
def owedOf (s : State) : AssetInfo → Nat
  | .native d => s.native.owed s.effective d
  | .cw20 t => s.cw20.owed s.effective t
  | .cw1155 _ _ => 0

/-- Nobody's rewards are changed. -/
structure Quiet (s s' : State) : Prop where
  core : Core s'
  native : ∀ v a, s'.native.amt v (effective s' v) a = s.native.amt v (effective s v) a
  cw20 : ∀ v a, s'.cw20.amt v (effective s' v) a = s.cw20.amt v (effective s v) a
  owed : ∀ a, owedOf s' a ≤ owedOf s a
  min : s'.min = s.min
  admin : s'.admin = s.admin

theorem Quiet.refl {s : State} (h : Core s) : Quiet s s :=
  ⟨h, fun _ _ => rfl, fun _ _ => rfl, fun _ => le_refl _, rfl, rfl⟩

theorem Quiet.trans {a b c : State} (h1 : Quiet a b) (h2 : Quiet b c) : Quiet a c :=
  ⟨h2.core, fun v x => (h2.native v x).trans (h1.native v x), fun v x => (h2.cw20 v x).trans (h1.cw20 v x),
    fun x => le_trans (h2.owed x) (h1.owed x), h2.min.trans h1.min, h2.admin.trans h1.admin⟩

theorem query_congr {s s' : State} (hn : ∀ a, s'.native.amt v (effective s' v) a = s.native.amt v (effective s v) a)
    (hc : ∀ a, s'.cw20.amt v (effective s' v) a = s.cw20.amt v (effective s v) a) (l m : List Nat) :
    queryRewards s' v l m = queryRewards s v l m := by
  unfold queryRewards
  have h1 := Ledger.rewards_congr hn l []
  have h2 := Ledger.rewards_congr hc m []
  unfold effective at h1 h2
  simp only [h1, h2]

theorem Quiet.query {s s' : State} (h : Quiet s s') (v : Addr) (l m : List Nat) :
    queryRewards s' v l m = queryRewards s v l m := query_congr (h.native v) (h.cw20 v) l m

/-- Amount of the ledger, zero in case of an error. -/
def amount : Except Err Nat → Nat
  | .ok n => n
  | .error _ => 0

theorem claimable_native (s : State) (u : Addr) (d : Nat) :
    claimable s u (.native d) = amount (s.native.amt u (effective s u) d) := by
  unfold claimable queryRewards effective Ledger.rewards Ledger.amt
  simp only [List.not_mem_nil, if_false]
  unfold Ledger.rewards
  cases h : reward (s.native.global d) (s.native.dist.get (toLex (u, d))) ((s.effective.get u).getD 0) <;> rfl

theorem claimable_cw20 (s : State) (u : Addr) (d : Nat) :
    claimable s u (.cw20 d) = amount (s.cw20.amt u (effective s u) d) := by
  unfold claimable queryRewards effective Ledger.rewards Ledger.amt
  simp only [List.not_mem_nil, if_false]
  unfold Ledger.rewards
  cases h : reward (s.cw20.global d) (s.cw20.dist.get (toLex (u, d))) ((s.effective.get u).getD 0) <;> rfl

theorem Quiet.claimable {s s' : State} (h : Quiet s s') (v : Addr) (a : AssetInfo) :
    claimable s' v a = claimable s v a := by
  cases a with
  | native d => rw [claimable_native, claimable_native, h.native]
  | cw20 d => rw [claimable_cw20, claimable_cw20, h.cw20]
  | cw1155 _ _ => rfl

theorem effective_set (s : State) (u v : Addr) (w : Nat) :
    ((s.effective.set u w).get v).getD 0 = if u = v then w else effective s v := by
  rw [Map.get_set]
  unfold effective
  by_cases h : u = v <;> simp [h]

theorem total_change {s : State} (hc : Core s) {u : Addr} {w t1 t : Nat}
    (h1 : csub s.total ((s.effective.get u).getD 0) = .ok t1) (h2 : cadd128 t1 w = .ok t) :
    t = (s.effective.set u w).sum (fun _ w => w) ∧ t < M128 := by
  obtain ⟨h3, rfl⟩ := csub_ok.1 h1
  obtain ⟨h4, rfl⟩ := cadd128_ok.1 h2
  refine ⟨?_, h4⟩
  have h5 := Map.sum_set s.effective (fun _ w => w) u w
  have h6 : Map.contrib (fun _ w => w) u (s.effective.get u) = (s.effective.get u).getD 0 := by
    cases s.effective.get u <;> rfl
  have := hc.total
  omega

theorem total_change_exists {s : State} (hc : Core s) {u : Addr} {w : Nat} (h : s.total + w < M128) :
    ∃ t1 t, csub s.total ((s.effective.get u).getD 0) = .ok t1 ∧ cadd128 t1 w = .ok t ∧ t ≤ s.total + w := by
  have h6 : Map.contrib (fun _ w => w) u (s.effective.get u) = (s.effective.get u).getD 0 := by
    cases s.effective.get u <;> rfl
  have h5 := Map.contrib_le_sum s.effective (fun _ w => w) u
  have := hc.total
  exact ⟨_, _, csub_ok.2 ⟨by omega, rfl⟩, cadd128_ok.2 ⟨by omega, rfl⟩, by omega⟩

/-- Change of one user's effective weight after settling. -/
theorem change_quiet {s : State} (hc : Core s) {u : Addr} {w t : Nat} {n c : Ledger} {ws : Map Addr Nat}
    (hn : Ledger.Fresh s.native n u (effective s u)) (hcw : Ledger.Fresh s.cw20 c u (effective s u))
    (ht : t = (s.effective.set u w).sum (fun _ w => w)) :
    Quiet s { s with native := n, cw20 := c, weights := ws, effective := s.effective.set u w, total := t } := by
  have hdist : ∀ (L : Ledger), L.Ok s.effective → s.effective.get u = some (effective s u) ∨
      (s.effective.get u = none ∧ effective s u = 0 ∧ ∀ a, L.dist.get (toLex (u, a)) = none) := by
    intro L hL
    unfold effective
    cases hu : s.effective.get u with
    | some x => exact .inl rfl
    | none =>
      refine .inr ⟨rfl, rfl, fun a => ?_⟩
      cases hd : L.dist.get (toLex (u, a)) with
      | none => rfl
      | some d =>
        obtain ⟨x, hx⟩ := Map.has_iff.1 (hL u a d hd).2.1
        rw [hu] at hx
        cases hx
  refine ⟨⟨ht, hn.ok hc.native, hcw.ok hc.cw20⟩, fun v a => ?_, fun v a => ?_, fun a => ?_, rfl, rfl⟩
  · show n.amt v (((s.effective.set u w).get v).getD 0) a = _
    rw [effective_set]
    by_cases hv : u = v
    · subst hv
      rw [if_pos rfl]
      exact hn.same w a
    · rw [if_neg hv]
      exact hn.amt_other (fun h => hv h.symm) _ a
  · show c.amt v (((s.effective.set u w).get v).getD 0) a = _
    rw [effective_set]
    by_cases hv : u = v
    · subst hv
      rw [if_pos rfl]
      exact hcw.same w a
    · rw [if_neg hv]
      exact hcw.amt_other (fun h => hv h.symm) _ a
  · cases a with
    | native d => exact hn.owed (hdist _ hc.native) d
    | cw20 d => exact hcw.owed (hdist _ hc.cw20) d
    | cw1155 _ _ => exact le_refl _

theorem refresh_ok {s : State} (hc : Core s) {u : Addr} {x : Ledger × Ledger} (h : refresh s u = .ok x) :
    Ledger.Fresh s.native x.1 u (effective s u) ∧ Ledger.Fresh s.cw20 x.2 u (effective s u) := by
  unfold refresh at h
  unfold effective
  cases hu : s.effective.get u with
  | none =>
    rw [hu] at h
    cases h
    exact ⟨Ledger.fresh_init hc.native hu, Ledger.fresh_init hc.cw20 hu⟩
  | some w =>
    rw [hu] at h
    obtain ⟨n, h1, h⟩ := bind_ok_iff.1 h
    obtain ⟨c, h2, h⟩ := bind_ok_iff.1 h
    cases h
    exact ⟨Ledger.fresh_settle hc.native h1, Ledger.fresh_settle hc.cw20 h2⟩

theorem updateOne_ok {s s' : State} (hi : Inv s) {p : Addr × Nat} (h : updateOne s p = .ok s') :
    Inv s' ∧ Quiet s s' ∧ s'.weights = s.weights.set p.1 p.2 ∧ s'.total < M128 := by
  unfold updateOne at h
  obtain ⟨x, h1, h⟩ := bind_ok_iff.1 h
  obtain ⟨t1, h2, h⟩ := bind_ok_iff.1 h
  obtain ⟨t, h3, h⟩ := bind_ok_iff.1 h
  obtain ⟨f1, f2⟩ := refresh_ok hi.toCore h1
  obtain ⟨ht, hlt⟩ := total_change hi.toCore h2 h3
  have hq := change_quiet hi.toCore f1 f2 ht (ws := s.weights.set p.1 p.2)
  have h' := pure_ok_iff.1 h
  subst h'
  refine ⟨⟨hq.core, fun u => ?_⟩, hq, rfl, hlt⟩
  show (s.effective.set p.1 (effWeight p.2 s.min)).get u = ((s.weights.set p.1 p.2).get u).map _
  rw [Map.get_set, Map.get_set]
  by_cases hu : p.1 = u
  · rw [if_pos hu, if_pos hu]; rfl
  · rw [if_neg hu, if_neg hu]; exact hi.eff u

theorem updates_ok : ∀ (l : List (Addr × Nat)) {s s' : State}, Inv s → l.foldlM updateOne s = .ok s' →
    Inv s' ∧ Quiet s s' ∧ s'.weights = l.foldl (fun m p => m.set p.1 p.2) s.weights
  | [], s, s', hi, h => by
    rw [foldlM_nil_ok_iff] at h
    subst h
    exact ⟨hi, Quiet.refl hi.toCore, rfl⟩
  | p :: l, s, s', hi, h => by
    obtain ⟨s1, h1, h2⟩ := foldlM_cons_ok_iff.1 h
    obtain ⟨i1, q1, w1, _⟩ := updateOne_ok hi h1
    obtain ⟨i2, q2, w2⟩ := updates_ok l i1 h2
    exact ⟨i2, q1.trans q2, by rw [w2, w1]; rfl⟩

theorem minOne_ok {b : Bool} {s s' : State} (hc : Core s) {p : Addr × Nat}
    (h : minOne b s p = .ok s') :
    Quiet s s' ∧ s'.weights = s.weights ∧ s'.effective = s.effective.set p.1 (if b then p.2 else 0) ∧
      s'.total < M128 := by
  unfold minOne at h
  obtain ⟨n, h1, h⟩ := bind_ok_iff.1 h
  obtain ⟨c, h2, h⟩ := bind_ok_iff.1 h
  obtain ⟨t1, h3, h⟩ := bind_ok_iff.1 h
  obtain ⟨t, h4, h⟩ := bind_ok_iff.1 h
  obtain ⟨ht, hlt⟩ := total_change hc h3 h4
  have hq := change_quiet hc (Ledger.fresh_settle hc.native h1) (Ledger.fresh_settle hc.cw20 h2) ht (ws := s.weights)
  have h' := pure_ok_iff.1 h
  subst h'
  exact ⟨hq, rfl, rfl, hlt⟩

theorem mins_ok {b : Bool} : ∀ (l : List (Addr × Nat)) {s s' : State}, Core s → (l.map (·.1)).Nodup →
    l.foldlM (minOne b) s = .ok s' →
    Quiet s s' ∧ s'.weights = s.weights ∧
    (∀ p ∈ l, s'.effective.get p.1 = some (if b then p.2 else 0)) ∧
    (∀ u, u ∉ l.map (·.1) → s'.effective.get u = s.effective.get u)
  | [], s, s', hc, _, h => by
    rw [foldlM_nil_ok_iff] at h
    subst h
    exact ⟨Quiet.refl hc, rfl, fun _ h => by simp at h, fun _ _ => rfl⟩
  | p :: l, s, s', hc, hn, h => by
    obtain ⟨s1, h1, h2⟩ := foldlM_cons_ok_iff.1 h
    rw [List.map_cons, List.nodup_cons] at hn
    obtain ⟨q1, w1, e1, _⟩ := minOne_ok hc h1
    obtain ⟨q2, w2, i1, i2⟩ := mins_ok l q1.core hn.2 h2
    refine ⟨q1.trans q2, w2.trans w1, fun p' hp' => ?_, fun u hu => ?_⟩
    · rcases List.mem_cons.1 hp' with rfl | hp'
      · rw [i2 _ hn.1, e1, Map.get_set_self]
      · exact i1 p' hp'
    · rw [List.map_cons, List.mem_cons, not_or] at hu
      rw [i2 u hu.2, e1, Map.get_set_ne _ _ (fun h => hu.1 h.symm)]

theorem affected_iff {s : State} {old new : Nat} {p : Addr × Nat} :
    p ∈ affected s old new ↔ s.weights.get p.1 = some p.2 ∧ (old ≤ p.2 ∧ p.2 < new ∨ new ≤ p.2 ∧ p.2 < old) := by
  unfold affected
  rw [List.mem_filter, Map.get_eq_some_iff]
  by_cases h : old < new
  · simp only [h, if_true, Bool.and_eq_true, decide_eq_true_eq]
    constructor
    · rintro ⟨a, b⟩; exact ⟨a, .inl b⟩
    · rintro ⟨a, b | b⟩
      · exact ⟨a, b⟩
      · omega
  · simp only [h, if_false, Bool.and_eq_true, decide_eq_true_eq]
    constructor
    · rintro ⟨a, b⟩; exact ⟨a, .inr b⟩
    · rintro ⟨a, b | b⟩
      · omega
      · exact ⟨a, b⟩

theorem affected_nodup (s : State) (old new : Nat) : ((affected s old new).map (·.1)).Nodup := by
  refine List.Nodup.sublist ?_ s.weights.nodup_keys
  exact List.Sublist.map _ List.filter_sublist

/-- Rewards do not depend on the minimum. -/
theorem quiet_min {s s' : State} (h : Quiet s s') (m : Nat) :
    Core { s' with min := m } ∧
    (∀ v a, ({ s' with min := m } : State).native.amt v (effective { s' with min := m } v) a =
      s.native.amt v (effective s v) a) ∧
    (∀ v a, ({ s' with min := m } : State).cw20.amt v (effective { s' with min := m } v) a =
      s.cw20.amt v (effective s v) a) ∧
    ∀ a, owedOf { s' with min := m } a ≤ owedOf s a :=
  ⟨⟨h.core.total, h.core.native, h.core.cw20⟩, h.native, h.cw20, fun a => by
    refine le_trans (le_of_eq ?_) (h.owed a)
    cases a <;> rfl⟩

/-- Effect of the change of the minimum. -/
theorem updateMin_ok {s s' : State} (hi : Inv s) {e : Env} {m : Nat} (h : updateMin s e m = .ok s') :
    e.sender = s.admin ∧ Inv s' ∧ s'.min = m ∧ s'.weights = s.weights ∧ s'.admin = s.admin ∧
    (∀ v a, s'.native.amt v (effective s' v) a = s.native.amt v (effective s v) a) ∧
    (∀ v a, s'.cw20.amt v (effective s' v) a = s.cw20.amt v (effective s v) a) ∧
    ∀ a, owedOf s' a ≤ owedOf s a := by
  unfold updateMin at h
  obtain ⟨hs, h⟩ := ite_ok_iff.1 h
  have hs : e.sender = s.admin := by simpa using hs
  by_cases hm : s.min = m
  · rw [if_pos hm] at h
    cases h
    exact ⟨hs, hi, hm, rfl, rfl, fun _ _ => rfl, fun _ _ => rfl, fun _ => le_refl _⟩
  · rw [if_neg hm] at h
    obtain ⟨s1, h1, h⟩ := bind_ok_iff.1 h
    have h' := pure_ok_iff.1 h
    subst h'
    obtain ⟨q, w, i1, i2⟩ := mins_ok _ hi.toCore (affected_nodup s s.min m) h1
    obtain ⟨c1, c2, c3, c4⟩ := quiet_min q m
    refine ⟨hs, ⟨c1, fun u => ?_⟩, rfl, w, q.admin, c2, c3, c4⟩
    show s1.effective.get u = (s1.weights.get u).map (fun w => effWeight w m)
    rw [w]
    by_cases hu : u ∈ (affected s s.min m).map (·.1)
    · obtain ⟨p, hp, rfl⟩ := List.mem_map.1 hu
      rw [i1 p hp]
      obtain ⟨hg, hr⟩ := affected_iff.1 hp
      rw [hg]
      simp only [Option.map_some, Option.some.injEq, effWeight]
      by_cases hlt : s.min > m
      · rw [decide_eq_true hlt, if_pos rfl, if_pos (by omega)]
      · rw [decide_eq_false hlt, if_neg (by simp), if_neg (by omega)]
    · rw [i2 u hu, hi.eff u]
      cases hg : s.weights.get u with
      | none => rfl
      | some x =>
        simp only [Option.map_some, Option.some.injEq, effWeight]
        have : ¬ (s.min ≤ x ∧ x < m ∨ m ≤ x ∧ x < s.min) := fun hr =>
          hu (List.mem_map.2 ⟨(u, x), affected_iff.2 ⟨hg, hr⟩, rfl⟩)
        by_cases h1 : x ≥ s.min
        · rw [if_pos h1, if_pos (by omega)]
        · rw [if_neg h1, if_neg (by omega)]

/-! ### The whitelist -/

theorem whitelistLoop_eq (w : Treasury.Whitelist) : ∀ (n : Nat) (l : List AssetInfo) (a : AssetInfo),
    (Treasury.rest w (some a)).length < n →
    whitelistLoop w n l (some a) = some (l.filter (fun x => decide (x ∉ Treasury.rest w (some a))))
  | 0, _, _, h => by omega
  | n + 1, l, a, h => by
    cases l with
    | nil => rfl
    | cons x t =>
      show whitelistLoop w n ((x :: t).filter (fun y => decide (y ∉ Treasury.queryAssets w (some a) none)))
        (Treasury.queryAssets w (some a) none).getLast? = _
      rw [Treasury.queryAssets_eq]
      have hlim : Treasury.limitOf none = 30 := rfl
      rw [hlim]
      cases hp : ((Treasury.rest w (some a)).take 30).getLast? with
      | none =>
        have h1 : (Treasury.rest w (some a)).take 30 = [] := List.getLast?_eq_none_iff.1 hp
        have h2 : Treasury.rest w (some a) = [] := by
          rcases List.take_eq_nil_iff.1 h1 with h | h
          · cases h
          · exact h
        rw [h2]
        cases hl : ((x :: t).filter (fun y => decide (y ∉ ([] : List AssetInfo).take 30))) with
        | nil => simp at hl
        | cons y l' =>
          have : ∀ (z : AssetInfo) l, whitelistLoop w n (z :: l) none = some (z :: l) := by
            intro z l; cases n <;> rfl
          rw [this, ← hl]
          simp
      | some b =>
        have hb := Treasury.rest_after_page hp
        have hne : (Treasury.rest w (some a)).length ≠ 0 := by
          intro h0
          rw [List.length_eq_zero_iff] at h0
          rw [h0] at hp
          simp at hp
        rw [whitelistLoop_eq w n _ b (by rw [hb, List.length_drop]; omega), List.filter_filter, hb]
        congr 1
        refine List.filter_congr (fun y _ => ?_)
        have : y ∈ Treasury.rest w (some a) ↔
            y ∈ (Treasury.rest w (some a)).take 30 ∨ y ∈ (Treasury.rest w (some a)).drop 30 := by
          rw [← List.mem_append, List.take_append_drop]
        by_cases h1 : y ∈ (Treasury.rest w (some a)).take 30 <;>
          by_cases h2 : y ∈ (Treasury.rest w (some a)).drop 30 <;> simp [h1, h2, this]

theorem length_rest_none (w : Treasury.Whitelist) :
    (Treasury.rest w none).length = w.native.size + w.cw20.size + w.cw1155.size := by
  unfold Treasury.rest Treasury.restNative Treasury.restCw20 Treasury.restCw1155 Map.size
  simp only [afterL_none, List.length_append, List.length_map]

/-- The whitelist check looks at the whole whitelist. -/
theorem whitelisted_iff {e : Env} {l : List AssetInfo} :
    assertWhitelisted e l = .ok () ↔ ∀ a ∈ l, Allowed e a := by
  have key : ∀ l', whitelistLoop e.treasury
      (e.treasury.native.size + e.treasury.cw20.size + e.treasury.cw1155.size) l'
      (Treasury.queryAssets e.treasury none none).getLast? =
      some (l'.filter (fun x => decide (x ∉ (Treasury.rest e.treasury none).drop 30))) := by
    intro l'
    rw [Treasury.queryAssets_eq, ← length_rest_none]
    have hlim : Treasury.limitOf none = 30 := rfl
    rw [hlim]
    cases hp : ((Treasury.rest e.treasury none).take 30).getLast? with
    | none =>
      have h1 : (Treasury.rest e.treasury none).take 30 = [] := List.getLast?_eq_none_iff.1 hp
      have h2 : Treasury.rest e.treasury none = [] := by
        rcases List.take_eq_nil_iff.1 h1 with h | h
        · cases h
        · exact h
      rw [h2]
      cases l' with
      | nil => rfl
      | cons x t =>
        rw [List.filter_eq_self.2 (by simp)]
        rfl
    | some b =>
      have hb := Treasury.rest_after_page hp
      have hne : (Treasury.rest e.treasury none).length ≠ 0 := by
        intro h0
        rw [List.length_eq_zero_iff] at h0
        rw [h0] at hp
        simp at hp
      rw [whitelistLoop_eq _ _ _ b (by rw [hb, List.length_drop]; omega), hb]
  have hmem : ∀ a, Allowed e a ↔ (a ∈ (Treasury.rest e.treasury none).take 30 ∨ a ∈ e.global) ∨
      a ∈ (Treasury.rest e.treasury none).drop 30 := by
    intro a
    unfold Allowed
    rw [← Treasury.mem_rest_none]
    have : a ∈ Treasury.rest e.treasury none ↔
        a ∈ (Treasury.rest e.treasury none).take 30 ∨ a ∈ (Treasury.rest e.treasury none).drop 30 := by
      rw [← List.mem_append, List.take_append_drop]
    tauto
  unfold assertWhitelisted
  simp only [key, List.filter_filter]
  have hf : (l.filter (fun a => decide (a ∉ (Treasury.rest e.treasury none).drop 30) &&
      decide (a ∉ Treasury.queryAssets e.treasury none none ++ e.global))) = [] ↔ ∀ a ∈ l, Allowed e a := by
    rw [List.filter_eq_nil_iff]
    refine forall_congr' (fun a => forall_congr' (fun _ => ?_))
    rw [hmem, Treasury.queryAssets_eq]
    have hlim : Treasury.limitOf none = 30 := rfl
    rw [hlim]
    simp only [Bool.and_eq_true, decide_eq_true_eq, List.mem_append]
    tauto
  rw [← hf]
  split
  · rename_i h
    simp only [Option.some.injEq] at h
    simp only [h]
  · rename_i x hx h
    simp only [Option.some.injEq] at h
    rw [h]
    constructor
    · intro hh; cases hh
    · intro hh; exact absurd (by rw [hh] at hx; exact hx) (by simp_all)
  · rename_i h
    cases h

/-! ### Messages and histories -/

theorem sum_zero_of : ∀ {l : List Nat}, (∀ x ∈ l, x = 0) → l.sum = 0
  | [], _ => rfl
  | x :: l, h => by
    rw [List.sum_cons, h x List.mem_cons_self, sum_zero_of (fun y hy => h y (List.mem_cons_of_mem _ hy))]

/-- Amount of an asset that the messages pay to anyone. -/
def paidAll (a : AssetInfo) (outs : List Out) : Nat := (outs.map (fun o => if o.asset = a then o.amount else 0)).sum

/-- Amount of an asset handed over by a message. -/
def fundsOf (e : Env) (m : Msg) (a : AssetInfo) : Nat := funds ⟨e, m, true⟩ a

theorem sum_native (l : List (Nat × Nat)) (d : Nat) :
    (l.map (fun f => if AssetInfo.native f.1 = AssetInfo.native d then f.2 else 0)).sum = Ledger.listed d l := by
  unfold Ledger.listed
  simp only [AssetInfo.native.injEq]

theorem distributeNative_ok_iff {s s' : State} {e : Env} {l : List (Nat × Nat)} :
    distributeNative s e l = .ok s' ↔ (∀ f ∈ l, Allowed e (.native f.1)) ∧ s.total ≠ 0 ∧
      ∃ n, l.foldlM (Ledger.distributeOne s.total) s.native = .ok n ∧ s' = { s with native := n } := by
  unfold distributeNative
  rw [bind_ok_iff]
  constructor
  · rintro ⟨⟨⟩, h1, h⟩
    obtain ⟨h2, h⟩ := ite_ok_iff.1 h
    obtain ⟨n, h3, h⟩ := bind_ok_iff.1 h
    refine ⟨fun f hf => whitelisted_iff.1 h1 _ (List.mem_map.2 ⟨f, hf, rfl⟩), h2, n, h3, (pure_ok_iff.1 h).symm⟩
  · rintro ⟨h1, h2, n, h3, rfl⟩
    refine ⟨(), whitelisted_iff.2 (fun a ha => ?_), ite_ok_iff.2 ⟨h2, bind_ok_iff.2 ⟨n, h3, rfl⟩⟩⟩
    obtain ⟨f, hf, rfl⟩ := List.mem_map.1 ha
    exact h1 f hf

theorem receiveCw20_ok_iff {s s' : State} {e : Env} {k : Bool} {n : Nat} :
    receiveCw20 s e k n = .ok s' ↔ k = true ∧ Allowed e (.cw20 e.sender) ∧ s.total ≠ 0 ∧
      ∃ c, s.cw20.distributeOne s.total (e.sender, n) = .ok c ∧ s' = { s with cw20 := c } := by
  unfold receiveCw20
  rw [ite_ok_iff, bind_ok_iff]
  constructor
  · rintro ⟨h0, ⟨⟩, h1, h⟩
    obtain ⟨h2, h⟩ := ite_ok_iff.1 h
    obtain ⟨c, h3, h⟩ := bind_ok_iff.1 h
    exact ⟨by simpa using h0, whitelisted_iff.1 h1 _ (by simp), h2, c, h3, (pure_ok_iff.1 h).symm⟩
  · rintro ⟨h0, h1, h2, c, h3, rfl⟩
    refine ⟨by simp [h0], (), whitelisted_iff.2 (fun a ha => ?_), ite_ok_iff.2 ⟨h2, bind_ok_iff.2 ⟨c, h3, rfl⟩⟩⟩
    rw [List.mem_singleton] at ha
    rw [ha]
    exact h1

/-- Messages of a claim. -/
def payMsgs (u : Addr) (n c : List (Nat × Nat)) : List Out :=
  n.map (fun p => ⟨u, .native p.1, p.2⟩) ++ c.map (fun p => ⟨u, .cw20 p.1, p.2⟩)

theorem claim_ok_iff {s : State} {e : Env} {u : Addr} {l m : List Nat} {x : State × List Out} :
    claim s e u l m = .ok x ↔ e.restricted u = false ∧ e.sender = u ∧
      ∃ n c, l.foldlM (Ledger.claimOne u (effective s u)) (s.native, []) = .ok n ∧
        m.foldlM (Ledger.claimOne u (effective s u)) (s.cw20, []) = .ok c ∧
        x = ({ s with native := n.1, cw20 := c.1 }, payMsgs u n.2 c.2) := by
  unfold claim
  rw [ite_ok_iff, ite_ok_iff]
  simp only [bind_ok_iff, pure_ok_iff]
  constructor
  · rintro ⟨h0, h1, n, h2, c, h3, h⟩
    exact ⟨by simpa using h0, by simpa using h1, n, c, h2, h3, h.symm⟩
  · rintro ⟨h0, h1, n, c, h2, h3, h⟩
    exact ⟨by simp [h0], by simp [h1], n, h2, c, h3, h.symm⟩

theorem paidAll_native (u : Addr) (n c : List (Nat × Nat)) (d : Nat) :
    paidAll (.native d) (payMsgs u n c) = Ledger.listed d n := by
  unfold paidAll payMsgs Ledger.listed
  rw [List.map_append, List.sum_append, List.map_map, List.map_map]
  have h2 : ((c.map ((fun o : Out => if o.asset = AssetInfo.native d then o.amount else 0) ∘
      fun p => ⟨u, AssetInfo.cw20 p.1, p.2⟩))).sum = 0 := by
    apply sum_zero_of
    intro x hx
    obtain ⟨p, _, rfl⟩ := List.mem_map.1 hx
    simp
  rw [h2, Nat.add_zero]
  congr 1
  refine List.map_congr_left (fun p _ => ?_)
  simp

theorem paidAll_cw20 (u : Addr) (n c : List (Nat × Nat)) (d : Nat) :
    paidAll (.cw20 d) (payMsgs u n c) = Ledger.listed d c := by
  unfold paidAll payMsgs Ledger.listed
  rw [List.map_append, List.sum_append, List.map_map, List.map_map]
  have h2 : ((n.map ((fun o : Out => if o.asset = AssetInfo.cw20 d then o.amount else 0) ∘
      fun p => ⟨u, AssetInfo.native p.1, p.2⟩))).sum = 0 := by
    apply sum_zero_of
    intro x hx
    obtain ⟨p, _, rfl⟩ := List.mem_map.1 hx
    simp
  rw [h2, Nat.zero_add]
  congr 1
  refine List.map_congr_left (fun p _ => ?_)
  simp

theorem paidAll_cw1155 (u : Addr) (n c : List (Nat × Nat)) (x i : Nat) :
    paidAll (.cw1155 x i) (payMsgs u n c) = 0 := by
  unfold paidAll
  apply sum_zero_of
  intro y hy
  obtain ⟨o, ho, rfl⟩ := List.mem_map.1 hy
  unfold payMsgs at ho
  rcases List.mem_append.1 ho with h | h <;> obtain ⟨p, _, rfl⟩ := List.mem_map.1 h <;> simp

/-- All the payments of a claim go to the user. -/
theorem paid_payMsgs (u v : Addr) (n c : List (Nat × Nat)) (a : AssetInfo) :
    paid v a (payMsgs u n c) = if v = u then paidAll a (payMsgs u n c) else 0 := by
  have hto : ∀ o ∈ payMsgs u n c, o.to = u := by
    intro o ho
    unfold payMsgs at ho
    rcases List.mem_append.1 ho with h | h <;> obtain ⟨p, _, rfl⟩ := List.mem_map.1 h <;> rfl
  unfold paid paidAll
  by_cases hv : v = u
  · rw [if_pos hv]
    congr 1
    refine List.map_congr_left (fun o ho => ?_)
    rw [hto o ho, hv]
    simp
  · rw [if_neg hv]
    apply sum_zero_of
    intro y hy
    obtain ⟨o, ho, rfl⟩ := List.mem_map.1 hy
    rw [hto o ho, if_neg (fun h => hv h.1.symm)]

/-- What an accepted claim does. -/
structure ClaimEffect (s s' : State) (outs : List Out) (u : Addr) (l m : List Nat) : Prop where
  frame : s'.admin = s.admin ∧ s'.min = s.min ∧ s'.weights = s.weights ∧ s'.effective = s.effective ∧ s'.total = s.total
  pays : ∃ pn pc, outs = payMsgs u pn pc ∧
    Ledger.ClaimedAll s.native s'.native s.effective u (effective s u) l pn ∧
    Ledger.ClaimedAll s.cw20 s'.cw20 s.effective u (effective s u) m pc

theorem claim_effect {s : State} (hc : Core s) {e : Env} {u : Addr} {l m : List Nat} {x : State × List Out}
    (h : claim s e u l m = .ok x) : e.restricted u = false ∧ e.sender = u ∧ ClaimEffect s x.1 x.2 u l m := by
  obtain ⟨h0, h1, n, c, h2, h3, rfl⟩ := claim_ok_iff.1 h
  obtain ⟨pn, en, cn⟩ := Ledger.claim_fold (eff := s.effective) rfl _ _ _ h2 hc.native
  obtain ⟨pc, ec, cc⟩ := Ledger.claim_fold (eff := s.effective) rfl _ _ _ h3 hc.cw20
  rw [List.nil_append] at en ec
  exact ⟨h0, h1, ⟨rfl, rfl, rfl, rfl, rfl⟩, pn, pc, by rw [en, ec], cn, cc⟩

theorem ClaimEffect.inv {s s' : State} {outs : List Out} {u : Addr} {l m : List Nat}
    (h : ClaimEffect s s' outs u l m) (hi : Inv s) : Inv s' := by
  obtain ⟨_, h2, h3, h4, h5⟩ := h.frame
  obtain ⟨pn, pc, _, cn, cc⟩ := h.pays
  refine ⟨⟨?_, ?_, ?_⟩, ?_⟩
  · rw [h5, h4]; exact hi.total
  · rw [h4]; exact cn.ok
  · rw [h4]; exact cc.ok
  · rw [h4, h3, h2]; exact hi.eff

theorem ClaimEffect.owed {s s' : State} {outs : List Out} {u : Addr} {l m : List Nat}
    (h : ClaimEffect s s' outs u l m) (a : AssetInfo) : owedOf s' a + ONE * paidAll a outs ≤ owedOf s a := by
  obtain ⟨_, _, _, h4, _⟩ := h.frame
  obtain ⟨pn, pc, ho, cn, cc⟩ := h.pays
  rw [ho]
  cases a with
  | native d =>
    rw [paidAll_native]
    unfold owedOf
    rw [h4]
    exact cn.owed d
  | cw20 d =>
    rw [paidAll_cw20]
    unfold owedOf
    rw [h4]
    exact cc.owed d
  | cw1155 x i => rw [paidAll_cw1155]; simp [owedOf]

/-- An accepted message keeps the invariant, and what it pays is covered. -/
theorem exec_ok {s : State} (hi : Inv s) {e : Env} {m : Msg} {x : State × List Out} (h : exec s e m = .ok x) :
    Inv x.1 ∧ x.1.admin = s.admin ∧ ∀ a, owedOf x.1 a + ONE * paidAll a x.2 ≤ owedOf s a + ONE * fundsOf e m a := by
  have hnil : ∀ a, paidAll a [] = 0 := fun _ => rfl
  cases m with
  | updateWeights l =>
    simp only [exec] at h
    obtain ⟨s', h1, h⟩ := bind_ok_iff.1 h
    cases pure_ok_iff.1 h
    unfold updateWeights at h1
    obtain ⟨_, h1⟩ := ite_ok_iff.1 h1
    obtain ⟨i, q, _⟩ := updates_ok l hi h1
    refine ⟨i, q.admin, fun a => ?_⟩
    have := q.owed a
    simp only [hnil]
    omega
  | updateMin n =>
    simp only [exec] at h
    obtain ⟨s', h1, h⟩ := bind_ok_iff.1 h
    cases pure_ok_iff.1 h
    obtain ⟨_, i, _, _, ha, _, _, o⟩ := updateMin_ok hi h1
    refine ⟨i, ha, fun a => ?_⟩
    have := o a
    simp only [hnil]
    omega
  | distributeNative l =>
    simp only [exec] at h
    obtain ⟨s', h1, h⟩ := bind_ok_iff.1 h
    cases pure_ok_iff.1 h
    obtain ⟨_, _, n, h2, rfl⟩ := distributeNative_ok_iff.1 h1
    obtain ⟨_, i, _, o⟩ := Ledger.distribute_fold hi.total _ _ _ h2 hi.native
    refine ⟨⟨⟨hi.total, i, hi.cw20⟩, hi.eff⟩, rfl, fun a => ?_⟩
    simp only [hnil]
    cases a with
    | native d =>
      have := o d
      have hf : fundsOf e (.distributeNative l) (.native d) = Ledger.listed d l := sum_native l d
      rw [hf]
      exact this
    | cw20 d => exact Nat.le_add_right _ _
    | cw1155 _ _ => exact Nat.zero_le _
  | claim u l t =>
    obtain ⟨_, _, he⟩ := claim_effect hi.toCore h
    refine ⟨he.inv hi, he.frame.1, fun a => ?_⟩
    have := he.owed a
    omega
  | receiveCw20 k n =>
    simp only [exec] at h
    obtain ⟨s', h1, h⟩ := bind_ok_iff.1 h
    cases pure_ok_iff.1 h
    obtain ⟨_, _, _, c, h2, rfl⟩ := receiveCw20_ok_iff.1 h1
    refine ⟨⟨⟨hi.total, hi.native, Ledger.distribute_Ok h2 hi.cw20⟩, hi.eff⟩, rfl, fun a => ?_⟩
    simp only [hnil]
    cases a with
    | native d => exact Nat.le_add_right _ _
    | cw20 d =>
      have := Ledger.distribute_owed h2 hi.cw20 hi.total d
      have hf : fundsOf e (.receiveCw20 k n) (.cw20 d) = if e.sender = d then n else 0 := by
        show (if AssetInfo.cw20 e.sender = AssetInfo.cw20 d then n else 0) = _
        simp only [AssetInfo.cw20.injEq]
      rw [hf]
      exact this
    | cw1155 _ _ => exact Nat.zero_le _

theorem initOne_ok {s s' : State} (hi : Inv s) (hl : s.native = Ledger.empty ∧ s.cw20 = Ledger.empty) {p : Addr × Nat}
    (h : initOne s p = .ok s') :
    Inv s' ∧ (s'.native = Ledger.empty ∧ s'.cw20 = Ledger.empty) ∧ s'.admin = s.admin ∧ s'.min = s.min := by
  unfold initOne at h
  obtain ⟨h0, h⟩ := ite_ok_iff.1 h
  obtain ⟨t, h1, h⟩ := bind_ok_iff.1 h
  cases pure_ok_iff.1 h
  obtain ⟨_, rfl⟩ := cadd128_ok.1 h1
  have hn : s.effective.get p.1 = none := by
    cases hg : s.effective.get p.1 with
    | none => rfl
    | some x =>
      have := Map.has_iff.2 ⟨x, hg⟩
      rw [this] at h0
      simp at h0
  refine ⟨⟨⟨?_, ?_, ?_⟩, fun u => ?_⟩, hl, rfl, rfl⟩
  · have := Map.sum_set s.effective (fun _ w => w) p.1 (effWeight p.2 s.min)
    rw [hn, Map.contrib_none, ← hi.total] at this
    exact this.symm
  · intro u a d hd
    have : (Ledger.empty.dist.get (toLex (u, a))) = some d := by rw [← hl.1]; exact hd
    cases this
  · intro u a d hd
    have : (Ledger.empty.dist.get (toLex (u, a))) = some d := by rw [← hl.2]; exact hd
    cases this
  · show (s.effective.set p.1 (effWeight p.2 s.min)).get u = ((s.weights.set p.1 p.2).get u).map _
    rw [Map.get_set, Map.get_set]
    by_cases hu : p.1 = u
    · rw [if_pos hu, if_pos hu]; rfl
    · rw [if_neg hu, if_neg hu]; exact hi.eff u

theorem inits_ok : ∀ (l : List (Addr × Nat)) {s s' : State}, Inv s →
    (s.native = Ledger.empty ∧ s.cw20 = Ledger.empty) → l.foldlM initOne s = .ok s' →
    Inv s' ∧ (s'.native = Ledger.empty ∧ s'.cw20 = Ledger.empty) ∧ s'.admin = s.admin ∧ s'.min = s.min
  | [], s, s', hi, hl, h => by
    rw [foldlM_nil_ok_iff] at h
    subst h
    exact ⟨hi, hl, rfl, rfl⟩
  | p :: l, s, s', hi, hl, h => by
    obtain ⟨s1, h1, h2⟩ := foldlM_cons_ok_iff.1 h
    obtain ⟨i1, l1, a1, m1⟩ := initOne_ok hi hl h1
    obtain ⟨i2, l2, a2, m2⟩ := inits_ok l i1 l1 h2
    exact ⟨i2, l2, a2.trans a1, m2.trans m1⟩

theorem initial_weights : ∀ (l : List (Addr × Nat)) (s s' : State), l.foldlM initOne s = .ok s' →
    (l.map (·.1)).Nodup ∧ (∀ p ∈ l, s'.weights.get p.1 = some p.2) ∧
    ∀ u, u ∉ l.map (·.1) → s'.weights.get u = s.weights.get u
  | [], s, s', h => by
    rw [foldlM_nil_ok_iff] at h
    subst h
    exact ⟨List.nodup_nil, fun _ hp => (by cases hp), fun _ _ => rfl⟩
  | p :: l, s, s', h => by
    obtain ⟨s1, h1, h2⟩ := foldlM_cons_ok_iff.1 h
    obtain ⟨i1, i2, i3⟩ := initial_weights l s1 s' h2
    have hs1 : s1.weights = s.weights.set p.1 p.2 := by
      unfold initOne at h1
      obtain ⟨_, h1⟩ := ite_ok_iff.1 h1
      obtain ⟨t, _, h1⟩ := bind_ok_iff.1 h1
      cases pure_ok_iff.1 h1
      rfl
    have hfresh : ∀ (l : List (Addr × Nat)) (s s' : State), s.weights.has p.1 = true → l.foldlM initOne s = .ok s' →
        p.1 ∉ l.map (·.1) := by
      intro l
      induction l with
      | nil => intro _ _ _ _ hm; cases hm
      | cons q l ih =>
        intro s s' hs h
        obtain ⟨s1, h1, h2⟩ := foldlM_cons_ok_iff.1 h
        unfold initOne at h1
        obtain ⟨h0, h1⟩ := ite_ok_iff.1 h1
        obtain ⟨t, _, h1⟩ := bind_ok_iff.1 h1
        cases pure_ok_iff.1 h1
        have hq : p.1 ≠ q.1 := fun e => h0 (by rw [← e, hs]; rfl)
        have := ih _ _ (by
          show (s.weights.set q.1 q.2).has p.1 = true
          obtain ⟨x, hx⟩ := Map.has_iff.1 hs
          exact Map.has_iff.2 ⟨x, by rw [Map.get_set, if_neg (fun e => hq e.symm)]; exact hx⟩) h2
        rw [List.map_cons, List.mem_cons]
        rintro (e | e)
        · exact hq e
        · exact this e
    have hp : p.1 ∉ l.map (·.1) := hfresh l s1 s' (by
      rw [hs1]; exact Map.has_iff.2 ⟨p.2, by rw [Map.get_set, if_pos rfl]⟩) h2
    refine ⟨by rw [List.map_cons, List.nodup_cons]; exact ⟨hp, i1⟩, fun q hq => ?_, fun u hu => ?_⟩
    · rcases List.mem_cons.1 hq with rfl | hq
      · rw [i3 _ hp, hs1, Map.get_set, if_pos rfl]
      · exact i2 q hq
    · rw [List.map_cons, List.mem_cons, not_or] at hu
      rw [i3 u hu.2, hs1, Map.get_set, if_neg (fun e => hu.1 e.symm)]

theorem owed_empty {s : State} (hl : s.native = Ledger.empty ∧ s.cw20 = Ledger.empty) (a : AssetInfo) :
    owedOf s a = 0 := by
  have hsh : ∀ u w d, Ledger.empty.share u w d = 0 := by
    intro u w d
    unfold Ledger.share
    have h1 : (Ledger.empty.at_ u d) = ⟨0, 0⟩ := rfl
    have h2 : Ledger.empty.global d = 0 := rfl
    rw [h1, h2]
    simp
  cases a with
  | native d => unfold owedOf Ledger.owed; simp only [hl.1, hsh, Map.sum_zero]
  | cw20 d => unfold owedOf Ledger.owed; simp only [hl.2, hsh, Map.sum_zero]
  | cw1155 _ _ => rfl

theorem init_inv {ad : Addr} {m : Option Nat} {l : List (Addr × Nat)} {s : State} (h : init ad m l = .ok s) :
    Inv s ∧ s.admin = ad ∧ s.min = m.getD 0 ∧ ∀ a, owedOf s a = 0 := by
  have h0 : Inv ⟨ad, m.getD 0, Map.empty, Map.empty, 0, Ledger.empty, Ledger.empty⟩ :=
    ⟨⟨rfl, (fun _ _ _ h => by cases h), (fun _ _ _ h => by cases h)⟩, fun _ => rfl⟩
  obtain ⟨i, l, a, m⟩ := inits_ok l h0 ⟨rfl, rfl⟩ h
  exact ⟨i, a, m, owed_empty l⟩

/-- A message is either accepted, with its effect, or changes nothing. -/
theorem step_cases (s : State) (c : Call) :
    (∃ x, exec s c.env c.msg = .ok x ∧ c.delivered = true ∧ step s c = x ∧ accepted s c) ∨
    (step s c = (s, []) ∧ ¬ accepted s c) := by
  unfold step accepted
  cases h : exec s c.env c.msg with
  | error e => exact .inr ⟨rfl, fun hx => by obtain ⟨_, r, hr⟩ := hx; cases hr⟩
  | ok x =>
    by_cases hd : c.delivered = true
    · exact .inl ⟨x, rfl, hd, by simp [hd], hd, x, rfl⟩
    · exact .inr ⟨by simp [hd], fun hx => hd hx.1⟩

theorem funds_eq (c : Call) (a : AssetInfo) : fundsOf c.env c.msg a = funds c a := rfl

theorem step_inv {s : State} (hi : Inv s) (c : Call) :
    Inv (step s c).1 ∧ (step s c).1.admin = s.admin ∧
    ∀ a, owedOf (step s c).1 a + ONE * paidAll a (step s c).2 ≤
      owedOf s a + ONE * (if accepted s c then funds c a else 0) := by
  rcases step_cases s c with ⟨x, hx, _, he, hacc⟩ | ⟨he, hacc⟩
  · rw [he]
    obtain ⟨h1, h2, h3⟩ := exec_ok hi hx
    refine ⟨h1, h2, fun a => ?_⟩
    rw [if_pos hacc]
    exact h3 a
  · rw [he]
    refine ⟨hi, rfl, fun a => ?_⟩
    rw [if_neg hacc]
    exact le_refl _

/-- Amount of an asset paid to anyone over a history. -/
def claimedAll (a : AssetInfo) : State → List Call → Nat
  | _, [] => 0
  | s, c :: t => paidAll a (step s c).2 + claimedAll a (step s c).1 t

theorem run_inv : ∀ (h : List Call) {s : State}, Inv s →
    Inv (run s h) ∧ (run s h).admin = s.admin ∧
    ∀ a, owedOf (run s h) a + ONE * claimedAll a s h ≤ owedOf s a + ONE * distributed a s h
  | [], s, hi => ⟨hi, rfl, fun _ => le_refl _⟩
  | c :: t, s, hi => by
    obtain ⟨i1, a1, o1⟩ := step_inv hi c
    obtain ⟨i2, a2, o2⟩ := run_inv t i1
    refine ⟨i2, a2.trans a1, fun a => ?_⟩
    have h1 := o1 a
    have h2 := o2 a
    show owedOf (run (step s c).1 t) a + ONE * (paidAll a (step s c).2 + claimedAll a (step s c).1 t) ≤
      owedOf s a + ONE * ((if accepted s c then funds c a else 0) + distributed a (step s c).1 t)
    rw [Nat.mul_add, Nat.mul_add]
    omega

theorem Reachable.inv {s : State} (h : Reachable s) : Inv s := by
  obtain ⟨a, m, w, s0, hs, h0, rfl⟩ := h
  exact (run_inv hs (init_inv h0).1).1

theorem run_append (s : State) (h : List Call) (c : Call) : run s (h ++ [c]) = (step (run s h) c).1 := by
  induction h generalizing s with
  | nil => rfl
  | cons x t ih => exact ih _

theorem Reachable.step {s : State} (h : Reachable s) (c : Call) : Reachable (step s c).1 := by
  obtain ⟨a, m, w, s0, hs, h0, rfl⟩ := h
  exact ⟨a, m, w, s0, hs ++ [c], h0, (run_append s0 hs c).symm⟩

/-- What distinct users are paid is part of what is paid. -/
theorem paid_le_all (a : AssetInfo) (us : List Addr) (hn : us.Nodup) :
    ∀ outs : List Out, (us.map (fun u => paid u a outs)).sum ≤ paidAll a outs
  | [] => by
    have : (us.map (fun u => paid u a [])).sum = 0 := by
      apply sum_zero_of
      intro x hx
      obtain ⟨u, _, rfl⟩ := List.mem_map.1 hx
      rfl
    rw [this]
    exact Nat.zero_le _
  | o :: t => by
    have ih := paid_le_all a us hn t
    have hsplit : ∀ (l : List Addr), (l.map (fun u => paid u a (o :: t))).sum =
        (l.map (fun u => if o.to = u ∧ o.asset = a then o.amount else 0)).sum + (l.map (fun u => paid u a t)).sum := by
      intro l
      induction l with
      | nil => rfl
      | cons u l ih =>
        simp only [List.map_cons, List.sum_cons]
        rw [ih]
        have : paid u a (o :: t) = (if o.to = u ∧ o.asset = a then o.amount else 0) + paid u a t := rfl
        omega
    have hone : ∀ (l : List Addr), l.Nodup →
        (l.map (fun u => if o.to = u ∧ o.asset = a then o.amount else 0)).sum ≤ if o.asset = a then o.amount else 0 := by
      intro l hl
      induction l with
      | nil => exact Nat.zero_le _
      | cons u l ih =>
        rw [List.nodup_cons] at hl
        have ih := ih hl.2
        simp only [List.map_cons, List.sum_cons]
        by_cases hu : o.to = u ∧ o.asset = a
        · have : (l.map (fun u => if o.to = u ∧ o.asset = a then o.amount else 0)).sum = 0 := by
            apply sum_zero_of
            intro x hx
            obtain ⟨v, hv, rfl⟩ := List.mem_map.1 hx
            rw [if_neg (fun h => hl.1 (by rw [← hu.1, h.1]; exact hv))]
          rw [this, if_pos hu, if_pos hu.2, Nat.add_zero]
        · rw [if_neg hu, Nat.zero_add]
          exact ih
    rw [hsplit]
    have h1 := hone us hn
    have h2 : paidAll a (o :: t) = (if o.asset = a then o.amount else 0) + paidAll a t := rfl
    omega

theorem claimed_le_all (a : AssetInfo) (us : List Addr) (hn : us.Nodup) :
    ∀ (h : List Call) (s : State), (us.map (fun u => claimed u a s h)).sum ≤ claimedAll a s h
  | [], s => by
    apply le_of_eq
    apply sum_zero_of
    intro x hx
    obtain ⟨u, _, rfl⟩ := List.mem_map.1 hx
    rfl
  | c :: t, s => by
    have ih := claimed_le_all a us hn t (step s c).1
    have hp := paid_le_all a us hn (step s c).2
    have hsplit : ∀ (l : List Addr), (l.map (fun u => claimed u a s (c :: t))).sum =
        (l.map (fun u => paid u a (step s c).2)).sum + (l.map (fun u => claimed u a (step s c).1 t)).sum := by
      intro l
      induction l with
      | nil => rfl
      | cons u l ih =>
        simp only [List.map_cons, List.sum_cons]
        rw [ih]
        have : claimed u a s (c :: t) = paid u a (step s c).2 + claimed u a (step s c).1 t := rfl
        omega
    rw [hsplit]
    have : claimedAll a s (c :: t) = paidAll a (step s c).2 + claimedAll a (step s c).1 t := rfl
    omega

/-- Shares of distinct users are part of what is owed. -/
theorem shares_le (L : Ledger) (a : Nat) : ∀ (us : List Addr) (eff : Map Addr Nat), us.Nodup →
    (us.map (fun u => Map.contrib (fun u w => L.share u w a) u (eff.get u))).sum ≤ L.owed eff a
  | [], _, _ => Nat.zero_le _
  | u :: us, eff, hn => by
    rw [List.nodup_cons] at hn
    have ih := shares_le L a us (eff.remove u) hn.2
    have h1 := Map.sum_remove eff (fun u w => L.share u w a) u
    unfold Ledger.owed at ih ⊢
    rw [List.map_cons, List.sum_cons]
    have h2 : (us.map (fun v => Map.contrib (fun u w => L.share u w a) v ((eff.remove u).get v))) =
        us.map (fun v => Map.contrib (fun u w => L.share u w a) v (eff.get v)) := by
      refine List.map_congr_left (fun v hv => ?_)
      rw [Map.get_remove, if_neg (fun h => hn.1 (by rw [h]; exact hv))]
    rw [h2] at ih
    omega

theorem amount_le_contrib {L : Ledger} {eff : Map Addr Nat} (hok : L.Ok eff) (u : Addr) (a : Nat) :
    ONE * amount (L.amt u ((eff.get u).getD 0) a) ≤ Map.contrib (fun u w => L.share u w a) u (eff.get u) := by
  cases h : L.amt u ((eff.get u).getD 0) a with
  | error e => simp [amount]
  | ok r =>
    have h1 := Ledger.amt_le_share h
    cases hu : eff.get u with
    | some w =>
      rw [hu] at h1
      exact h1
    | none =>
      rw [hu] at h h1
      obtain ⟨_, _, h3⟩ := Ledger.amt_ok_iff.1 h
      have hd : L.dist.get (toLex (u, a)) = none := by
        cases hd : L.dist.get (toLex (u, a)) with
        | none => rfl
        | some d =>
          obtain ⟨x, hx⟩ := Map.has_iff.1 (hok u a d hd).2.1
          rw [hu] at hx
          cases hx
      unfold Ledger.at_ at h3
      rw [hd] at h3
      simp at h3
      rw [h3]
      simp [amount]

theorem claimable_le_owed {s : State} (hc : Core s) (us : List Addr) (hn : us.Nodup) (a : AssetInfo) :
    ONE * (us.map (fun u => claimable s u a)).sum ≤ owedOf s a := by
  have hmul : ∀ (l : List Addr) (f : Addr → Nat), ONE * (l.map f).sum = (l.map (fun u => ONE * f u)).sum := by
    intro l f
    induction l with
    | nil => rfl
    | cons u l ih => simp only [List.map_cons, List.sum_cons, Nat.mul_add, ih]
  have hle : ∀ (l : List Addr) (f g : Addr → Nat), (∀ u, f u ≤ g u) → (l.map f).sum ≤ (l.map g).sum := by
    intro l f g h
    induction l with
    | nil => exact le_refl _
    | cons u l ih =>
      simp only [List.map_cons, List.sum_cons]
      have := h u
      omega
  rw [hmul]
  cases a with
  | native d =>
    refine le_trans (hle us _ _ (fun u => ?_)) (shares_le s.native d us s.effective hn)
    rw [claimable_native]
    exact amount_le_contrib hc.native u d
  | cw20 d =>
    refine le_trans (hle us _ _ (fun u => ?_)) (shares_le s.cw20 d us s.effective hn)
    rw [claimable_cw20]
    exact amount_le_contrib hc.cw20 u d
  | cw1155 x i =>
    refine le_of_eq (sum_zero_of (fun y hy => ?_))
    obtain ⟨u, _, rfl⟩ := List.mem_map.1 hy
    rfl

/-- The share of a user with an effective weight is part of what is owed. -/
theorem share_le_owed {L : Ledger} {eff : Map Addr Nat} (hok : L.Ok eff) (u : Addr) (a : Nat) :
    L.share u ((eff.get u).getD 0) a ≤ L.owed eff a := by
  cases hu : eff.get u with
  | some w => exact Map.le_sum (fun u w => L.share u w a) hu
  | none =>
    have hd : L.dist.get (toLex (u, a)) = none := by
      cases hd : L.dist.get (toLex (u, a)) with
      | none => rfl
      | some d =>
        obtain ⟨x, hx⟩ := Map.has_iff.1 (hok u a d hd).2.1
        rw [hu] at hx
        cases hx
    unfold Ledger.share Ledger.at_
    rw [hd]
    simp

/-- While less than 2^128 units are owed, reward amounts are computed without error. -/
theorem amt_exists {L : Ledger} {eff : Map Addr Nat} (hok : L.Ok eff) {u : Addr} {a : Nat}
    (h : L.owed eff a < ONE * M128) : ∃ r, L.amt u ((eff.get u).getD 0) a = .ok r := by
  refine ⟨_, Ledger.amt_ok_iff.2 ⟨hok.index_le u a, ?_, rfl⟩⟩
  have h1 := share_le_owed hok u a
  unfold Ledger.share at h1
  have h2 := Nat.mul_div_le ((eff.get u).getD 0 * (L.global a - (L.at_ u a).index)) ONE
  have h3 : ONE * ((eff.get u).getD 0 * (L.global a - (L.at_ u a).index) / ONE + (L.at_ u a).pending) < ONE * M128 := by
    rw [Nat.mul_add]
    omega
  exact Nat.lt_of_mul_lt_mul_left h3

end Verif.Distributor
