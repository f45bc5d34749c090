import Verif.Distributor.Props
import Verif.Distributor.Props6

/-!
# Funds distributor: the rewards in one asset do not depend on the others (C157)
-/

set_option linter.unusedSimpArgs false

namespace Verif.Distributor
open Verif

/-! ### Specification -/

/-- What a message says about some of the assets: coins and claims of the others are left out, a transfer of another token does
not take place. Reports of weights and of the minimum weight stay as they are. -/
def about (keep : AssetInfo → Bool) (c : Call) : List Call :=
  match c.msg with
  | .distributeNative f => [{ c with msg := .distributeNative (f.filter (fun x => keep (.native x.1))) }]
  | .claim u ds ts => [{ c with msg := .claim u (ds.filter (fun d => keep (.native d))) (ts.filter (fun t => keep (.cw20 t))) }]
  | .receiveCw20 _ _ => if keep (.cw20 c.env.sender) then [c] else []
  | _ => [c]

/-- A history reduced to what the messages that were accepted say about some of the assets. -/
def onlyAbout (keep : AssetInfo → Bool) : State → List Call → List Call
  | _, [] => []
  | s, c :: t => (if accepted s c then about keep c else []) ++ onlyAbout keep (step s c).1 t

/-- All messages of a history are accepted. -/
def everyAccepted : State → List Call → Prop
  | _, [] => True
  | s, c :: t => accepted s c ∧ everyAccepted (step s c).1 t

/-! ### The simulation -/

/-- `M` has what `L` has of some assets, and no index of another asset. -/
structure Ledger.Part (P : Nat → Bool) (L M : Ledger) : Prop where
  idx : ∀ a, P a = true → M.idx.get a = L.idx.get a
  dist : ∀ u a, P a = true → M.dist.get (toLex (u, a)) = L.dist.get (toLex (u, a))
  rest : ∀ a, P a = false → M.idx.get a = none

/-- The same for the state of the contract. -/
structure Part (keep : AssetInfo → Bool) (s t : State) : Prop where
  admin : t.admin = s.admin
  min : t.min = s.min
  weights : t.weights = s.weights
  effective : t.effective = s.effective
  total : t.total = s.total
  native : s.native.Part (fun a => keep (.native a)) t.native
  cw20 : s.cw20.Part (fun a => keep (.cw20 a)) t.cw20

theorem Ledger.Part.global {P : Nat → Bool} {L M : Ledger} (h : L.Part P M) {a : Nat} (ha : P a = true) : M.global a = L.global a := by
  unfold Ledger.global
  rw [h.idx a ha]

theorem Ledger.Part.amt {P : Nat → Bool} {L M : Ledger} (h : L.Part P M) {a : Nat} (ha : P a = true) (u : Addr) (w : Nat) :
    M.amt u w a = L.amt u w a := by
  unfold Ledger.amt
  rw [h.global ha, h.dist u a ha]

theorem settle_part {P : Nat → Bool} {L L' M : Ledger} (h : L.Part P M) {u : Addr} {w : Nat} (hs : L.settle u w = .ok L') :
    ∃ M', M.settle u w = .ok M' ∧ L'.Part P M' := by
  obtain ⟨h1, h2, h3, h4⟩ := Ledger.settle_ok hs
  have hex : ∃ M', M.settle u w = .ok M' := by
    refine Ledger.settle_fold_exists _ _ M.idx.nodup_keys (fun e he => ?_)
    have hg := Ledger.mem_idx.2 he
    cases hp : P e.1 with
    | false => rw [h.rest _ hp] at hg; cases hg
    | true =>
      obtain ⟨r, hr, _⟩ := h4 e.1 (by rw [← h.idx _ hp, hg]; simp)
      refine ⟨r, ?_⟩
      rw [← h.amt hp] at hr
      unfold Ledger.amt at hr
      rw [Ledger.global_of_get hg] at hr
      exact hr
  obtain ⟨M', hm⟩ := hex
  obtain ⟨k1, k2, k3, k4⟩ := Ledger.settle_ok hm
  refine ⟨M', hm, fun a ha => by rw [k1, h1, h.idx a ha], fun v a ha => ?_, fun a ha => by rw [k1, h.rest a ha]⟩
  by_cases hv : v = u
  · subst hv
    by_cases hn : L.idx.get a = none
    · rw [h3 a hn, k3 a (by rw [h.idx a ha, hn]), h.dist v a ha]
    · obtain ⟨r, hr, hd⟩ := h4 a hn
      obtain ⟨r', hr', hd'⟩ := k4 a (by rw [h.idx a ha]; exact hn)
      rw [h.amt ha, hr] at hr'
      cases hr'
      rw [hd, hd', h.global ha]
  · rw [k2 v a hv, h2 v a hv, h.dist v a ha]

theorem initUser_get {u : Addr} : ∀ (l : List (Nat × Nat)) (L : Ledger), (l.map (·.1)).Nodup →
    (l.foldl (Ledger.initOne u) L).idx = L.idx ∧
    (∀ v a, ¬ (v = u ∧ a ∈ l.map (·.1)) →
      (l.foldl (Ledger.initOne u) L).dist.get (toLex (v, a)) = L.dist.get (toLex (v, a))) ∧
    ∀ e ∈ l, (l.foldl (Ledger.initOne u) L).dist.get (toLex (u, e.1)) = some ((L.dist.get (toLex (u, e.1))).getD ⟨e.2, 0⟩)
  | [], L, _ => ⟨rfl, fun _ _ _ => rfl, fun _ h => by simp at h⟩
  | e :: l, L, hn => by
    rw [List.map_cons, List.nodup_cons] at hn
    have h1 : Ledger.initOne u L e = { L with dist := L.dist.set (toLex (u, e.1)) ((L.dist.get (toLex (u, e.1))).getD ⟨e.2, 0⟩) } := by
      unfold Ledger.initOne
      cases L.dist.get (toLex (u, e.1)) <;> rfl
    obtain ⟨i1, i2, i3⟩ := initUser_get (u := u) l
      { L with dist := L.dist.set (toLex (u, e.1)) ((L.dist.get (toLex (u, e.1))).getD ⟨e.2, 0⟩) } hn.2
    rw [List.foldl_cons, h1]
    refine ⟨i1, fun v a hva => ?_, fun e' he' => ?_⟩
    · rw [i2 v a (fun hx => hva ⟨hx.1, by simp [hx.2]⟩)]
      exact Map.get_set_ne _ _ (Ledger.key_ne (fun hx => hva ⟨hx.1, by simp [hx.2]⟩))
    · rcases List.mem_cons.1 he' with rfl | he'
      · rw [i2 u e'.1 (fun hx => hn.1 hx.2)]
        exact Map.get_set_self _ _ _
      · rw [i3 e' he']
        congr 2
        refine Map.get_set_ne _ _ (Ledger.key_ne (fun hx => hn.1 ?_))
        rw [← hx.2]
        exact List.mem_map_of_mem he'

theorem initUser_part {P : Nat → Bool} {L M : Ledger} (h : L.Part P M) (u : Addr) : (L.initUser u).Part P (M.initUser u) := by
  obtain ⟨h1, h2, h3⟩ := initUser_get (u := u) L.idx.entries L L.idx.nodup_keys
  obtain ⟨k1, k2, k3⟩ := initUser_get (u := u) M.idx.entries M M.idx.nodup_keys
  unfold Ledger.initUser
  refine ⟨fun a ha => by rw [k1, h1, h.idx a ha], fun v a ha => ?_, fun a ha => by rw [k1, h.rest a ha]⟩
  by_cases hx : v = u ∧ a ∈ L.idx.entries.map (·.1)
  · obtain ⟨rfl, hx⟩ := hx
    obtain ⟨g, hg⟩ := Map.mem_keys.1 hx
    have e1 := h3 (a, g) (Ledger.mem_idx.1 hg)
    have e2 := k3 (a, g) (Ledger.mem_idx.1 (by rw [h.idx a ha]; exact hg))
    simp only at e1 e2
    rw [e1, e2, h.dist v a ha]
  · rw [h2 v a hx, k2 v a (fun hy => hx ⟨hy.1, ?_⟩), h.dist v a ha]
    obtain ⟨g, hg⟩ := Map.mem_keys.1 hy.2
    exact Map.mem_keys.2 ⟨g, by rw [← h.idx a ha]; exact hg⟩

theorem refresh_part {keep : AssetInfo → Bool} {s t : State} (h : Part keep s t) {u : Addr} {x : Ledger × Ledger}
    (hx : refresh s u = .ok x) : ∃ y, refresh t u = .ok y ∧ x.1.Part (fun a => keep (.native a)) y.1 ∧
      x.2.Part (fun a => keep (.cw20 a)) y.2 := by
  unfold refresh at hx ⊢
  rw [h.effective]
  cases he : s.effective.get u with
  | none =>
    rw [he] at hx
    cases hx
    exact ⟨_, rfl, initUser_part h.native u, initUser_part h.cw20 u⟩
  | some w =>
    rw [he] at hx
    obtain ⟨n, h1, hx⟩ := bind_ok_iff.1 hx
    obtain ⟨c, h2, hx⟩ := bind_ok_iff.1 hx
    have hx := pure_ok_iff.1 hx
    subst hx
    obtain ⟨n', k1, k2⟩ := settle_part h.native h1
    obtain ⟨c', k3, k4⟩ := settle_part h.cw20 h2
    exact ⟨(n', c'), bind_ok_iff.2 ⟨n', k1, bind_ok_iff.2 ⟨c', k3, rfl⟩⟩, k2, k4⟩

theorem updateOne_part {keep : AssetInfo → Bool} {s t s' : State} (h : Part keep s t) {p : Addr × Nat}
    (hx : updateOne s p = .ok s') : ∃ t', updateOne t p = .ok t' ∧ Part keep s' t' := by
  unfold updateOne at hx ⊢
  obtain ⟨x, h1, hx⟩ := bind_ok_iff.1 hx
  obtain ⟨a, h2, hx⟩ := bind_ok_iff.1 hx
  obtain ⟨b, h3, hx⟩ := bind_ok_iff.1 hx
  have hx := pure_ok_iff.1 hx
  subst hx
  obtain ⟨y, k1, k2, k3⟩ := refresh_part h h1
  refine ⟨_, bind_ok_iff.2 ⟨y, k1, bind_ok_iff.2 ⟨a, by rw [h.total, h.effective]; exact h2,
    bind_ok_iff.2 ⟨b, by rw [h.min]; exact h3, rfl⟩⟩⟩, ?_⟩
  exact ⟨h.admin, h.min, by simp only [h.weights], by simp only [h.effective, h.min], rfl, k2, k3⟩

theorem minOne_part {keep : AssetInfo → Bool} {b : Bool} {s t s' : State} (h : Part keep s t) {p : Addr × Nat}
    (hx : minOne b s p = .ok s') : ∃ t', minOne b t p = .ok t' ∧ Part keep s' t' := by
  unfold minOne at hx ⊢
  obtain ⟨n, h1, hx⟩ := bind_ok_iff.1 hx
  obtain ⟨c, h2, hx⟩ := bind_ok_iff.1 hx
  obtain ⟨x, h3, hx⟩ := bind_ok_iff.1 hx
  obtain ⟨y, h4, hx⟩ := bind_ok_iff.1 hx
  have hx := pure_ok_iff.1 hx
  subst hx
  obtain ⟨n', k1, k2⟩ := settle_part h.native h1
  obtain ⟨c', k3, k4⟩ := settle_part h.cw20 h2
  rw [← h.effective] at k1 k3 h3
  refine ⟨_, bind_ok_iff.2 ⟨n', k1, bind_ok_iff.2 ⟨c', k3, bind_ok_iff.2 ⟨x, by rw [h.total]; exact h3,
    bind_ok_iff.2 ⟨y, h4, rfl⟩⟩⟩⟩, ?_⟩
  exact ⟨h.admin, h.min, h.weights, by simp only [h.effective], rfl, k2, k4⟩

theorem fold_part {α : Type} {keep : AssetInfo → Bool} {f : State → α → Except Err State}
    (hf : ∀ (s t s' : State) (p : α), Part keep s t → f s p = .ok s' → ∃ t', f t p = .ok t' ∧ Part keep s' t') :
    ∀ (l : List α) {s t s' : State}, Part keep s t → l.foldlM f s = .ok s' → ∃ t', l.foldlM f t = .ok t' ∧ Part keep s' t'
  | [], s, t, s', h, hx => by
    rw [foldlM_nil_ok_iff] at hx
    subst hx
    exact ⟨t, rfl, h⟩
  | p :: l, s, t, s', h, hx => by
    obtain ⟨s1, h1, hx⟩ := foldlM_cons_ok_iff.1 hx
    obtain ⟨t1, k1, k2⟩ := hf _ _ _ _ h h1
    obtain ⟨t', k3, k4⟩ := fold_part hf l k2 hx
    exact ⟨t', foldlM_cons_ok_iff.2 ⟨t1, k1, k3⟩, k4⟩

theorem distribute_keep {P : Nat → Bool} {n : Nat} {L L' M : Ledger} (h : L.Part P M) {f : Nat × Nat} (hf : P f.1 = true)
    (hx : L.distributeOne n f = .ok L') : ∃ M', M.distributeOne n f = .ok M' ∧ L'.Part P M' := by
  unfold Ledger.distributeOne at hx ⊢
  obtain ⟨r, h2, hx⟩ := bind_ok_iff.1 hx
  obtain ⟨g, h3, hx⟩ := bind_ok_iff.1 hx
  have hx := pure_ok_iff.1 hx
  subst hx
  refine ⟨_, bind_ok_iff.2 ⟨r, h2, bind_ok_iff.2 ⟨g, by rw [h.global hf]; exact h3, rfl⟩⟩, fun a ha => ?_, h.dist, fun a ha => ?_⟩
  · simp only [Map.get_set]
    rw [h.idx a ha]
  · rw [Map.get_set, if_neg (fun hh => by rw [← hh, hf] at ha; cases ha), h.rest a ha]

theorem distribute_skip {P : Nat → Bool} {n : Nat} {L L' M : Ledger} (h : L.Part P M) {f : Nat × Nat} (hf : P f.1 = false)
    (hx : L.distributeOne n f = .ok L') : L'.Part P M := by
  unfold Ledger.distributeOne at hx
  obtain ⟨r, h2, hx⟩ := bind_ok_iff.1 hx
  obtain ⟨g, h3, hx⟩ := bind_ok_iff.1 hx
  have hx := pure_ok_iff.1 hx
  subst hx
  refine ⟨fun a ha => ?_, h.dist, h.rest⟩
  simp only [Map.get_set]
  rw [if_neg (fun hh => by rw [← hh, hf] at ha; cases ha), h.idx a ha]

theorem distributes_part {P : Nat → Bool} {n : Nat} : ∀ (l : List (Nat × Nat)) {L L' M : Ledger}, L.Part P M →
    l.foldlM (Ledger.distributeOne n) L = .ok L' →
    ∃ M', (l.filter (fun f => P f.1)).foldlM (Ledger.distributeOne n) M = .ok M' ∧ L'.Part P M'
  | [], L, L', M, h, hx => by
    rw [foldlM_nil_ok_iff] at hx
    subst hx
    exact ⟨M, rfl, h⟩
  | f :: l, L, L', M, h, hx => by
    obtain ⟨L1, h1, hx⟩ := foldlM_cons_ok_iff.1 hx
    cases hf : P f.1 with
    | true =>
      obtain ⟨M1, k1, k2⟩ := distribute_keep h hf h1
      obtain ⟨M', k3, k4⟩ := distributes_part l k2 hx
      refine ⟨M', ?_, k4⟩
      rw [List.filter_cons, if_pos hf]
      exact foldlM_cons_ok_iff.2 ⟨M1, k1, k3⟩
    | false =>
      obtain ⟨M', k3, k4⟩ := distributes_part l (distribute_skip h hf h1) hx
      refine ⟨M', ?_, k4⟩
      rw [List.filter_cons, if_neg (by rw [hf]; simp)]
      exact k3

theorem Ledger.Part.set {P : Nat → Bool} {L M : Ledger} (h : L.Part P M) (u : Addr) {a : Nat} (d : Dist) :
    ({ L with dist := L.dist.set (toLex (u, a)) d } : Ledger).Part P { M with dist := M.dist.set (toLex (u, a)) d } := by
  refine ⟨h.idx, fun v b hb => ?_, h.rest⟩
  simp only [Map.get_set]
  rw [h.dist v b hb]

theorem Ledger.Part.skip {P : Nat → Bool} {L M : Ledger} (h : L.Part P M) (u : Addr) {a : Nat} (ha : P a = false) (d : Dist) :
    ({ L with dist := L.dist.set (toLex (u, a)) d } : Ledger).Part P M := by
  refine ⟨h.idx, fun v b hb => ?_, h.rest⟩
  rw [h.dist v b hb]
  exact (Map.get_set_ne _ _ (Ledger.key_ne (fun hx => by rw [hx.2, ha] at hb; cases hb))).symm

theorem claims_part {P : Nat → Bool} {u : Addr} {w : Nat} : ∀ (l : List Nat) {L M : Ledger} {o o' : List (Nat × Nat)}
    {x : Ledger × List (Nat × Nat)}, L.Part P M → o' = o.filter (fun p => P p.1) →
    l.foldlM (Ledger.claimOne u w) (L, o) = .ok x →
    ∃ y, (l.filter P).foldlM (Ledger.claimOne u w) (M, o') = .ok y ∧ x.1.Part P y.1 ∧ y.2 = x.2.filter (fun p => P p.1)
  | [], L, M, o, o', x, h, ho, hx => by
    rw [foldlM_nil_ok_iff] at hx
    subst hx
    exact ⟨_, rfl, h, ho⟩
  | a :: l, L, M, o, o', x, h, ho, hx => by
    obtain ⟨⟨L1, o1⟩, h1, hx⟩ := foldlM_cons_ok_iff.1 hx
    unfold Ledger.claimOne at h1
    simp only at h1
    cases ha : P a with
    | true =>
      have key : ∃ M1 o2, Ledger.claimOne u w (M, o') a = .ok (M1, o2) ∧ L1.Part P M1 ∧ o2 = o1.filter (fun p => P p.1) := by
        unfold Ledger.claimOne
        simp only [h.global ha, h.dist u a ha]
        by_cases h0 : L.global a = 0
        · rw [if_pos h0] at h1 ⊢
          cases h1
          exact ⟨_, _, rfl, h, ho⟩
        · rw [if_neg h0] at h1 ⊢
          obtain ⟨r, h2, h1⟩ := bind_ok_iff.1 h1
          by_cases hr : r = 0
          · rw [if_pos hr] at h1
            cases h1
            exact ⟨M, o', bind_ok_iff.2 ⟨r, h2, by rw [if_pos hr]⟩, h, ho⟩
          · rw [if_neg hr] at h1
            cases h1
            refine ⟨_, _, bind_ok_iff.2 ⟨r, h2, by rw [if_neg hr]⟩, h.set u _, ?_⟩
            rw [ho, List.filter_append, List.filter_cons, if_pos ha]
            rfl
      obtain ⟨M1, o2, k1, k2, k3⟩ := key
      obtain ⟨y, m1, m2, m3⟩ := claims_part l k2 k3 hx
      refine ⟨y, ?_, m2, m3⟩
      rw [List.filter_cons, if_pos ha]
      exact foldlM_cons_ok_iff.2 ⟨_, k1, m1⟩
    | false =>
      have key : L1.Part P M ∧ o' = o1.filter (fun p => P p.1) := by
        by_cases h0 : L.global a = 0
        · rw [if_pos h0] at h1
          cases h1
          exact ⟨h, ho⟩
        · rw [if_neg h0] at h1
          obtain ⟨r, h2, h1⟩ := bind_ok_iff.1 h1
          by_cases hr : r = 0
          · rw [if_pos hr] at h1
            cases h1
            exact ⟨h, ho⟩
          · rw [if_neg hr] at h1
            cases h1
            refine ⟨h.skip u ha _, ?_⟩
            rw [ho, List.filter_append, List.filter_cons, if_neg (by rw [ha]; simp)]
            simp
      obtain ⟨y, m1, m2, m3⟩ := claims_part l key.1 key.2 hx
      refine ⟨y, ?_, m2, m3⟩
      rw [List.filter_cons, if_neg (by rw [ha]; simp)]
      exact m1

theorem paid_filter {keep : AssetInfo → Bool} {a : AssetInfo} (ha : keep a = true) (u : Addr) :
    ∀ (l : List Out), paid u a (l.filter (fun o => keep o.asset)) = paid u a l
  | [] => rfl
  | o :: l => by
    have ih := paid_filter ha u l
    unfold paid at ih ⊢
    rw [List.filter_cons]
    by_cases hk : keep o.asset = true
    · rw [if_pos hk, List.map_cons, List.map_cons, List.sum_cons, List.sum_cons, ih]
    · rw [if_neg hk, ih, List.map_cons, List.sum_cons, if_neg (fun hx => hk (by rw [hx.2]; exact ha)), Nat.zero_add]

theorem payMsgs_filter (keep : AssetInfo → Bool) (u : Addr) (n c : List (Nat × Nat)) :
    payMsgs u (n.filter (fun p => keep (.native p.1))) (c.filter (fun p => keep (.cw20 p.1))) =
      (payMsgs u n c).filter (fun o => keep o.asset) := by
  unfold payMsgs
  rw [List.filter_append, List.filter_map, List.filter_map]
  rfl

theorem funds_filter {keep : AssetInfo → Bool} {a : AssetInfo} (ha : keep a = true) : ∀ (f : List (Nat × Nat)),
    ((f.filter (fun x => keep (.native x.1))).map (fun x => if AssetInfo.native x.1 = a then x.2 else 0)).sum =
      (f.map (fun x => if AssetInfo.native x.1 = a then x.2 else 0)).sum
  | [] => rfl
  | g :: f => by
    rw [List.filter_cons]
    by_cases hk : keep (.native g.1) = true
    · rw [if_pos hk, List.map_cons, List.map_cons, List.sum_cons, List.sum_cons, funds_filter ha f]
    · rw [if_neg hk, funds_filter ha f, List.map_cons, List.sum_cons, if_neg (fun hx => hk (by rw [hx]; exact ha)), Nat.zero_add]

/-- An accepted message, and what it says about some of the assets. -/
theorem step_part {keep : AssetInfo → Bool} {s t : State} (h : Part keep s t) {c : Call} (hc : accepted s c) :
    everyAccepted t (about keep c) ∧ Part keep (step s c).1 (run t (about keep c)) ∧
    ∀ u a, keep a = true → claimed u a t (about keep c) = paid u a (step s c).2 ∧ distributed a t (about keep c) = funds c a := by
  obtain ⟨x, hx, he⟩ := accepted_exec hc
  have hdel := hc.1
  have one : ∀ (c' : Call) (y : State × List Out), c'.delivered = true → exec t c'.env c'.msg = .ok y → Part keep x.1 y.1 →
      y.2 = x.2.filter (fun o => keep o.asset) → (∀ a, keep a = true → funds c' a = funds c a) → about keep c = [c'] →
      everyAccepted t (about keep c) ∧ Part keep (step s c).1 (run t (about keep c)) ∧
      ∀ u a, keep a = true → claimed u a t (about keep c) = paid u a (step s c).2 ∧ distributed a t (about keep c) = funds c a := by
    intro c' y hd hy hp ho hf hab
    have hacc : accepted t c' := ⟨hd, y, hy⟩
    have hst : step t c' = y := by
      obtain ⟨z, hz, hz'⟩ := accepted_exec hacc
      rw [hy] at hz
      cases hz
      exact hz'
    rw [hab, he]
    refine ⟨⟨hacc, trivial⟩, ?_, fun u a ha => ⟨?_, ?_⟩⟩
    · show Part keep x.1 (step t c').1
      rw [hst]; exact hp
    · show paid u a (step t c').2 + 0 = _
      rw [hst, ho, paid_filter ha]
      rfl
    · show (if accepted t c' then funds c' a else 0) + 0 = _
      rw [if_pos hacc, hf a ha]
      rfl
  cases hm : c.msg with
  | updateWeights l =>
    rw [hm] at hx
    simp only [exec] at hx
    obtain ⟨s', h1, hx⟩ := bind_ok_iff.1 hx
    have hx := pure_ok_iff.1 hx
    unfold updateWeights at h1
    by_cases h2 : c.env.sender ≠ s.admin
    · rw [if_pos h2] at h1; cases h1
    rw [if_neg h2] at h1
    obtain ⟨t', k1, k2⟩ := fold_part (f := updateOne) (fun _ _ _ _ a b => updateOne_part a b) l h h1
    refine one c (t', []) hdel ?_ (by rw [← hx]; exact k2) (by rw [← hx]; rfl) (fun _ _ => rfl) (by unfold about; rw [hm])
    rw [hm]
    simp only [exec]
    refine bind_ok_iff.2 ⟨t', ?_, rfl⟩
    unfold updateWeights
    rw [h.admin, if_neg h2]
    exact k1
  | updateMin n =>
    rw [hm] at hx
    simp only [exec] at hx
    obtain ⟨s', h1, hx⟩ := bind_ok_iff.1 hx
    have hx := pure_ok_iff.1 hx
    unfold updateMin at h1
    by_cases h2 : c.env.sender ≠ s.admin
    · rw [if_pos h2] at h1; cases h1
    rw [if_neg h2] at h1
    by_cases h3 : s.min = n
    · rw [if_pos h3] at h1
      cases h1
      refine one c (t, []) hdel ?_ (by rw [← hx]; exact h) (by rw [← hx]; rfl) (fun _ _ => rfl) (by unfold about; rw [hm])
      rw [hm]
      simp only [exec]
      refine bind_ok_iff.2 ⟨t, ?_, rfl⟩
      unfold updateMin
      rw [h.admin, if_neg h2, h.min, if_pos h3]
    · rw [if_neg h3] at h1
      obtain ⟨s1, h4, h1⟩ := bind_ok_iff.1 h1
      have h1 := pure_ok_iff.1 h1
      have ha : affected t s.min n = affected s s.min n := by unfold affected; rw [h.weights]
      obtain ⟨t1, k1, k2⟩ := fold_part (f := minOne (decide (s.min > n))) (fun _ _ _ _ a b => minOne_part a b) _ h h4
      refine one c ({ t1 with min := n }, []) hdel ?_ ?_ (by rw [← hx]; rfl) (fun _ _ => rfl) (by unfold about; rw [hm])
      · rw [hm]
        simp only [exec]
        refine bind_ok_iff.2 ⟨{ t1 with min := n }, ?_, rfl⟩
        unfold updateMin
        rw [h.admin, if_neg h2, h.min, if_neg h3, ha]
        exact bind_ok_iff.2 ⟨t1, k1, rfl⟩
      · rw [← hx, ← h1]
        exact ⟨k2.admin, rfl, k2.weights, k2.effective, k2.total, k2.native, k2.cw20⟩
  | distributeNative f =>
    rw [hm] at hx
    simp only [exec] at hx
    obtain ⟨s', h1, hx⟩ := bind_ok_iff.1 hx
    have hx := pure_ok_iff.1 hx
    obtain ⟨h2, h3, n, h4, rfl⟩ := distributeNative_ok_iff.1 h1
    obtain ⟨n', k1, k2⟩ := distributes_part f h.native h4
    refine one { c with msg := .distributeNative (f.filter (fun x => keep (.native x.1))) } ({ t with native := n' }, []) hdel ?_
      ?_ (by rw [← hx]; rfl) (fun a ha => ?_) (by unfold about; rw [hm])
    · simp only [exec]
      refine bind_ok_iff.2 ⟨_, distributeNative_ok_iff.2 ⟨fun g hg => h2 g (List.mem_filter.1 hg).1, by rw [h.total]; exact h3,
        n', by rw [h.total]; exact k1, rfl⟩, rfl⟩
    · rw [← hx]
      exact ⟨h.admin, h.min, h.weights, h.effective, h.total, k2, h.cw20⟩
    · unfold funds
      rw [hm]
      exact funds_filter ha f
  | receiveCw20 k n =>
    rw [hm] at hx
    simp only [exec] at hx
    obtain ⟨s', h1, hx⟩ := bind_ok_iff.1 hx
    have hx := pure_ok_iff.1 hx
    obtain ⟨hk, h2, h3, d, h4, rfl⟩ := receiveCw20_ok_iff.1 h1
    cases hs : keep (.cw20 c.env.sender) with
    | true =>
      obtain ⟨d', k1, k2⟩ := distribute_keep h.cw20 hs h4
      refine one c ({ t with cw20 := d' }, []) hdel ?_ ?_ (by rw [← hx]; rfl) (fun _ _ => rfl)
        (by unfold about; rw [hm]; simp only [hs, if_true])
      · rw [hm]
        simp only [exec]
        exact bind_ok_iff.2 ⟨_, receiveCw20_ok_iff.2 ⟨hk, h2, by rw [h.total]; exact h3, d', by rw [h.total]; exact k1, rfl⟩, rfl⟩
      · rw [← hx]
        exact ⟨h.admin, h.min, h.weights, h.effective, h.total, h.native, k2⟩
    | false =>
      have hab : about keep c = [] := by
        unfold about
        rw [hm]
        simp only [hs]
        rfl
      rw [hab, he, ← hx]
      refine ⟨trivial, ⟨h.admin, h.min, h.weights, h.effective, h.total, h.native, distribute_skip h.cw20 hs h4⟩,
        fun u a ha => ⟨rfl, ?_⟩⟩
      unfold distributed funds
      rw [hm]
      simp only
      rw [if_neg (fun hh => by rw [hh, ha] at hs; cases hs)]
  | claim v ds ts =>
    rw [hm] at hx
    simp only [exec] at hx
    obtain ⟨h1, h2, n, d, h3, h4, h5⟩ := claim_ok_iff.1 hx
    have hef : effective t v = effective s v := by unfold effective; rw [h.effective]
    obtain ⟨n', k1, k2, k3⟩ := claims_part (o' := []) ds h.native rfl h3
    obtain ⟨d', m1, m2, m3⟩ := claims_part (o' := []) ts h.cw20 rfl h4
    refine one { c with msg := .claim v (ds.filter (fun d => keep (.native d))) (ts.filter (fun d => keep (.cw20 d))) }
      ({ t with native := n'.1, cw20 := d'.1 }, payMsgs v n'.2 d'.2) hdel ?_ ?_ ?_ (fun a ha => ?_) (by unfold about; rw [hm])
    · simp only [exec]
      exact claim_ok_iff.2 ⟨h1, h2, n', d', by rw [hef]; exact k1, by rw [hef]; exact m1, rfl⟩
    · rw [h5]
      exact ⟨h.admin, h.min, h.weights, h.effective, h.total, k2, m2⟩
    · rw [h5, k3, m3]
      exact payMsgs_filter keep v n.2 d.2
    · unfold funds
      rw [hm]

theorem run_append_list : ∀ (l m : List Call) (s : State), run s (l ++ m) = run (run s l) m
  | [], _, _ => rfl
  | c :: l, m, s => run_append_list l m (step s c).1

theorem claimed_append (u : Addr) (a : AssetInfo) : ∀ (l m : List Call) (s : State),
    claimed u a s (l ++ m) = claimed u a s l + claimed u a (run s l) m
  | [], m, s => by simp [claimed, run]
  | c :: l, m, s => by
    show _ + claimed u a _ (l ++ m) = _ + claimed u a _ l + _
    rw [claimed_append u a l m, Nat.add_assoc]
    rfl

theorem everyAccepted_append : ∀ (l m : List Call) (s : State), everyAccepted s l → everyAccepted (run s l) m → everyAccepted s (l ++ m)
  | [], _, _, _, h => h
  | c :: l, m, s, h, h' => ⟨h.1, everyAccepted_append l m (step s c).1 h.2 h'⟩

theorem run_part {keep : AssetInfo → Bool} : ∀ (h : List Call) {s t : State}, Part keep s t →
    everyAccepted t (onlyAbout keep s h) ∧ Part keep (run s h) (run t (onlyAbout keep s h)) ∧
    ∀ u a, keep a = true → claimed u a t (onlyAbout keep s h) = claimed u a s h ∧
      distributed a t (onlyAbout keep s h) = distributed a s h
  | [], s, t, hp => ⟨trivial, hp, fun _ _ _ => ⟨rfl, rfl⟩⟩
  | c :: l, s, t, hp => by
    show everyAccepted t (_ ++ onlyAbout keep (step s c).1 l) ∧ Part keep (run (step s c).1 l) (run t (_ ++ onlyAbout keep (step s c).1 l)) ∧ _
    by_cases hacc : accepted s c
    · obtain ⟨h1, h2, h3⟩ := step_part hp hacc
      obtain ⟨k1, k2, k3⟩ := run_part l h2
      rw [if_pos hacc, run_append_list]
      refine ⟨everyAccepted_append _ _ _ h1 k1, k2, fun u a ha => ?_⟩
      obtain ⟨e1, e2⟩ := h3 u a ha
      obtain ⟨e3, e4⟩ := k3 u a ha
      constructor
      · show claimed u a t ((if accepted s c then about keep c else []) ++ _) = paid u a (step s c).2 + _
        rw [if_pos hacc, claimed_append, e1, e3]
      · show distributed a t ((if accepted s c then about keep c else []) ++ _) = (if accepted s c then funds c a else 0) + _
        rw [if_pos hacc, if_pos hacc, distributed_append, e2, e4]
    · have hst : step s c = (s, []) := by
        rcases step_cases s c with ⟨_, _, _, _, ha⟩ | ⟨hs, _⟩
        · exact absurd ha hacc
        · exact hs
      rw [if_neg hacc, hst, List.nil_append]
      obtain ⟨k1, k2, k3⟩ := run_part l hp
      refine ⟨k1, k2, fun u a ha => ?_⟩
      obtain ⟨e3, e4⟩ := k3 u a ha
      constructor
      · show claimed u a t ((if accepted s c then about keep c else []) ++ onlyAbout keep (step s c).1 l) =
          paid u a (step s c).2 + claimed u a (step s c).1 l
        rw [if_neg hacc, hst, List.nil_append, e3]
        show _ = 0 + _
        rw [Nat.zero_add]
      · show distributed a t ((if accepted s c then about keep c else []) ++ onlyAbout keep (step s c).1 l) =
          (if accepted s c then funds c a else 0) + distributed a (step s c).1 l
        rw [if_neg hacc, if_neg hacc, hst, List.nil_append, e4, Nat.zero_add]

theorem Part.claimable {keep : AssetInfo → Bool} {s t : State} (h : Part keep s t) (u : Addr) {a : AssetInfo} (ha : keep a = true) :
    Distributor.claimable t u a = Distributor.claimable s u a := by
  have he : Distributor.effective t u = Distributor.effective s u := by unfold Distributor.effective; rw [h.effective]
  cases a with
  | native d => rw [claimable_native, claimable_native, he, h.native.amt ha]
  | cw20 d => rw [claimable_cw20, claimable_cw20, he, h.cw20.amt ha]
  | cw1155 _ _ => rfl

theorem init_empty {ad : Addr} {mw : Option Nat} {ws : List (Addr × Nat)} {s0 : State} (h0 : init ad mw ws = .ok s0) :
    s0.native = Ledger.empty ∧ s0.cw20 = Ledger.empty := by
  unfold init at h0
  have key : ∀ (l : List (Addr × Nat)) (s : State), l.foldlM initOne s = .ok s0 → s.native = Ledger.empty → s.cw20 = Ledger.empty →
      s0.native = Ledger.empty ∧ s0.cw20 = Ledger.empty := by
    intro l
    induction l with
    | nil =>
      intro s h h1 h2
      rw [foldlM_nil_ok_iff] at h
      subst h
      exact ⟨h1, h2⟩
    | cons p l ih =>
      intro s h h1 h2
      obtain ⟨s1, h3, h⟩ := foldlM_cons_ok_iff.1 h
      unfold initOne at h3
      split at h3
      · cases h3
      · obtain ⟨x, h4, h3⟩ := bind_ok_iff.1 h3
        have h3 := pure_ok_iff.1 h3
        exact ih s1 h (by rw [← h3]; exact h1) (by rw [← h3]; exact h2)
  exact key ws _ h0 rfl rfl

theorem part_init {ad : Addr} {mw : Option Nat} {ws : List (Addr × Nat)} {s0 : State} (h0 : init ad mw ws = .ok s0)
    (keep : AssetInfo → Bool) : Part keep s0 s0 := by
  obtain ⟨h1, h2⟩ := init_empty h0
  exact ⟨rfl, rfl, rfl, rfl, rfl, ⟨fun _ _ => rfl, fun _ _ _ => rfl, fun a _ => by rw [h1]; rfl⟩,
    ⟨fun _ _ => rfl, fun _ _ _ => rfl, fun a _ => by rw [h2]; rfl⟩⟩

/-! ## C157 -/

/-- **Assets do not influence each other.** Reduce a history to what its accepted messages say about some of the assets. All that
is left is accepted as well, the same is distributed of these assets, every user has been paid the same of them and can still
claim the same, and has the same weight out of the same total. -/
theorem C157_alone (ad : Addr) (mw : Option Nat) (ws : List (Addr × Nat)) (s0 : State) (h : List Call)
    (h0 : init ad mw ws = .ok s0) (keep : AssetInfo → Bool) :
    everyAccepted s0 (onlyAbout keep s0 h) ∧
    (∀ u, effective (run s0 (onlyAbout keep s0 h)) u = effective (run s0 h) u) ∧
    (run s0 (onlyAbout keep s0 h)).total = (run s0 h).total ∧
    ∀ u a, keep a = true →
      claimed u a s0 (onlyAbout keep s0 h) = claimed u a s0 h ∧
      claimable (run s0 (onlyAbout keep s0 h)) u a = claimable (run s0 h) u a ∧
      distributed a s0 (onlyAbout keep s0 h) = distributed a s0 h := by
  obtain ⟨h1, h2, h3⟩ := run_part h (part_init h0 keep)
  refine ⟨h1, fun u => by unfold effective; rw [h2.effective], h2.total, fun u a ha => ?_⟩
  obtain ⟨e1, e2⟩ := h3 u a ha
  exact ⟨e1, h2.claimable u ha, e2⟩

/-- Two histories that say the same about an asset give every user the same of it. -/
theorem C157_same (ad : Addr) (mw : Option Nat) (ws : List (Addr × Nat)) (s0 : State) (h h' : List Call)
    (h0 : init ad mw ws = .ok s0) (a : AssetInfo)
    (hs : onlyAbout (fun b => decide (b = a)) s0 h = onlyAbout (fun b => decide (b = a)) s0 h') (u : Addr) :
    claimed u a s0 h = claimed u a s0 h' ∧ claimable (run s0 h) u a = claimable (run s0 h') u a := by
  obtain ⟨e1, e2, _⟩ := (C157_alone ad mw ws s0 h h0 (fun b => decide (b = a))).2.2.2 u a (by simp)
  obtain ⟨e3, e4, _⟩ := (C157_alone ad mw ws s0 h' h0 (fun b => decide (b = a))).2.2.2 u a (by simp)
  rw [hs] at e1 e2
  exact ⟨e1.symm.trans e3, e2.symm.trans e4⟩

/-- Other assets get in the way of nothing: a report of weights, a new minimum, a distribution or a claim that is accepted stays
so when nothing was ever distributed of the other assets. -/
theorem C157_accepted (ad : Addr) (mw : Option Nat) (ws : List (Addr × Nat)) (s0 : State) (h : List Call)
    (h0 : init ad mw ws = .ok s0) (keep : AssetInfo → Bool) (c : Call) (hc : accepted (run s0 h) c) (c' : Call)
    (hm : c' ∈ about keep c) : accepted (run s0 (onlyAbout keep s0 h)) c' := by
  obtain ⟨_, h2, _⟩ := run_part h (part_init h0 keep)
  obtain ⟨k1, _, _⟩ := step_part h2 hc
  have : about keep c = [c'] := by
    unfold about at hm ⊢
    cases hmm : c.msg <;> rw [hmm] at hm <;> simp only at hm ⊢
    case receiveCw20 k n =>
      split at hm
      · rw [if_pos (by assumption), List.mem_singleton.1 hm]
      · cases hm
    all_goals rw [List.mem_singleton.1 hm]
  rw [this] at k1
  exact k1.1

/-! ### Examples -/

/-- Distributions and claims of two coins and of a token, and changes of weight in between. -/
def exMixed : List Call :=
  [⟨exEnv 77, .distributeNative [(5, 10), (8, 30)], true⟩, ⟨exEnv 1, .claim 1 [5, 8] [], true⟩,
   ⟨exEnv 10, .updateWeights [(1, 4), (7, 3)], true⟩, ⟨exEnv 900, .receiveCw20 true 100, true⟩,
   ⟨exEnv 77, .distributeNative [(5, 10), (6, 1)], true⟩, ⟨exEnv 77, .distributeNative [(5, 18)], true⟩,
   ⟨exEnv 1, .claim 1 [5] [900], true⟩]

/-- Reduced to the coin 5: the message about coin 6, which is not allowed, was not accepted and is left out. -/
example : onlyAbout (fun b => decide (b = .native 5)) exInit exMixed =
    [⟨exEnv 77, .distributeNative [(5, 10)], true⟩, ⟨exEnv 1, .claim 1 [5] [], true⟩,
     ⟨exEnv 10, .updateWeights [(1, 4), (7, 3)], true⟩, ⟨exEnv 77, .distributeNative [(5, 18)], true⟩,
     ⟨exEnv 1, .claim 1 [5] [], true⟩] := by
  simp only [onlyAbout, exMixed, about]
  rfl

example : claimed 1 (.native 5) exInit exMixed = 11 ∧
    claimed 1 (.native 5) exInit (onlyAbout (fun b => decide (b = .native 5)) exInit exMixed) = 11 ∧
    claimed 1 (.native 8) exInit exMixed = 10 ∧ claimed 1 (.cw20 900) exInit exMixed = 44 ∧
    claimable (run exInit exMixed) 2 (.native 5) = 10 := by
  decide +kernel

end Verif.Distributor
