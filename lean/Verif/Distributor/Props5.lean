import Verif.Distributor.Props4

/-!
# Funds distributor: the claims of others do not matter (C147)
-/

set_option linter.unusedSimpArgs false

namespace Verif.Distributor
open Verif

/-! ### Specification -/

/-- The message claims rewards of somebody other than `u`. -/
def claimsForOther (u : Addr) (c : Call) : Bool :=
  match c.msg with
  | .claim v _ _ => decide (v ≠ u)
  | _ => false

/-- The history without the claims of others. -/
def withoutOthers (u : Addr) (h : List Call) : List Call := h.filter (fun c => !claimsForOther u c)

/-- The message is a claim. -/
def isClaim (c : Call) : Bool :=
  match c.msg with
  | .claim _ _ _ => true
  | _ => false

/-- The history without any claims. -/
def withoutClaims (h : List Call) : List Call := h.filter (fun c => !isClaim c)

/-- The message claims the asset for the user. -/
def claimsOf (u : Addr) (a : AssetInfo) (c : Call) : Bool :=
  match c.msg with
  | .claim v ds ts => decide (v = u) && decide (a ∈ ds.map AssetInfo.native ++ ts.map AssetInfo.cw20)
  | _ => false

/-- How often the user claimed the asset, over a history. -/
def claimsMade (u : Addr) (a : AssetInfo) : State → List Call → Nat
  | _, [] => 0
  | s, c :: t => (if accepted s c ∧ claimsOf u a c = true then 1 else 0) + claimsMade u a (step s c).1 t

/-! ### Lemmas -/

/-- Ledgers that agree but for the entries of users outside of `U`. -/
structure Ledger.Same (U : Addr → Prop) (L M : Ledger) : Prop where
  idx : L.idx = M.idx
  dist : ∀ u a, U u → L.dist.get (toLex (u, a)) = M.dist.get (toLex (u, a))

/-- States that agree but for what users outside of `U` are due. -/
structure Same (U : Addr → Prop) (s t : State) : Prop where
  admin : s.admin = t.admin
  min : s.min = t.min
  weights : s.weights = t.weights
  effective : s.effective = t.effective
  total : s.total = t.total
  native : s.native.Same U t.native
  cw20 : s.cw20.Same U t.cw20

/-- The message is not a claim, or one of a user in `U`. -/
def Fine (U : Addr → Prop) : Msg → Prop
  | .claim v _ _ => U v
  | _ => True

theorem Ledger.Same.global {U : Addr → Prop} {L M : Ledger} (h : L.Same U M) (a : Nat) : L.global a = M.global a := by
  unfold Ledger.global
  rw [h.idx]

theorem Ledger.Same.set {U : Addr → Prop} {L M : Ledger} (h : L.Same U M) (v : Addr) (a : Nat) {d d' : Dist} (hd : U v → d = d') :
    Ledger.Same U { L with dist := L.dist.set (toLex (v, a)) d } { M with dist := M.dist.set (toLex (v, a)) d' } := by
  refine ⟨h.idx, fun u b hu => ?_⟩
  simp only [Map.get_set]
  by_cases hk : (toLex (v, a) : Addr ×ₗ Nat) = toLex (u, b)
  · have := toLex.injective hk
    simp only [Prod.mk.injEq] at this
    rw [if_pos hk, if_pos hk, hd (by rw [this.1]; exact hu)]
  · rw [if_neg hk, if_neg hk, h.dist u b hu]

theorem settle_same {U : Addr → Prop} {v : Addr} {w : Nat} : ∀ (l : List (Nat × Nat)) {L M L' M' : Ledger}, L.Same U M →
    l.foldlM (Ledger.settleOne v w) L = .ok L' → l.foldlM (Ledger.settleOne v w) M = .ok M' → L'.Same U M'
  | [], L, M, L', M', h, hL, hM => by
    rw [foldlM_nil_ok_iff] at hL hM
    subst hL hM
    exact h
  | e :: l, L, M, L', M', h, hL, hM => by
    obtain ⟨L1, hL1, hL⟩ := foldlM_cons_ok_iff.1 hL
    obtain ⟨M1, hM1, hM⟩ := foldlM_cons_ok_iff.1 hM
    refine settle_same l ?_ hL hM
    unfold Ledger.settleOne at hL1 hM1
    obtain ⟨r, hr, hL1⟩ := bind_ok_iff.1 hL1
    obtain ⟨q, hq, hM1⟩ := bind_ok_iff.1 hM1
    rw [pure_ok_iff] at hL1 hM1
    subst hL1 hM1
    refine h.set v e.1 (fun hv => ?_)
    rw [h.dist v e.1 hv, hq] at hr
    cases hr
    rfl

theorem initUser_same {U : Addr → Prop} {v : Addr} : ∀ (l : List (Nat × Nat)) {L M : Ledger}, L.Same U M →
    (l.foldl (Ledger.initOne v) L).Same U (l.foldl (Ledger.initOne v) M)
  | [], _, _, h => h
  | e :: l, L, M, h => by
    refine initUser_same l ?_
    unfold Ledger.initOne
    cases hL : L.dist.get (toLex (v, e.1)) <;> cases hM : M.dist.get (toLex (v, e.1)) <;>
      refine h.set v e.1 (fun hv => ?_) <;> have := h.dist v e.1 hv <;> rw [hL, hM] at this <;> cases this <;> rfl

theorem refresh_same {U : Addr → Prop} {v : Addr} {s t : State} (h : Same U s t) (hc : Core t) (ho : ∀ a, owedOf t a < ONE * M128)
    {x : Ledger × Ledger} (hx : refresh s v = .ok x) : ∃ y, refresh t v = .ok y ∧ x.1.Same U y.1 ∧ x.2.Same U y.2 := by
  obtain ⟨⟨n, hn⟩, c, hcw⟩ := settle_both_exists hc ho v
  unfold refresh at hx ⊢
  rw [h.effective] at hx
  cases hv : t.effective.get v with
  | none =>
    rw [hv] at hx
    simp only [Except.ok.injEq] at hx
    subst hx
    refine ⟨_, rfl, ?_, ?_⟩
    · unfold Ledger.initUser
      simp only
      rw [h.native.idx]
      exact initUser_same _ h.native
    · unfold Ledger.initUser
      simp only
      rw [h.cw20.idx]
      exact initUser_same _ h.cw20
  | some w =>
    rw [hv] at hx hn hcw
    simp only [Option.getD_some] at hn hcw
    obtain ⟨n', hn', hx⟩ := bind_ok_iff.1 hx
    obtain ⟨c', hc', hx⟩ := bind_ok_iff.1 hx
    rw [pure_ok_iff] at hx
    subst hx
    refine ⟨(n, c), bind_ok_iff.2 ⟨n, hn, bind_ok_iff.2 ⟨c, hcw, rfl⟩⟩, ?_, ?_⟩
    · unfold Ledger.settle at hn' hn
      rw [h.native.idx] at hn'
      exact settle_same _ h.native hn' hn
    · unfold Ledger.settle at hc' hcw
      rw [h.cw20.idx] at hc'
      exact settle_same _ h.cw20 hc' hcw

theorem updateOne_same {U : Addr → Prop} {s t s' : State} (h : Same U s t) (hi : Inv t) (ho : ∀ a, owedOf t a < ONE * M128)
    {p : Addr × Nat} (hx : updateOne s p = .ok s') : ∃ t', updateOne t p = .ok t' ∧ Same U s' t' := by
  unfold updateOne at hx
  obtain ⟨x, h1, hx⟩ := bind_ok_iff.1 hx
  obtain ⟨t1, h2, hx⟩ := bind_ok_iff.1 hx
  obtain ⟨t2, h3, hx⟩ := bind_ok_iff.1 hx
  rw [pure_ok_iff] at hx
  subst hx
  obtain ⟨y, g1, g2, g3⟩ := refresh_same h hi.toCore ho h1
  rw [h.total, h.effective] at h2
  rw [h.min] at h3
  refine ⟨_, bind_ok_iff.2 ⟨y, g1, bind_ok_iff.2 ⟨t1, h2, bind_ok_iff.2 ⟨t2, h3, rfl⟩⟩⟩, h.admin, h.min, ?_, ?_, rfl, g2, g3⟩
  · simp only [h.weights]
  · simp only [h.effective, h.min]

theorem updates_same {U : Addr → Prop} : ∀ (l : List (Addr × Nat)) {s t s' : State}, Same U s t → Inv t →
    (∀ a, owedOf t a < ONE * M128) → l.foldlM updateOne s = .ok s' → ∃ t', l.foldlM updateOne t = .ok t' ∧ Same U s' t'
  | [], s, t, s', h, _, _, hx => by
    rw [foldlM_nil_ok_iff] at hx
    subst hx
    exact ⟨t, rfl, h⟩
  | p :: l, s, t, s', h, hi, ho, hx => by
    obtain ⟨s1, h1, hx⟩ := foldlM_cons_ok_iff.1 hx
    obtain ⟨t1, g1, g2⟩ := updateOne_same h hi ho h1
    obtain ⟨i1, q1, _⟩ := updateOne_ok hi g1
    obtain ⟨t', k1, k2⟩ := updates_same l g2 i1 (fun a => lt_of_le_of_lt (q1.owed a) (ho a)) hx
    exact ⟨t', foldlM_cons_ok_iff.2 ⟨t1, g1, k1⟩, k2⟩

theorem minOne_same {U : Addr → Prop} {b : Bool} {s t s' : State} (h : Same U s t) (hc : Core t) (ho : ∀ a, owedOf t a < ONE * M128)
    {p : Addr × Nat} (hx : minOne b s p = .ok s') : ∃ t', minOne b t p = .ok t' ∧ Same U s' t' := by
  obtain ⟨⟨n, hn⟩, c, hcw⟩ := settle_both_exists hc ho p.1
  unfold minOne at hx
  simp only at hx
  obtain ⟨n', h1, hx⟩ := bind_ok_iff.1 hx
  obtain ⟨c', h2, hx⟩ := bind_ok_iff.1 hx
  obtain ⟨t1, h3, hx⟩ := bind_ok_iff.1 hx
  obtain ⟨t2, h4, hx⟩ := bind_ok_iff.1 hx
  rw [pure_ok_iff] at hx
  subst hx
  rw [h.effective] at h1 h2
  rw [h.total, h.effective] at h3
  refine ⟨_, bind_ok_iff.2 ⟨n, hn, bind_ok_iff.2 ⟨c, hcw, bind_ok_iff.2 ⟨t1, h3, bind_ok_iff.2 ⟨t2, h4, rfl⟩⟩⟩⟩,
    h.admin, h.min, h.weights, ?_, rfl, ?_, ?_⟩
  · simp only [h.effective]
  · unfold Ledger.settle at h1 hn
    rw [h.native.idx] at h1
    exact settle_same _ h.native h1 hn
  · unfold Ledger.settle at h2 hcw
    rw [h.cw20.idx] at h2
    exact settle_same _ h.cw20 h2 hcw

theorem mins_same {U : Addr → Prop} {b : Bool} : ∀ (l : List (Addr × Nat)) {s t s' : State}, Same U s t → Core t →
    (∀ a, owedOf t a < ONE * M128) → l.foldlM (minOne b) s = .ok s' → ∃ t', l.foldlM (minOne b) t = .ok t' ∧ Same U s' t'
  | [], s, t, s', h, _, _, hx => by
    rw [foldlM_nil_ok_iff] at hx
    subst hx
    exact ⟨t, rfl, h⟩
  | p :: l, s, t, s', h, hc, ho, hx => by
    obtain ⟨s1, h1, hx⟩ := foldlM_cons_ok_iff.1 hx
    obtain ⟨t1, g1, g2⟩ := minOne_same h hc ho h1
    obtain ⟨q1, _⟩ := minOne_ok hc g1
    obtain ⟨t', k1, k2⟩ := mins_same l g2 q1.core (fun a => lt_of_le_of_lt (q1.owed a) (ho a)) hx
    exact ⟨t', foldlM_cons_ok_iff.2 ⟨t1, g1, k1⟩, k2⟩

theorem distribute_same {U : Addr → Prop} {n : Nat} : ∀ (l : List (Nat × Nat)) {L M L' : Ledger}, L.Same U M →
    l.foldlM (Ledger.distributeOne n) L = .ok L' → ∃ M', l.foldlM (Ledger.distributeOne n) M = .ok M' ∧ L'.Same U M'
  | [], L, M, L', h, hx => by
    rw [foldlM_nil_ok_iff] at hx
    subst hx
    exact ⟨M, rfl, h⟩
  | f :: l, L, M, L', h, hx => by
    obtain ⟨L1, h1, hx⟩ := foldlM_cons_ok_iff.1 hx
    unfold Ledger.distributeOne at h1
    obtain ⟨r, h2, h1⟩ := bind_ok_iff.1 h1
    obtain ⟨g, h3, h1⟩ := bind_ok_iff.1 h1
    rw [pure_ok_iff] at h1
    subst h1
    rw [h.global] at h3
    have hs : Ledger.Same U { L with idx := L.idx.set f.1 g } { M with idx := M.idx.set f.1 g } :=
      ⟨by simp only [h.idx], h.dist⟩
    obtain ⟨M', k1, k2⟩ := distribute_same l hs hx
    refine ⟨M', foldlM_cons_ok_iff.2 ⟨_, ?_, k1⟩, k2⟩
    unfold Ledger.distributeOne
    exact bind_ok_iff.2 ⟨r, h2, bind_ok_iff.2 ⟨g, h3, rfl⟩⟩

theorem claims_same {U : Addr → Prop} {u : Addr} (hu : U u) {w : Nat} : ∀ (l : List Nat) {L M : Ledger} {o : List (Nat × Nat)} {x : Ledger × List (Nat × Nat)},
    L.Same U M → l.foldlM (Ledger.claimOne u w) (L, o) = .ok x →
    ∃ y, l.foldlM (Ledger.claimOne u w) (M, o) = .ok y ∧ x.1.Same U y.1 ∧ x.2 = y.2
  | [], L, M, o, x, h, hx => by
    rw [foldlM_nil_ok_iff] at hx
    subst hx
    exact ⟨_, rfl, h, rfl⟩
  | a :: l, L, M, o, x, h, hx => by
    obtain ⟨x1, h1, hx⟩ := foldlM_cons_ok_iff.1 hx
    have key : ∃ y1 : Ledger × List (Nat × Nat), Ledger.claimOne u w (M, o) a = .ok y1 ∧ x1.1.Same U y1.1 ∧ x1.2 = y1.2 := by
      unfold Ledger.claimOne at h1 ⊢
      simp only [h.global, h.dist u a hu] at h1 ⊢
      by_cases h0 : M.global a = 0
      · rw [if_pos h0] at h1 ⊢
        cases h1
        exact ⟨_, rfl, h, rfl⟩
      · rw [if_neg h0] at h1 ⊢
        obtain ⟨r, h2, h1⟩ := bind_ok_iff.1 h1
        by_cases hr : r = 0
        · rw [if_pos hr] at h1
          cases h1
          exact ⟨(M, o), bind_ok_iff.2 ⟨r, h2, by rw [if_pos hr]⟩, h, rfl⟩
        · rw [if_neg hr] at h1
          cases h1
          exact ⟨({ M with dist := M.dist.set (toLex (u, a)) ⟨M.global a, 0⟩ }, o ++ [(a, r)]),
            bind_ok_iff.2 ⟨r, h2, by rw [if_neg hr]⟩, h.set u a (fun _ => rfl), rfl⟩
    obtain ⟨⟨M1, o1⟩, k1, k2, k3⟩ := key
    obtain ⟨L1, o2⟩ := x1
    simp only at k2 k3
    subst k3
    obtain ⟨y, m1, m2, m3⟩ := claims_same hu l k2 hx
    exact ⟨y, foldlM_cons_ok_iff.2 ⟨_, k1, m1⟩, m2, m3⟩

theorem exec_same {U : Addr → Prop} {s t : State} (h : Same U s t) (hi : Inv t) (ho : ∀ a, owedOf t a < ONE * M128) {e : Env}
    {m : Msg} (hm : Fine U m) {x : State × List Out} (hx : exec s e m = .ok x) :
    ∃ y, exec t e m = .ok y ∧ Same U x.1 y.1 ∧ x.2 = y.2 := by
  cases m with
  | updateWeights l =>
    simp only [exec] at hx ⊢
    obtain ⟨s', h1, hx⟩ := bind_ok_iff.1 hx
    rw [pure_ok_iff] at hx
    subst hx
    unfold updateWeights at h1 ⊢
    rw [h.admin] at h1
    by_cases h2 : e.sender ≠ t.admin
    · rw [if_pos h2] at h1; cases h1
    rw [if_neg h2] at h1
    obtain ⟨t', k1, k2⟩ := updates_same l h hi ho h1
    exact ⟨(t', []), bind_ok_iff.2 ⟨t', by rw [if_neg h2]; exact k1, rfl⟩, k2, rfl⟩
  | updateMin n =>
    simp only [exec] at hx ⊢
    obtain ⟨s', h1, hx⟩ := bind_ok_iff.1 hx
    rw [pure_ok_iff] at hx
    subst hx
    unfold updateMin at h1 ⊢
    rw [h.admin, h.min] at h1
    by_cases h2 : e.sender ≠ t.admin
    · rw [if_pos h2] at h1; cases h1
    rw [if_neg h2] at h1 ⊢
    by_cases h3 : t.min = n
    · rw [if_pos h3] at h1
      cases h1
      exact ⟨(t, []), by rw [if_pos h3]; rfl, h, rfl⟩
    rw [if_neg h3] at h1 ⊢
    obtain ⟨s1, h4, h1⟩ := bind_ok_iff.1 h1
    rw [pure_ok_iff] at h1
    subst h1
    have ha : affected s t.min n = affected t t.min n := by unfold affected; rw [h.weights]
    rw [ha] at h4
    obtain ⟨t', k1, k2⟩ := mins_same _ h hi.toCore ho h4
    exact ⟨({ t' with min := n }, []), bind_ok_iff.2 ⟨_, bind_ok_iff.2 ⟨t', k1, rfl⟩, rfl⟩,
      ⟨k2.admin, rfl, k2.weights, k2.effective, k2.total, k2.native, k2.cw20⟩, rfl⟩
  | distributeNative f =>
    simp only [exec] at hx ⊢
    obtain ⟨s', h1, hx⟩ := bind_ok_iff.1 hx
    rw [pure_ok_iff] at hx
    subst hx
    obtain ⟨h2, h3, n, h4, rfl⟩ := distributeNative_ok_iff.1 h1
    rw [h.total] at h3 h4
    obtain ⟨n', k1, k2⟩ := distribute_same f h.native h4
    exact ⟨({ t with native := n' }, []), bind_ok_iff.2 ⟨_, distributeNative_ok_iff.2 ⟨h2, h3, n', k1, rfl⟩, rfl⟩,
      ⟨h.admin, h.min, h.weights, h.effective, h.total, k2, h.cw20⟩, rfl⟩
  | receiveCw20 k n =>
    simp only [exec] at hx ⊢
    obtain ⟨s', h1, hx⟩ := bind_ok_iff.1 hx
    rw [pure_ok_iff] at hx
    subst hx
    obtain ⟨hk, h2, h3, c, h4, rfl⟩ := receiveCw20_ok_iff.1 h1
    rw [h.total] at h3 h4
    obtain ⟨c', k1, k2⟩ := distribute_same [(e.sender, n)] h.cw20 (L' := c) (foldlM_cons_ok_iff.2 ⟨c, h4, rfl⟩)
    obtain ⟨c2, k4, k3⟩ := foldlM_cons_ok_iff.1 k1
    rw [foldlM_nil_ok_iff] at k3
    subst k3
    exact ⟨({ t with cw20 := c2 }, []), bind_ok_iff.2 ⟨_, receiveCw20_ok_iff.2 ⟨hk, h2, h3, c2, k4, rfl⟩, rfl⟩,
      ⟨h.admin, h.min, h.weights, h.effective, h.total, h.native, k2⟩, rfl⟩
  | claim v ds ts =>
    simp only [exec] at hx ⊢
    obtain ⟨h1, h2, n, c, h3, h4, h5⟩ := claim_ok_iff.1 hx
    have he : effective s v = effective t v := by unfold effective; rw [h.effective]
    rw [he] at h3 h4
    obtain ⟨n', k1, k2, k3⟩ := claims_same hm ds h.native h3
    obtain ⟨c', m1, m2, m3⟩ := claims_same hm ts h.cw20 h4
    refine ⟨_, claim_ok_iff.2 ⟨h1, h2, n', c', k1, m1, rfl⟩, ?_, ?_⟩
    · rw [h5]
      exact ⟨h.admin, h.min, h.weights, h.effective, h.total, k2, m2⟩
    · rw [h5]
      simp only [k3, m3]

/-- A claim of somebody else. -/
theorem other_same {U : Addr → Prop} {s : State} {e : Env} {v : Addr} {ds ts : List Nat} (hv : ¬ U v) (hi : Inv s)
    {x : State × List Out} (hx : exec s e (.claim v ds ts) = .ok x) : Same U x.1 s ∧ ∀ u a, U u → paid u a x.2 = 0 := by
  simp only [exec] at hx
  obtain ⟨h1, h2, n, c, h3, h4, h5⟩ := claim_ok_iff.1 hx
  obtain ⟨p1, _, q1⟩ := Ledger.claim_fold (eff := s.effective) rfl ds _ _ h3 hi.native
  obtain ⟨p2, _, q2⟩ := Ledger.claim_fold (eff := s.effective) rfl ts _ _ h4 hi.cw20
  subst h5
  refine ⟨⟨rfl, rfl, rfl, rfl, rfl, ⟨q1.idx, fun u a hu => ?_⟩, ⟨q2.idx, fun u a hu => ?_⟩⟩, fun u a hu => ?_⟩
  · exact q1.others u a (by rintro ⟨h, _⟩; exact hv (h ▸ hu))
  · exact q2.others u a (by rintro ⟨h, _⟩; exact hv (h ▸ hu))
  · have := paid_payMsgs v u n.2 c.2 a
    rw [if_neg (fun h : u = v => hv (h ▸ hu))] at this
    exact this

theorem Same.symm {U : Addr → Prop} {s t : State} (h : Same U s t) : Same U t s :=
  ⟨h.admin.symm, h.min.symm, h.weights.symm, h.effective.symm, h.total.symm, ⟨h.native.idx.symm, fun u a hu => (h.native.dist u a hu).symm⟩,
    ⟨h.cw20.idx.symm, fun u a hu => (h.cw20.dist u a hu).symm⟩⟩

theorem Same.trans {U : Addr → Prop} {s t r : State} (h : Same U s t) (g : Same U t r) : Same U s r :=
  ⟨h.admin.trans g.admin, h.min.trans g.min, h.weights.trans g.weights, h.effective.trans g.effective, h.total.trans g.total,
    ⟨h.native.idx.trans g.native.idx, fun u a hu => (h.native.dist u a hu).trans (g.native.dist u a hu)⟩,
    ⟨h.cw20.idx.trans g.cw20.idx, fun u a hu => (h.cw20.dist u a hu).trans (g.cw20.dist u a hu)⟩⟩

theorem Same.claimable {U : Addr → Prop} {u : Addr} (hu : U u) {s t : State} (h : Same U s t) (a : AssetInfo) : Distributor.claimable s u a = Distributor.claimable t u a := by
  have he : Distributor.effective s u = Distributor.effective t u := by unfold Distributor.effective; rw [h.effective]
  cases a with
  | native d => rw [claimable_native, claimable_native, he]; unfold Ledger.amt; rw [h.native.global, h.native.dist u d hu]
  | cw20 d => rw [claimable_cw20, claimable_cw20, he]; unfold Ledger.amt; rw [h.cw20.global, h.cw20.dist u d hu]
  | cw1155 _ _ => rfl

theorem step_same {U : Addr → Prop} {s t : State} (h : Same U s t) (hi : Inv s) (hj : Inv t) (ho : ∀ a, owedOf s a < ONE * M128)
    (hq : ∀ a, owedOf t a < ONE * M128) {c : Call} (hc : Fine U c.msg) :
    (accepted s c ↔ accepted t c) ∧ Same U (step s c).1 (step t c).1 ∧ (step s c).2 = (step t c).2 := by
  obtain ⟨e, m, d⟩ := c
  have h1 : ∀ x, exec s e m = .ok x → ∃ y, exec t e m = .ok y ∧ Same U x.1 y.1 ∧ x.2 = y.2 := fun x hx => exec_same h hj hq hc hx
  have h2 : ∀ x, exec t e m = .ok x → ∃ y, exec s e m = .ok y ∧ Same U x.1 y.1 ∧ x.2 = y.2 :=
    fun x hx => exec_same h.symm hi ho hc hx
  refine ⟨⟨fun ⟨h3, x, hx⟩ => ?_, fun ⟨h3, x, hx⟩ => ?_⟩, ?_⟩
  · obtain ⟨y, hy, _⟩ := h1 x hx
    exact ⟨h3, y, hy⟩
  · obtain ⟨y, hy, _⟩ := h2 x hx
    exact ⟨h3, y, hy⟩
  · unfold step
    simp only
    cases hs : exec s e m with
    | ok x =>
      obtain ⟨y, hy, h3, h4⟩ := h1 x hs
      rw [hy]
      simp only
      by_cases hd : d = true
      · rw [if_pos hd, if_pos hd]; exact ⟨h3, h4⟩
      · rw [if_neg hd, if_neg hd]; exact ⟨h, rfl⟩
    | error _ =>
      cases ht : exec t e m with
      | ok y =>
        obtain ⟨x, hx, _⟩ := h2 y ht
        rw [hs] at hx
        cases hx
      | error _ => exact ⟨h, rfl⟩

theorem run_same {u : Addr} : ∀ (h : List Call) {s t : State}, Same (· = u) s t → Inv s → Inv t →
    (∀ a, owedOf s a + ONE * distributed a s h < ONE * M128) → (∀ a, owedOf t a + ONE * distributed a s h < ONE * M128) →
    Same (· = u) (run s h) (run t (withoutOthers u h)) ∧
    ∀ a, claimed u a s h = claimed u a t (withoutOthers u h) ∧ distributed a s h = distributed a t (withoutOthers u h)
  | [], _, _, h, _, _, _, _ => ⟨h, fun _ => ⟨rfl, rfl⟩⟩
  | c :: l, s, t, h, hi, hj, ho, hq => by
    have hos : ∀ a, owedOf s a < ONE * M128 := fun a => Nat.lt_of_le_of_lt (Nat.le_add_right _ _) (ho a)
    have hot : ∀ a, owedOf t a < ONE * M128 := fun a => Nat.lt_of_le_of_lt (Nat.le_add_right _ _) (hq a)
    obtain ⟨i1, _, o1⟩ := step_inv hi c
    have hd : ∀ a, distributed a s (c :: l) = (if accepted s c then funds c a else 0) + distributed a (step s c).1 l := fun _ => rfl
    have hnext : ∀ a, owedOf (step s c).1 a + ONE * distributed a (step s c).1 l < ONE * M128 := by
      intro a
      have h1 := o1 a
      have h2 := ho a
      rw [hd, Nat.mul_add] at h2
      generalize ONE * paidAll a (step s c).2 = z1 at h1
      generalize ONE * (if accepted s c then funds c a else 0) = z2 at h1 h2
      generalize ONE * distributed a (step s c).1 l = z3 at h2 ⊢
      generalize ONE * M128 = z4 at h2 ⊢
      omega
    by_cases hc : claimsForOther u c = true
    · have hw : withoutOthers u (c :: l) = withoutOthers u l := by
        unfold withoutOthers
        rw [List.filter_cons, if_neg (by rw [hc]; decide)]
      rw [hw]
      have hf : ∀ a, funds c a = 0 := by
        intro a
        unfold claimsForOther at hc
        unfold funds
        cases hm : c.msg <;> rw [hm] at hc <;> first | rfl | cases hc
      have hs : Same (· = u) (step s c).1 s ∧ ∀ a, paid u a (step s c).2 = 0 := by
        rcases step_cases s c with ⟨x, hx, _, he, _⟩ | ⟨he, _⟩
        · rw [he]
          unfold claimsForOther at hc
          cases hm : c.msg with
          | claim v ds ts =>
            rw [hm] at hx hc
            obtain ⟨g1, g2⟩ := other_same (U := (· = u)) (of_decide_eq_true hc) hi hx
            exact ⟨g1, fun a => g2 u a rfl⟩
          | updateWeights _ => rw [hm] at hc; cases hc
          | updateMin _ => rw [hm] at hc; cases hc
          | distributeNative _ => rw [hm] at hc; cases hc
          | receiveCw20 _ _ => rw [hm] at hc; cases hc
        · rw [he]
          exact ⟨⟨rfl, rfl, rfl, rfl, rfl, ⟨rfl, fun _ _ _ => rfl⟩, ⟨rfl, fun _ _ _ => rfl⟩⟩, fun _ => rfl⟩
      have hd2 : ∀ a, distributed a s (c :: l) = distributed a (step s c).1 l := by
        intro a
        rw [hd, hf]
        simp
      obtain ⟨k1, k2⟩ := run_same l (hs.1.trans h) i1 hj hnext (fun a => by rw [← hd2]; exact hq a)
      refine ⟨k1, fun a => ⟨?_, ?_⟩⟩
      · rw [← (k2 a).1]
        show paid u a (step s c).2 + _ = _
        rw [hs.2, Nat.zero_add]
      · rw [← (k2 a).2, hd2]
    · have hc := Bool.eq_false_iff.2 hc
      have hw : withoutOthers u (c :: l) = c :: withoutOthers u l := by
        unfold withoutOthers
        rw [List.filter_cons, if_pos (by rw [hc]; decide)]
      rw [hw]
      have hfine : Fine (· = u) c.msg := by
        unfold claimsForOther at hc
        cases hm : c.msg with
        | claim v ds ts => rw [hm] at hc; show v = u; simpa using hc
        | _ => trivial
      obtain ⟨g1, g2, g3⟩ := step_same h hi hj hos hot hfine
      obtain ⟨j1, _, p1⟩ := step_inv hj c
      have hnext' : ∀ a, owedOf (step t c).1 a + ONE * distributed a (step s c).1 l < ONE * M128 := by
        intro a
        have h1 := p1 a
        have h2 := hq a
        rw [hd, Nat.mul_add] at h2
        simp only [← g1] at h1
        generalize ONE * paidAll a (step t c).2 = z1 at h1
        generalize ONE * (if accepted s c then funds c a else 0) = z2 at h1 h2
        generalize ONE * distributed a (step s c).1 l = z3 at h2 ⊢
        generalize ONE * M128 = z4 at h2 ⊢
        omega
      obtain ⟨k1, k2⟩ := run_same l g2 i1 j1 hnext hnext'
      refine ⟨k1, fun a => ⟨?_, ?_⟩⟩
      · show paid u a (step s c).2 + _ = paid u a (step t c).2 + _
        rw [g3, (k2 a).1]
      · rw [hd, (k2 a).2]
        show _ = (if accepted t c then funds c a else 0) + _
        simp only [g1]

/-- Two ledgers, the second without claims: what the user has been paid (`P`) and is due is what the user is due in the second,
but for `k` at most, and will be so at any later index. -/
def Near (L M : Ledger) (u : Addr) (w a P k : Nat) : Prop :=
  ∀ g, L.global a ≤ g →
    P + ((L.at_ u a).pending + w * (g - (L.at_ u a).index) / ONE) ≤ (M.at_ u a).pending + w * (g - (M.at_ u a).index) / ONE ∧
    (M.at_ u a).pending + w * (g - (M.at_ u a).index) / ONE ≤
      P + ((L.at_ u a).pending + w * (g - (L.at_ u a).index) / ONE) + k

theorem near_fresh_entry {L L' : Ledger} {u : Addr} {w a r : Nat} (h : Ledger.Fresh L L' u w) (hr : L.amt u w a = .ok r) :
    (L'.at_ u a).pending = r ∧ (L'.at_ u a).index = L.global a := by
  have h0 := h.same 0 a
  have h1 := h.same ONE a
  rw [hr] at h0 h1
  obtain ⟨a1, _, a2⟩ := Ledger.amt_ok_iff.1 h0
  obtain ⟨_, _, a3⟩ := Ledger.amt_ok_iff.1 h1
  rw [Nat.zero_mul, Nat.zero_div, Nat.zero_add] at a2
  rw [Nat.mul_div_cancel_left _ (by decide : 0 < ONE)] at a3
  rw [h.global] at a1 a3
  exact ⟨a2.symm, by omega⟩

theorem near_fresh {L M L' M' : Ledger} {u : Addr} {w a P k : Nat} (h : Near L M u w a P k) (hg : L.idx = M.idx)
    (hL : Ledger.Fresh L L' u w) (hM : Ledger.Fresh M M' u w) {r q : Nat} (hr : L.amt u w a = .ok r)
    (hq : M.amt u w a = .ok q) (w' : Nat) : Near L' M' u w' a P k := by
  intro g _
  obtain ⟨h1, h2⟩ := near_fresh_entry hL hr
  obtain ⟨h3, h4⟩ := near_fresh_entry hM hq
  have hgl : M.global a = L.global a := by unfold Ledger.global; rw [hg]
  obtain ⟨_, _, e1⟩ := Ledger.amt_ok_iff.1 hr
  obtain ⟨_, _, e2⟩ := Ledger.amt_ok_iff.1 hq
  have := h (L.global a) le_rfl
  rw [hgl] at h4 e2
  rw [h1, h2, h3, h4]
  omega

theorem near_other {L M L' M' : Ledger} {u : Addr} {w a P k : Nat} (h : Near L M u w a P k)
    (hg : L.global a ≤ L'.global a) (hL : L'.dist.get (toLex (u, a)) = L.dist.get (toLex (u, a)))
    (hM : M'.dist.get (toLex (u, a)) = M.dist.get (toLex (u, a))) : Near L' M' u w a P k := by
  intro g hg'
  have h1 : L'.at_ u a = L.at_ u a := by unfold Ledger.at_; rw [hL]
  have h2 : M'.at_ u a = M.at_ u a := by unfold Ledger.at_; rw [hM]
  rw [h1, h2]
  exact h g (le_trans hg hg')

theorem near_claim {L M L' : Ledger} {u : Addr} {w a P k r : Nat} (h : Near L M u w a P k) (hr : L.amt u w a = .ok r)
    (hg : L'.idx = L.idx) (he : L'.dist.get (toLex (u, a)) = some ⟨L.global a, 0⟩) : Near L' M u w a (P + r) (k + 1) := by
  intro g hg'
  have hgl : L'.global a = L.global a := Ledger.global_congr hg a
  rw [hgl] at hg'
  have h1 : L'.at_ u a = ⟨L.global a, 0⟩ := by unfold Ledger.at_; rw [he]; rfl
  obtain ⟨h2, _, h3⟩ := Ledger.amt_ok_iff.1 hr
  have h4 := h g hg'
  rw [h1]
  simp only [Nat.zero_add]
  have h5 : w * (g - (L.at_ u a).index) = w * (L.global a - (L.at_ u a).index) + w * (g - L.global a) := by
    rw [← Nat.mul_add]
    congr 1
    omega
  rw [h5] at h4
  generalize w * (L.global a - (L.at_ u a).index) = x at *
  generalize w * (g - L.global a) = y at *
  have h6 : x / ONE + y / ONE ≤ (x + y) / ONE := by
    rw [Nat.add_div (by decide : 0 < ONE)]
    split <;> omega
  have h7 : (x + y) / ONE ≤ x / ONE + y / ONE + 1 := by
    rw [Nat.add_div (by decide : 0 < ONE)]
    split <;> omega
  omega

theorem claims_entry {eff : Map Addr Nat} {u : Addr} {w : Nat} (hw : (eff.get u).getD 0 = w) (a : Nat) : ∀ (l : List Nat)
    (x x' : Ledger × List (Nat × Nat)), l.foldlM (Ledger.claimOne u w) x = .ok x' → x.1.Ok eff →
    ∃ pays, x'.2 = x.2 ++ pays ∧ x'.1.idx = x.1.idx ∧
      ((Ledger.listed a pays = 0 ∧ x'.1.dist.get (toLex (u, a)) = x.1.dist.get (toLex (u, a))) ∨
        (a ∈ l ∧ x.1.amt u w a = .ok (Ledger.listed a pays) ∧ x'.1.dist.get (toLex (u, a)) = some ⟨x.1.global a, 0⟩))
  | [], x, x', h, _ => by
    rw [foldlM_nil_ok_iff] at h
    subst h
    exact ⟨[], by simp, rfl, .inl ⟨rfl, rfl⟩⟩
  | b :: l, x, x', h, hok => by
    obtain ⟨x1, h1, h2⟩ := foldlM_cons_ok_iff.1 h
    obtain ⟨r, hc, ho⟩ := Ledger.claimOne_ok hok h1
    obtain ⟨pays, p1, p2, p3⟩ := claims_entry hw a l x1 x' h2 (hc.ok hok hw)
    have hl : Ledger.listed a ((if r = 0 then [] else [(b, r)]) ++ pays) = (if b = a then r else 0) + Ledger.listed a pays := by
      by_cases hr : r = 0
      · simp [hr]
      · rw [if_neg hr, List.singleton_append, Ledger.listed_cons]
    refine ⟨(if r = 0 then [] else [(b, r)]) ++ pays, by rw [p1, ho, List.append_assoc], p2.trans hc.idx, ?_⟩
    rw [hl]
    by_cases hb : b = a
    · subst hb
      rw [if_pos rfl]
      have hz : Ledger.listed b pays = 0 := by
        rcases p3 with p3 | p3
        · exact p3.1
        · have := hc.after.symm.trans p3.2.1
          cases this' : Ledger.listed b pays with
          | zero => rfl
          | succ n => rw [this'] at this; cases this
      rw [hz, Nat.add_zero]
      rcases hc.entry with ⟨e1, e2⟩ | ⟨e1, e2⟩
      · refine .inr ⟨List.mem_cons_self, hc.before, ?_⟩
        rcases p3 with p3 | p3
        · rw [p3.2, e2]
        · rw [p3.2.2, Ledger.global_congr hc.idx]
      · rcases p3 with p3 | p3
        · exact .inl ⟨e1, p3.2.trans e2⟩
        · exact .inr ⟨List.mem_cons_self, hc.before, by rw [p3.2.2, Ledger.global_congr hc.idx]⟩
    · rw [if_neg hb, Nat.zero_add]
      have ho := hc.others u a (fun hx => hb hx.2.symm)
      rcases p3 with p3 | p3
      · exact .inl ⟨p3.1, p3.2.trans ho⟩
      · refine .inr ⟨List.mem_cons_of_mem _ p3.1, ?_, by rw [p3.2.2, Ledger.global_congr hc.idx]⟩
        rw [← p3.2.1]
        exact (hc.amt_other (fun hx => hb hx.2.symm) w).symm

/-- `Near` for an asset. -/
def NearS (s t : State) (u : Addr) (P k : Nat) : AssetInfo → Prop
  | .native d => Near s.native t.native u (effective s u) d P k
  | .cw20 d => Near s.cw20 t.cw20 u (effective s u) d P k
  | .cw1155 _ _ => P = 0

theorem change_near {U : Addr → Prop} {s t s' t' : State} {u v : Addr} {w P k : Nat} {a : AssetInfo} (h : Same U s t)
    (hi : Core s) (hj : Core t) (ho : ∀ a, owedOf s a < ONE * M128) (hq : ∀ a, owedOf t a < ONE * M128)
    (hn : Ledger.Fresh s.native s'.native v (effective s v)) (hc : Ledger.Fresh s.cw20 s'.cw20 v (effective s v))
    (gn : Ledger.Fresh t.native t'.native v (effective t v)) (gc : Ledger.Fresh t.cw20 t'.cw20 v (effective t v))
    (he : s'.effective = s.effective.set v w) (hnear : NearS s t u P k a) : NearS s' t' u P k a := by
  have hev : effective t v = effective s v := by unfold effective; rw [h.effective]
  rw [hev] at gn gc
  have hes : effective s' u = if v = u then w else effective s u := by
    unfold effective
    rw [he]
    exact effective_set s v u w
  by_cases hv : v = u
  · subst hv
    cases a with
    | native d =>
      obtain ⟨r, hr⟩ := amt_exists hi.native (u := v) (ho (.native d))
      obtain ⟨q, hq⟩ := amt_exists hj.native (u := v) (hq (.native d))
      have hq : t.native.amt v (effective s v) d = .ok q := by rw [← hev]; exact hq
      exact near_fresh hnear h.native.idx hn gn hr hq _
    | cw20 d =>
      obtain ⟨r, hr⟩ := amt_exists hi.cw20 (u := v) (ho (.cw20 d))
      obtain ⟨q, hq⟩ := amt_exists hj.cw20 (u := v) (hq (.cw20 d))
      have hq : t.cw20.amt v (effective s v) d = .ok q := by rw [← hev]; exact hq
      exact near_fresh hnear h.cw20.idx hc gc hr hq _
    | cw1155 _ _ => exact hnear
  · rw [if_neg hv] at hes
    cases a with
    | native d =>
      unfold NearS
      rw [hes]
      exact near_other hnear (le_of_eq (hn.global d).symm) (hn.others u d (Ne.symm hv)) (gn.others u d (Ne.symm hv))
    | cw20 d =>
      unfold NearS
      rw [hes]
      exact near_other hnear (le_of_eq (hc.global d).symm) (hc.others u d (Ne.symm hv)) (gc.others u d (Ne.symm hv))
    | cw1155 _ _ => exact hnear

theorem updateOne_near {U : Addr → Prop} {s t s' t' : State} {u : Addr} {P k : Nat} {a : AssetInfo} (h : Same U s t)
    (hi : Core s) (hj : Core t) (ho : ∀ a, owedOf s a < ONE * M128) (hq : ∀ a, owedOf t a < ONE * M128) {p : Addr × Nat}
    (hx : updateOne s p = .ok s') (hy : updateOne t p = .ok t') (hnear : NearS s t u P k a) : NearS s' t' u P k a := by
  unfold updateOne at hx hy
  obtain ⟨x, h1, hx⟩ := bind_ok_iff.1 hx
  obtain ⟨_, _, hx⟩ := bind_ok_iff.1 hx
  obtain ⟨_, _, hx⟩ := bind_ok_iff.1 hx
  rw [pure_ok_iff] at hx
  subst hx
  obtain ⟨y, g1, hy⟩ := bind_ok_iff.1 hy
  obtain ⟨_, _, hy⟩ := bind_ok_iff.1 hy
  obtain ⟨_, _, hy⟩ := bind_ok_iff.1 hy
  rw [pure_ok_iff] at hy
  subst hy
  obtain ⟨k1, k2⟩ := refresh_ok hi h1
  obtain ⟨k3, k4⟩ := refresh_ok hj g1
  exact change_near h hi hj ho hq k1 k2 k3 k4 rfl hnear

theorem updates_near {U : Addr → Prop} {u : Addr} {P k : Nat} {a : AssetInfo} : ∀ (l : List (Addr × Nat)) {s t s' t' : State},
    Same U s t → Inv s → Inv t → (∀ a, owedOf s a < ONE * M128) → (∀ a, owedOf t a < ONE * M128) →
    l.foldlM updateOne s = .ok s' → l.foldlM updateOne t = .ok t' → NearS s t u P k a → NearS s' t' u P k a
  | [], s, t, s', t', _, _, _, _, _, hx, hy, hn => by
    rw [foldlM_nil_ok_iff] at hx hy
    subst hx hy
    exact hn
  | p :: l, s, t, s', t', h, hi, hj, ho, hq, hx, hy, hn => by
    obtain ⟨s1, h1, hx⟩ := foldlM_cons_ok_iff.1 hx
    obtain ⟨t1, g1, hy⟩ := foldlM_cons_ok_iff.1 hy
    obtain ⟨t2, g2, hs⟩ := updateOne_same h hj hq h1
    rw [g1] at g2
    cases g2
    obtain ⟨i1, q1, _⟩ := updateOne_ok hi h1
    obtain ⟨j1, r1, _⟩ := updateOne_ok hj g1
    exact updates_near l hs i1 j1 (fun a => lt_of_le_of_lt (q1.owed a) (ho a)) (fun a => lt_of_le_of_lt (r1.owed a) (hq a))
      hx hy (updateOne_near h hi.toCore hj.toCore ho hq h1 g1 hn)

theorem minOne_near {U : Addr → Prop} {b : Bool} {s t s' t' : State} {u : Addr} {P k : Nat} {a : AssetInfo} (h : Same U s t)
    (hi : Core s) (hj : Core t) (ho : ∀ a, owedOf s a < ONE * M128) (hq : ∀ a, owedOf t a < ONE * M128) {p : Addr × Nat}
    (hx : minOne b s p = .ok s') (hy : minOne b t p = .ok t') (hnear : NearS s t u P k a) : NearS s' t' u P k a := by
  unfold minOne at hx hy
  simp only at hx hy
  obtain ⟨n, h1, hx⟩ := bind_ok_iff.1 hx
  obtain ⟨c, h2, hx⟩ := bind_ok_iff.1 hx
  obtain ⟨_, _, hx⟩ := bind_ok_iff.1 hx
  obtain ⟨_, _, hx⟩ := bind_ok_iff.1 hx
  rw [pure_ok_iff] at hx
  subst hx
  obtain ⟨n', g1, hy⟩ := bind_ok_iff.1 hy
  obtain ⟨c', g2, hy⟩ := bind_ok_iff.1 hy
  obtain ⟨_, _, hy⟩ := bind_ok_iff.1 hy
  obtain ⟨_, _, hy⟩ := bind_ok_iff.1 hy
  rw [pure_ok_iff] at hy
  subst hy
  exact change_near h hi hj ho hq (Ledger.fresh_settle hi.native h1) (Ledger.fresh_settle hi.cw20 h2)
    (Ledger.fresh_settle hj.native g1) (Ledger.fresh_settle hj.cw20 g2) rfl hnear

theorem mins_near {U : Addr → Prop} {b : Bool} {u : Addr} {P k : Nat} {a : AssetInfo} : ∀ (l : List (Addr × Nat))
    {s t s' t' : State}, Same U s t → Core s → Core t → (∀ a, owedOf s a < ONE * M128) → (∀ a, owedOf t a < ONE * M128) →
    l.foldlM (minOne b) s = .ok s' → l.foldlM (minOne b) t = .ok t' → NearS s t u P k a → NearS s' t' u P k a
  | [], s, t, s', t', _, _, _, _, _, hx, hy, hn => by
    rw [foldlM_nil_ok_iff] at hx hy
    subst hx hy
    exact hn
  | p :: l, s, t, s', t', h, hi, hj, ho, hq, hx, hy, hn => by
    obtain ⟨s1, h1, hx⟩ := foldlM_cons_ok_iff.1 hx
    obtain ⟨t1, g1, hy⟩ := foldlM_cons_ok_iff.1 hy
    obtain ⟨t2, g2, hs⟩ := minOne_same h hj hq h1
    rw [g1] at g2
    cases g2
    obtain ⟨q1, _⟩ := minOne_ok hi h1
    obtain ⟨r1, _⟩ := minOne_ok hj g1
    exact mins_near l hs q1.core r1.core (fun a => lt_of_le_of_lt (q1.owed a) (ho a))
      (fun a => lt_of_le_of_lt (r1.owed a) (hq a)) hx hy (minOne_near h hi hj ho hq h1 g1 hn)

theorem exec_near {s t : State} (h : Same (fun _ => False) s t) (hi : Inv s) (hj : Inv t)
    (ho : ∀ a, owedOf s a < ONE * M128) (hq : ∀ a, owedOf t a < ONE * M128) {e : Env} {m : Msg} (hm : Fine (fun _ => False) m)
    {x y : State × List Out} (hx : exec s e m = .ok x) (hy : exec t e m = .ok y) {u : Addr} {P k : Nat} {a : AssetInfo}
    (hn : NearS s t u P k a) : NearS x.1 y.1 u P k a ∧ x.2 = [] := by
  cases m with
  | claim v ds ts => exact hm.elim
  | updateWeights l =>
    simp only [exec] at hx hy
    obtain ⟨s', h1, hx⟩ := bind_ok_iff.1 hx
    rw [pure_ok_iff] at hx
    subst hx
    obtain ⟨t', g1, hy⟩ := bind_ok_iff.1 hy
    rw [pure_ok_iff] at hy
    subst hy
    refine ⟨?_, rfl⟩
    unfold updateWeights at h1 g1
    rw [h.admin] at h1
    by_cases h2 : e.sender ≠ t.admin
    · rw [if_pos h2] at h1; cases h1
    rw [if_neg h2] at h1 g1
    exact updates_near l h hi hj ho hq h1 g1 hn
  | updateMin n =>
    simp only [exec] at hx hy
    obtain ⟨s', h1, hx⟩ := bind_ok_iff.1 hx
    rw [pure_ok_iff] at hx
    subst hx
    obtain ⟨t', g1, hy⟩ := bind_ok_iff.1 hy
    rw [pure_ok_iff] at hy
    subst hy
    refine ⟨?_, rfl⟩
    unfold updateMin at h1 g1
    rw [h.admin, h.min] at h1
    by_cases h2 : e.sender ≠ t.admin
    · rw [if_pos h2] at h1; cases h1
    rw [if_neg h2] at h1 g1
    by_cases h3 : t.min = n
    · rw [if_pos h3] at h1 g1
      cases h1
      cases g1
      exact hn
    rw [if_neg h3] at h1 g1
    obtain ⟨s1, h4, h1⟩ := bind_ok_iff.1 h1
    rw [pure_ok_iff] at h1
    subst h1
    obtain ⟨t1, g4, g1⟩ := bind_ok_iff.1 g1
    rw [pure_ok_iff] at g1
    subst g1
    have ha : affected s t.min n = affected t t.min n := by unfold affected; rw [h.weights]
    rw [ha] at h4
    have := mins_near _ h hi.toCore hj.toCore ho hq h4 g4 hn
    cases a <;> exact this
  | distributeNative f =>
    simp only [exec] at hx hy
    obtain ⟨s', h1, hx⟩ := bind_ok_iff.1 hx
    rw [pure_ok_iff] at hx
    subst hx
    obtain ⟨t', g1, hy⟩ := bind_ok_iff.1 hy
    rw [pure_ok_iff] at hy
    subst hy
    refine ⟨?_, rfl⟩
    obtain ⟨_, _, n, h4, rfl⟩ := distributeNative_ok_iff.1 h1
    obtain ⟨_, _, n', g4, rfl⟩ := distributeNative_ok_iff.1 g1
    obtain ⟨k1, _, k2, _⟩ := Ledger.distribute_fold hi.total f _ _ h4 hi.native
    obtain ⟨k3, _⟩ := Ledger.distribute_fold hj.total f _ _ g4 hj.native
    cases a with
    | native d => exact near_other hn (k2 d) (by rw [k1]) (by rw [k3])
    | cw20 d => exact hn
    | cw1155 _ _ => exact hn
  | receiveCw20 kn n =>
    simp only [exec] at hx hy
    obtain ⟨s', h1, hx⟩ := bind_ok_iff.1 hx
    rw [pure_ok_iff] at hx
    subst hx
    obtain ⟨t', g1, hy⟩ := bind_ok_iff.1 hy
    rw [pure_ok_iff] at hy
    subst hy
    refine ⟨?_, rfl⟩
    obtain ⟨_, _, _, c, h4, rfl⟩ := receiveCw20_ok_iff.1 h1
    obtain ⟨_, _, _, c', g4, rfl⟩ := receiveCw20_ok_iff.1 g1
    obtain ⟨_, _, _, k1, k2⟩ := Ledger.distributeOne_ok h4
    obtain ⟨_, _, _, k3, _⟩ := Ledger.distributeOne_ok g4
    cases a with
    | native d => exact hn
    | cw20 d => exact near_other hn (by rw [k2]; exact Nat.le_add_right _ _) (by rw [k1]) (by rw [k3])
    | cw1155 _ _ => exact hn

theorem near_mono {L M : Ledger} {u : Addr} {w a P k k' : Nat} (h : Near L M u w a P k) (hk : k ≤ k') : Near L M u w a P k' := by
  intro g hg
  have := h g hg
  omega

theorem nearS_mono {s t : State} {u : Addr} {P k k' : Nat} {a : AssetInfo} (h : NearS s t u P k a) (hk : k ≤ k') :
    NearS s t u P k' a := by
  cases a with
  | native d => exact near_mono h hk
  | cw20 d => exact near_mono h hk
  | cw1155 _ _ => exact h

/-- A claim, on one side only. -/
theorem claim_near {s t : State} (h : Same (fun _ => False) s t) (hi : Inv s) {e : Env} {v : Addr} {ds ts : List Nat}
    {x : State × List Out} (hx : exec s e (.claim v ds ts) = .ok x) {u : Addr} {P k : Nat} {a : AssetInfo}
    (hn : NearS s t u P k a) :
    Same (fun _ => False) x.1 t ∧
    NearS x.1 t u (P + paid u a x.2) (k + if claimsOf u a ⟨e, .claim v ds ts, true⟩ = true then 1 else 0) a := by
  simp only [exec] at hx
  obtain ⟨_, _, n, c, h3, h4, h5⟩ := claim_ok_iff.1 hx
  have hself : ∀ d, (∃ pays, n.2 = [] ++ pays ∧ _) ∧ (∃ pays, c.2 = [] ++ pays ∧ _) := fun d =>
    ⟨claims_entry (eff := s.effective) rfl d ds _ _ h3 hi.native, claims_entry (eff := s.effective) rfl d ts _ _ h4 hi.cw20⟩
  obtain ⟨p1, _, q1⟩ := Ledger.claim_fold (eff := s.effective) rfl ds _ _ h3 hi.native
  obtain ⟨p2, _, q2⟩ := Ledger.claim_fold (eff := s.effective) rfl ts _ _ h4 hi.cw20
  subst h5
  refine ⟨⟨h.admin, h.min, h.weights, h.effective, h.total, ⟨q1.idx.trans h.native.idx, fun _ _ hf => hf.elim⟩,
    ⟨q2.idx.trans h.cw20.idx, fun _ _ hf => hf.elim⟩⟩, ?_⟩
  have hpaid : ∀ b, paid u b (payMsgs v n.2 c.2) = if u = v then paidAll b (payMsgs v n.2 c.2) else 0 := paid_payMsgs v u n.2 c.2
  show NearS _ t u (P + paid u a (payMsgs v n.2 c.2)) _ a
  rw [hpaid]
  by_cases hv : u = v
  · subst hv
    rw [if_pos rfl]
    cases a with
    | native d =>
      rw [paidAll_native]
      obtain ⟨⟨pays, e1, e2, e3⟩, _⟩ := hself d
      rw [List.nil_append] at e1
      rw [e1]
      rcases e3 with ⟨f1, f2⟩ | ⟨f0, f1, f2⟩
      · rw [f1, Nat.add_zero]
        exact near_mono (near_other hn (le_of_eq (Ledger.global_congr e2 d).symm) f2 rfl) (Nat.le_add_right _ _)
      · refine near_mono (near_claim hn f1 e2 f2) ?_
        rw [if_pos]
        simp only [claimsOf, decide_true, Bool.true_and, decide_eq_true_eq, List.mem_append, List.mem_map]
        exact .inl ⟨d, f0, rfl⟩
    | cw20 d =>
      rw [paidAll_cw20]
      obtain ⟨_, ⟨pays, e1, e2, e3⟩⟩ := hself d
      rw [List.nil_append] at e1
      rw [e1]
      rcases e3 with ⟨f1, f2⟩ | ⟨f0, f1, f2⟩
      · rw [f1, Nat.add_zero]
        exact near_mono (near_other hn (le_of_eq (Ledger.global_congr e2 d).symm) f2 rfl) (Nat.le_add_right _ _)
      · refine near_mono (near_claim hn f1 e2 f2) ?_
        rw [if_pos]
        simp only [claimsOf, decide_true, Bool.true_and, decide_eq_true_eq, List.mem_append, List.mem_map]
        exact .inr ⟨d, f0, rfl⟩
    | cw1155 y i =>
      rw [paidAll_cw1155]
      exact hn
  · rw [if_neg hv, Nat.add_zero]
    refine nearS_mono ?_ (Nat.le_add_right _ _)
    cases a with
    | native d =>
      exact near_other hn (le_of_eq (Ledger.global_congr q1.idx d).symm) (q1.others u d (fun hh => hv hh.1)) rfl
    | cw20 d =>
      exact near_other hn (le_of_eq (Ledger.global_congr q2.idx d).symm) (q2.others u d (fun hh => hv hh.1)) rfl
    | cw1155 _ _ => exact hn

theorem run_near {u : Addr} {a : AssetInfo} : ∀ (h : List Call) {s t : State} {P k : Nat}, Same (fun _ => False) s t →
    Inv s → Inv t → (∀ a, owedOf s a + ONE * distributed a s h < ONE * M128) →
    (∀ a, owedOf t a + ONE * distributed a s h < ONE * M128) → NearS s t u P k a →
    Same (fun _ => False) (run s h) (run t (withoutClaims h)) ∧ Inv (run s h) ∧ Inv (run t (withoutClaims h)) ∧
    (∀ a, owedOf (run s h) a < ONE * M128) ∧ (∀ a, owedOf (run t (withoutClaims h)) a < ONE * M128) ∧
    NearS (run s h) (run t (withoutClaims h)) u (P + claimed u a s h) (k + claimsMade u a s h) a
  | [], s, t, P, k, h, hi, hj, ho, hq, hn => ⟨h, hi, hj, ho, hq, hn⟩
  | c :: l, s, t, P, k, h, hi, hj, ho, hq, hn => by
    have hos : ∀ a, owedOf s a < ONE * M128 := fun a => Nat.lt_of_le_of_lt (Nat.le_add_right _ _) (ho a)
    have hot : ∀ a, owedOf t a < ONE * M128 := fun a => Nat.lt_of_le_of_lt (Nat.le_add_right _ _) (hq a)
    obtain ⟨i1, _, o1⟩ := step_inv hi c
    have hd : ∀ a, distributed a s (c :: l) = (if accepted s c then funds c a else 0) + distributed a (step s c).1 l := fun _ => rfl
    have hc1 : claimed u a s (c :: l) = paid u a (step s c).2 + claimed u a (step s c).1 l := rfl
    have hc2 : claimsMade u a s (c :: l) =
      (if accepted s c ∧ claimsOf u a c = true then 1 else 0) + claimsMade u a (step s c).1 l := rfl
    have hnext : ∀ a, owedOf (step s c).1 a + ONE * distributed a (step s c).1 l < ONE * M128 := by
      intro a
      have h1 := o1 a
      have h2 := ho a
      rw [hd, Nat.mul_add] at h2
      generalize ONE * paidAll a (step s c).2 = z1 at h1
      generalize ONE * (if accepted s c then funds c a else 0) = z2 at h1 h2
      generalize ONE * distributed a (step s c).1 l = z3 at h2 ⊢
      generalize ONE * M128 = z4 at h2 ⊢
      omega
    have hr : run s (c :: l) = run (step s c).1 l := rfl
    rw [hc1, hc2, hr, ← Nat.add_assoc, ← Nat.add_assoc]
    by_cases hc : isClaim c = true
    · have hw : withoutClaims (c :: l) = withoutClaims l := by
        unfold withoutClaims
        rw [List.filter_cons, if_neg (by rw [hc]; decide)]
      rw [hw]
      have hf : ∀ a, funds c a = 0 := by
        intro a
        unfold isClaim at hc
        unfold funds
        cases hm : c.msg <;> rw [hm] at hc <;> first | rfl | cases hc
      have hd2 : ∀ a, distributed a s (c :: l) = distributed a (step s c).1 l := by
        intro a
        rw [hd, hf]
        simp
      have hs : Same (fun _ => False) (step s c).1 t ∧
          NearS (step s c).1 t u (P + paid u a (step s c).2) (k + if accepted s c ∧ claimsOf u a c = true then 1 else 0) a := by
        rcases step_cases s c with ⟨x, hx, _, he, hacc⟩ | ⟨he, hacc⟩
        · rw [he]
          have hcm : (accepted s c ∧ claimsOf u a c = true) ↔ claimsOf u a c = true := ⟨fun h => h.2, fun h => ⟨hacc, h⟩⟩
          simp only [hcm]
          unfold isClaim at hc
          obtain ⟨e, m, d⟩ := c
          cases m with
          | claim v ds ts => exact claim_near h hi hx hn
          | updateWeights _ => cases hc
          | updateMin _ => cases hc
          | distributeNative _ => cases hc
          | receiveCw20 _ _ => cases hc
        · rw [he]
          have hcm : ¬ (accepted s c ∧ claimsOf u a c = true) := fun h => hacc h.1
          rw [if_neg hcm]
          exact ⟨h, hn⟩
      exact run_near l hs.1 i1 hj hnext (fun a => by rw [← hd2]; exact hq a) hs.2
    · have hc := Bool.eq_false_iff.2 hc
      have hw : withoutClaims (c :: l) = c :: withoutClaims l := by
        unfold withoutClaims
        rw [List.filter_cons, if_pos (by rw [hc]; decide)]
      rw [hw]
      have hfine : Fine (fun _ => False) c.msg := by
        unfold isClaim at hc
        cases hm : c.msg with
        | claim v ds ts => rw [hm] at hc; cases hc
        | _ => trivial
      obtain ⟨g1, g2, _⟩ := step_same h hi hj hos hot hfine
      obtain ⟨j1, _, p1⟩ := step_inv hj c
      have hnext' : ∀ a, owedOf (step t c).1 a + ONE * distributed a (step s c).1 l < ONE * M128 := by
        intro a
        have h1 := p1 a
        have h2 := hq a
        rw [hd, Nat.mul_add] at h2
        simp only [← g1] at h1
        generalize ONE * paidAll a (step t c).2 = z1 at h1
        generalize ONE * (if accepted s c then funds c a else 0) = z2 at h1 h2
        generalize ONE * distributed a (step s c).1 l = z3 at h2 ⊢
        generalize ONE * M128 = z4 at h2 ⊢
        omega
      have hcm : ¬ (accepted s c ∧ claimsOf u a c = true) := by
        rintro ⟨_, hx⟩
        unfold claimsOf at hx
        unfold isClaim at hc
        cases hm : c.msg <;> rw [hm] at hx hc <;> first | cases hx | cases hc
      rw [if_neg hcm, Nat.add_zero]
      have hs : NearS (step s c).1 (step t c).1 u P k a ∧ (step s c).2 = [] := by
        rcases step_cases s c with ⟨x, hx, _, he, hacc⟩ | ⟨he, hacc⟩
        · rcases step_cases t c with ⟨y, hy, _, he', _⟩ | ⟨_, hacc'⟩
          · rw [he, he']
            exact exec_near h hi hj hos hot hfine hx hy hn
          · exact absurd (g1.1 hacc) hacc'
        · rcases step_cases t c with ⟨y, hy, _, he', hacc'⟩ | ⟨he', _⟩
          · exact absurd (g1.2 hacc') hacc
          · rw [he, he']
            exact ⟨hn, rfl⟩
      rw [hs.2, show paid u a [] = 0 from rfl, Nat.add_zero]
      exact run_near l g2 i1 j1 hnext hnext' hs.1

/-! ### Theorems -/

/-- **Others may claim or not.** Leave the claims of all other users out of a history: the user has been paid the same, of every
asset, can still claim the same, and has the same weight, out of the same total. -/
theorem C147_others (ad : Addr) (mw : Option Nat) (ws : List (Addr × Nat)) (s0 : State) (h : List Call)
    (h0 : init ad mw ws = .ok s0) (hb : ∀ a, distributed a s0 h < 2 ^ 128) (u : Addr) (a : AssetInfo) :
    claimed u a s0 h = claimed u a s0 (withoutOthers u h) ∧
    claimable (run s0 h) u a = claimable (run s0 (withoutOthers u h)) u a ∧
    effective (run s0 h) u = effective (run s0 (withoutOthers u h)) u ∧
    (run s0 h).total = (run s0 (withoutOthers u h)).total := by
  obtain ⟨i0, _, _, o0⟩ := init_inv h0
  have hlt : ∀ a, owedOf s0 a + ONE * distributed a s0 h < ONE * M128 := by
    intro a
    rw [o0 a, Nat.zero_add]
    exact Nat.mul_lt_mul_of_pos_left (hb a) (by decide)
  obtain ⟨h1, h2⟩ := run_same h (u := u) (s := s0) (t := s0)
    ⟨rfl, rfl, rfl, rfl, rfl, ⟨rfl, fun _ _ _ => rfl⟩, ⟨rfl, fun _ _ _ => rfl⟩⟩ i0 i0 hlt hlt
  exact ⟨(h2 a).1, Same.claimable (U := (· = u)) rfl h1 a, by unfold effective; rw [h1.effective], h1.total⟩

/-- **When to claim.** Whether, when and how often a user claims does not matter but for rounding: what a user has been paid of
an asset and can still claim is never more than what the user could claim now if nobody had ever claimed, and it is less by at
most one unit for each of the user's claims of that asset. -/
theorem C147_when (ad : Addr) (mw : Option Nat) (ws : List (Addr × Nat)) (s0 : State) (h : List Call)
    (h0 : init ad mw ws = .ok s0) (hb : ∀ a, distributed a s0 h < 2 ^ 128) (u : Addr) (a : AssetInfo) :
    claimed u a s0 h + claimable (run s0 h) u a ≤ claimable (run s0 (withoutClaims h)) u a ∧
    claimable (run s0 (withoutClaims h)) u a ≤ claimed u a s0 h + claimable (run s0 h) u a + claimsMade u a s0 h := by
  obtain ⟨i0, _, _, o0⟩ := init_inv h0
  have hlt : ∀ a, owedOf s0 a + ONE * distributed a s0 h < ONE * M128 := by
    intro a
    rw [o0 a, Nat.zero_add]
    exact Nat.mul_lt_mul_of_pos_left (hb a) (by decide)
  have hrefl : NearS s0 s0 u 0 0 a := by
    cases a with
    | native d => intro g _; omega
    | cw20 d => intro g _; omega
    | cw1155 _ _ => rfl
  obtain ⟨h1, h2, h3, h4, h5, h6⟩ := run_near h (u := u) (a := a) (s := s0) (t := s0)
    ⟨rfl, rfl, rfl, rfl, rfl, ⟨rfl, fun _ _ hf => hf.elim⟩, ⟨rfl, fun _ _ hf => hf.elim⟩⟩ i0 i0 hlt hlt hrefl
  have he : effective (run s0 (withoutClaims h)) u = effective (run s0 h) u := by unfold effective; rw [h1.effective]
  rw [Nat.zero_add, Nat.zero_add] at h6
  have key : ∀ (L M : Ledger) (d P k : Nat), L.Ok (run s0 h).effective → M.Ok (run s0 (withoutClaims h)).effective →
      L.owed (run s0 h).effective d < ONE * M128 → M.owed (run s0 (withoutClaims h)).effective d < ONE * M128 →
      L.idx = M.idx → Near L M u (effective (run s0 h) u) d P k →
      P + amount (L.amt u (effective (run s0 h) u) d) ≤ amount (M.amt u (effective (run s0 h) u) d) ∧
      amount (M.amt u (effective (run s0 h) u) d) ≤ P + amount (L.amt u (effective (run s0 h) u) d) + k := by
    intro L M d P k hL hM oL oM hidx hn
    obtain ⟨r, hr⟩ := amt_exists hL (u := u) oL
    obtain ⟨q, hq⟩ := amt_exists hM (u := u) oM
    have hr : L.amt u (effective (run s0 h) u) d = .ok r := hr
    have hq : M.amt u (effective (run s0 h) u) d = .ok q := by rw [← he]; exact hq
    rw [hr, hq]
    obtain ⟨_, _, e1⟩ := Ledger.amt_ok_iff.1 hr
    obtain ⟨_, _, e2⟩ := Ledger.amt_ok_iff.1 hq
    have hg : M.global d = L.global d := by unfold Ledger.global; rw [hidx]
    rw [hg] at e2
    have := hn (L.global d) le_rfl
    show P + r ≤ q ∧ q ≤ P + r + k
    omega
  cases a with
  | native d =>
    rw [claimable_native, claimable_native, he]
    exact key _ _ d _ _ h2.native h3.native (h4 (.native d)) (h5 (.native d)) h1.native.idx h6
  | cw20 d =>
    rw [claimable_cw20, claimable_cw20, he]
    exact key _ _ d _ _ h2.cw20 h3.cw20 (h4 (.cw20 d)) (h5 (.cw20 d)) h1.cw20.idx h6
  | cw1155 x i =>
    have h6 : claimed u (.cw1155 x i) s0 h = 0 := h6
    rw [h6]
    exact ⟨Nat.le_refl 0, Nat.zero_le _⟩

/-! ### Examples -/

/-- Twice 5 units of denom 5 are distributed; users 1 and 2 claim in between. -/
def exTwice : List Call :=
  [⟨exEnv 77, .distributeNative [(5, 5)], true⟩, ⟨exEnv 1, .claim 1 [5] [], true⟩, ⟨exEnv 2, .claim 2 [5] [], true⟩,
   ⟨exEnv 77, .distributeNative [(5, 5)], true⟩]

theorem exTwice_fits (a : AssetInfo) : distributed a exInit exTwice < 2 ^ 128 := by
  have h : ∀ (P : Prop) [Decidable P] (n : Nat), (if P then n else 0) ≤ n := fun P _ n => by split <;> omega
  simp only [distributed, exTwice, funds, List.map_cons, List.map_nil, List.sum_cons, List.sum_nil]
  refine Nat.lt_of_le_of_lt (Nat.add_le_add (h _ _) (Nat.add_le_add (h _ _) (Nat.add_le_add (h _ _)
    (Nat.add_le_add (h _ _) (Nat.le_refl _))))) ?_
  have := h (AssetInfo.native 5 = a) 5
  omega

/-- User 2 is paid 3 units, of 10/3, and can claim 3 more, whether user 1 claims or not. -/
example : claimed 2 (.native 5) exInit exTwice = claimed 2 (.native 5) exInit (withoutOthers 2 exTwice) ∧
    claimed 2 (.native 5) exInit exTwice = 3 ∧ (withoutOthers 2 exTwice).length = 3 ∧
    claimable (run exInit (withoutOthers 2 exTwice)) 2 (.native 5) = 3 :=
  ⟨(C147_others 10 (some 1) _ exInit exTwice exInit_eq exTwice_fits 2 (.native 5)).1, by decide +kernel, by decide +kernel,
    by decide +kernel⟩

/-- User 1 is paid 1 unit and can claim 1 more, of 5/3 each; without the claim it would have been 3. -/
example : claimed 1 (.native 5) exInit exTwice + claimable (run exInit exTwice) 1 (.native 5) = 2 ∧
    claimable (run exInit (withoutClaims exTwice)) 1 (.native 5) = 3 ∧ claimsMade 1 (.native 5) exInit exTwice = 1 ∧
    claimable (run exInit (withoutClaims exTwice)) 1 (.native 5) ≤
      claimed 1 (.native 5) exInit exTwice + claimable (run exInit exTwice) 1 (.native 5) +
        claimsMade 1 (.native 5) exInit exTwice :=
  ⟨by decide +kernel, by decide +kernel, by decide +kernel,
    (C147_when 10 (some 1) _ exInit exTwice exInit_eq exTwice_fits 1 (.native 5)).2⟩

end Verif.Distributor
