import Verif.Distributor.Props8

/-!
# Funds distributor: the order of messages (C161)
-/

set_option linter.unusedSimpArgs false

namespace Verif.Distributor
open Verif

/-! ### Specification -/

/-- Two messages that have nothing to do with each other: claims of different users, any two distributions, a claim and a
distribution of assets that it does not name, a claim and a report of weights that does not name the user. -/
def Independent (c d : Call) : Prop :=
  match c.msg, d.msg with
  | .claim u _ _, .claim v _ _ => u ≠ v
  | .claim _ ds _, .distributeNative f => ∀ x ∈ f, x.1 ∉ ds
  | .distributeNative f, .claim _ ds _ => ∀ x ∈ f, x.1 ∉ ds
  | .claim _ _ ts, .receiveCw20 _ _ => d.env.sender ∉ ts
  | .receiveCw20 _ _, .claim _ _ ts => c.env.sender ∉ ts
  | .claim u _ _, .updateWeights l => ∀ p ∈ l, p.1 ≠ u
  | .updateWeights l, .claim u _ _ => ∀ p ∈ l, p.1 ≠ u
  | .distributeNative _, .distributeNative _ => True
  | .distributeNative _, .receiveCw20 _ _ => True
  | .receiveCw20 _ _, .distributeNative _ => True
  | .receiveCw20 _ _, .receiveCw20 _ _ => True
  | _, _ => False

/-- A history in another order: neighbours that are independent have been exchanged, any number of times. -/
inductive Reordered : List Call → List Call → Prop
  | refl (h : List Call) : Reordered h h
  | swap (h t : List Call) (c d : Call) (hi : Independent c d) : Reordered (h ++ c :: d :: t) (h ++ d :: c :: t)
  | trans {h1 h2 h3 : List Call} (h12 : Reordered h1 h2) (h23 : Reordered h2 h3) : Reordered h1 h3

/-! ### Ledgers -/

theorem Ledger.Same.rfl' {U : Addr → Prop} (L : Ledger) : L.Same U L := ⟨rfl, fun _ _ _ => rfl⟩

theorem Ledger.Same.symm {U : Addr → Prop} {L M : Ledger} (h : L.Same U M) : M.Same U L :=
  ⟨h.idx.symm, fun u a hu => (h.dist u a hu).symm⟩

theorem Ledger.Same.trans {U : Addr → Prop} {L M N : Ledger} (h : L.Same U M) (h' : M.Same U N) : L.Same U N :=
  ⟨h.idx.trans h'.idx, fun u a hu => (h.dist u a hu).trans (h'.dist u a hu)⟩

theorem Ledger.Same.mono {U V : Addr → Prop} {L M : Ledger} (h : L.Same U M) (hv : ∀ u, V u → U u) : L.Same V M :=
  ⟨h.idx, fun u a hu => h.dist u a (hv u hu)⟩

/-- Ledgers that agree for a user and for all others are the same. -/
theorem Ledger.Same.eq {u : Addr} {L M : Ledger} (h : L.Same (· = u) M) (h' : L.Same (· ≠ u) M) : L = M := by
  obtain ⟨i, d⟩ := L
  obtain ⟨i', d'⟩ := M
  have hi : i = i' := h.idx
  have hd : d = d' := by
    refine Map.ext_get (fun k => ?_)
    by_cases hk : (ofLex k).1 = u
    · exact h.dist (ofLex k).1 (ofLex k).2 hk
    · exact h'.dist (ofLex k).1 (ofLex k).2 hk
  rw [hi, hd]

theorem Ledger.frame_set (L : Ledger) (v : Addr) (a : Nat) (d : Dist) :
    L.Same (· ≠ v) { L with dist := L.dist.set (toLex (v, a)) d } := by
  refine ⟨rfl, fun u b hu => ?_⟩
  simp only
  rw [Map.get_set_ne _ _ (key_ne (fun h => hu h.1))]

theorem settle_loc {U : Addr → Prop} {v : Addr} (hv : U v) {w : Nat} : ∀ (l : List (Nat × Nat)) {L M L' : Ledger}, L.Same U M →
    l.foldlM (Ledger.settleOne v w) L = .ok L' → ∃ M', l.foldlM (Ledger.settleOne v w) M = .ok M' ∧ L'.Same U M'
  | [], L, M, L', h, hL => by
    rw [foldlM_nil_ok_iff] at hL
    subst hL
    exact ⟨M, rfl, h⟩
  | e :: l, L, M, L', h, hL => by
    obtain ⟨L1, hL1, hL⟩ := foldlM_cons_ok_iff.1 hL
    unfold Ledger.settleOne at hL1
    obtain ⟨r, hr, hL1⟩ := bind_ok_iff.1 hL1
    rw [pure_ok_iff] at hL1
    subst hL1
    rw [h.dist v e.1 hv] at hr
    obtain ⟨M', h1, h2⟩ := settle_loc hv l (h.set v e.1 (fun _ => rfl)) hL
    refine ⟨M', foldlM_cons_ok_iff.2 ⟨_, ?_, h1⟩, h2⟩
    unfold Ledger.settleOne
    exact bind_ok_iff.2 ⟨r, hr, rfl⟩

theorem settle_frame {v : Addr} {w : Nat} : ∀ (l : List (Nat × Nat)) {L L' : Ledger},
    l.foldlM (Ledger.settleOne v w) L = .ok L' → L.Same (· ≠ v) L'
  | [], L, L', hL => by
    rw [foldlM_nil_ok_iff] at hL
    subst hL
    exact .rfl' _
  | e :: l, L, L', hL => by
    obtain ⟨L1, hL1, hL⟩ := foldlM_cons_ok_iff.1 hL
    unfold Ledger.settleOne at hL1
    obtain ⟨r, _, hL1⟩ := bind_ok_iff.1 hL1
    rw [pure_ok_iff] at hL1
    subst hL1
    exact (L.frame_set v e.1 _).trans (settle_frame l hL)

theorem init_frame {v : Addr} : ∀ (l : List (Nat × Nat)) (L : Ledger), L.Same (· ≠ v) (l.foldl (Ledger.initOne v) L)
  | [], L => .rfl' L
  | e :: l, L => by
    refine Ledger.Same.trans ?_ (init_frame l _)
    unfold Ledger.initOne
    split <;> exact L.frame_set v e.1 _

theorem refresh_loc {U : Addr → Prop} {v : Addr} (hv : U v) {s t : State} (he : s.effective.get v = t.effective.get v)
    (hn : s.native.Same U t.native) (hc : s.cw20.Same U t.cw20) {x : Ledger × Ledger} (hx : refresh s v = .ok x) :
    ∃ y, refresh t v = .ok y ∧ x.1.Same U y.1 ∧ x.2.Same U y.2 := by
  unfold refresh at hx ⊢
  rw [he] at hx
  cases hw : t.effective.get v with
  | none =>
    rw [hw] at hx
    simp only [Except.ok.injEq] at hx
    subst hx
    refine ⟨_, rfl, ?_, ?_⟩
    · unfold Ledger.initUser
      simp only
      rw [hn.idx]
      exact initUser_same _ hn
    · unfold Ledger.initUser
      simp only
      rw [hc.idx]
      exact initUser_same _ hc
  | some w =>
    rw [hw] at hx
    obtain ⟨n', hn', hx⟩ := bind_ok_iff.1 hx
    obtain ⟨c', hc', hx⟩ := bind_ok_iff.1 hx
    rw [pure_ok_iff] at hx
    subst hx
    unfold Ledger.settle at hn' hc'
    rw [hn.idx] at hn'
    rw [hc.idx] at hc'
    obtain ⟨n2, h1, h2⟩ := settle_loc hv _ hn hn'
    obtain ⟨c2, h3, h4⟩ := settle_loc hv _ hc hc'
    exact ⟨(n2, c2), bind_ok_iff.2 ⟨n2, h1, bind_ok_iff.2 ⟨c2, h3, rfl⟩⟩, h2, h4⟩

theorem refresh_frame {v : Addr} {s : State} {x : Ledger × Ledger} (hx : refresh s v = .ok x) :
    s.native.Same (· ≠ v) x.1 ∧ s.cw20.Same (· ≠ v) x.2 := by
  unfold refresh at hx
  cases hw : s.effective.get v with
  | none =>
    rw [hw] at hx
    simp only [Except.ok.injEq] at hx
    subst hx
    exact ⟨init_frame _ _, init_frame _ _⟩
  | some w =>
    rw [hw] at hx
    obtain ⟨n', hn', hx⟩ := bind_ok_iff.1 hx
    obtain ⟨c', hc', hx⟩ := bind_ok_iff.1 hx
    rw [pure_ok_iff] at hx
    subst hx
    exact ⟨settle_frame _ hn', settle_frame _ hc'⟩

theorem claims_frame {u : Addr} {w : Nat} : ∀ (l : List Nat) {L : Ledger} {o : List (Nat × Nat)} {x : Ledger × List (Nat × Nat)},
    l.foldlM (Ledger.claimOne u w) (L, o) = .ok x → L.Same (· ≠ u) x.1
  | [], L, o, x, hx => by
    rw [foldlM_nil_ok_iff] at hx
    subst hx
    exact .rfl' _
  | a :: l, L, o, x, hx => by
    obtain ⟨⟨L1, o1⟩, h1, hx⟩ := foldlM_cons_ok_iff.1 hx
    refine Ledger.Same.trans ?_ (claims_frame l hx)
    unfold Ledger.claimOne at h1
    simp only at h1
    split at h1
    · cases h1; exact .rfl' _
    · obtain ⟨r, _, h1⟩ := bind_ok_iff.1 h1
      split at h1
      · cases h1; exact .rfl' _
      · cases h1; exact L.frame_set u a _

/-- A claim looks at the indices of the assets that it names only. -/
theorem claims_named {u : Addr} {w : Nat} : ∀ (l : List Nat) {L M : Ledger} {o : List (Nat × Nat)} {x : Ledger × List (Nat × Nat)},
    (∀ a ∈ l, L.global a = M.global a) → L.dist = M.dist → l.foldlM (Ledger.claimOne u w) (L, o) = .ok x →
    x.1.idx = L.idx ∧ l.foldlM (Ledger.claimOne u w) (M, o) = .ok (⟨M.idx, x.1.dist⟩, x.2)
  | [], L, M, o, x, _, hd, hx => by
    rw [foldlM_nil_ok_iff] at hx
    subst hx
    refine ⟨rfl, ?_⟩
    rw [foldlM_nil_ok_iff]
    simp only [hd]
  | a :: l, L, M, o, x, hg, hd, hx => by
    obtain ⟨⟨L1, o1⟩, h1, hx⟩ := foldlM_cons_ok_iff.1 hx
    have key : L1.idx = L.idx ∧ Ledger.claimOne u w (M, o) a = .ok (⟨M.idx, L1.dist⟩, o1) := by
      unfold Ledger.claimOne at h1 ⊢
      simp only [hg a List.mem_cons_self, hd] at h1 ⊢
      by_cases h0 : M.global a = 0
      · rw [if_pos h0] at h1 ⊢
        cases h1
        exact ⟨rfl, by rw [hd]⟩
      · rw [if_neg h0] at h1 ⊢
        obtain ⟨r, h2, h1⟩ := bind_ok_iff.1 h1
        by_cases hr : r = 0
        · rw [if_pos hr] at h1
          cases h1
          exact ⟨rfl, bind_ok_iff.2 ⟨r, h2, by rw [if_pos hr, hd]⟩⟩
        · rw [if_neg hr] at h1
          cases h1
          exact ⟨rfl, bind_ok_iff.2 ⟨r, h2, by rw [if_neg hr]⟩⟩
    obtain ⟨k1, k2⟩ := key
    have hg' : ∀ b ∈ l, L1.global b = (⟨M.idx, L1.dist⟩ : Ledger).global b := by
      intro b hb
      have := hg b (List.mem_cons_of_mem _ hb)
      unfold Ledger.global at this ⊢
      rw [k1]
      exact this
    obtain ⟨m1, m2⟩ := claims_named l hg' rfl hx
    exact ⟨m1.trans k1, foldlM_cons_ok_iff.2 ⟨_, k2, m2⟩⟩

/-- A distribution looks at the indices only and changes those of its assets only. -/
theorem distribute_idx {n : Nat} : ∀ (l : List (Nat × Nat)) {L L' : Ledger}, l.foldlM (Ledger.distributeOne n) L = .ok L' →
    L'.dist = L.dist ∧ (∀ a, (∀ x ∈ l, x.1 ≠ a) → L'.global a = L.global a) ∧
    ∀ M : Ledger, M.idx = L.idx → l.foldlM (Ledger.distributeOne n) M = .ok ⟨L'.idx, M.dist⟩
  | [], L, L', hx => by
    rw [foldlM_nil_ok_iff] at hx
    subst hx
    refine ⟨rfl, fun _ _ => rfl, fun M hM => ?_⟩
    rw [foldlM_nil_ok_iff, ← hM]
  | f :: l, L, L', hx => by
    obtain ⟨L1, h1, hx⟩ := foldlM_cons_ok_iff.1 hx
    unfold Ledger.distributeOne at h1
    obtain ⟨r, h2, h1⟩ := bind_ok_iff.1 h1
    obtain ⟨g, h3, h1⟩ := bind_ok_iff.1 h1
    rw [pure_ok_iff] at h1
    subst h1
    obtain ⟨k1, k2, k3⟩ := distribute_idx l hx
    refine ⟨k1, fun a ha => ?_, fun M hM => ?_⟩
    · rw [k2 a (fun x hx => ha x (List.mem_cons_of_mem _ hx))]
      unfold Ledger.global
      simp only
      rw [Map.get_set_ne _ _ (ha f List.mem_cons_self)]
    · refine foldlM_cons_ok_iff.2 ⟨{ M with idx := L.idx.set f.1 g }, ?_, k3 _ rfl⟩
      unfold Ledger.distributeOne
      refine bind_ok_iff.2 ⟨r, h2, bind_ok_iff.2 ⟨g, ?_, by rw [hM]; rfl⟩⟩
      unfold Ledger.global at h3 ⊢
      rw [hM]
      exact h3

/-- Two coins can be distributed in either order. -/
theorem distributeOne_comm {n : Nat} {L L1 L2 : Ledger} {f g : Nat × Nat} (h1 : L.distributeOne n f = .ok L1)
    (h2 : L1.distributeOne n g = .ok L2) : ∃ M, L.distributeOne n g = .ok M ∧ M.distributeOne n f = .ok L2 := by
  unfold Ledger.distributeOne at h1 h2
  obtain ⟨r, a1, h1⟩ := bind_ok_iff.1 h1
  obtain ⟨x, a2, h1⟩ := bind_ok_iff.1 h1
  rw [pure_ok_iff] at h1
  subst h1
  obtain ⟨q, b1, h2⟩ := bind_ok_iff.1 h2
  obtain ⟨y, b2, h2⟩ := bind_ok_iff.1 h2
  rw [pure_ok_iff] at h2
  subst h2
  unfold Ledger.distributeOne
  obtain ⟨a3, rfl⟩ := cadd128_ok.1 a2
  obtain ⟨b3, rfl⟩ := cadd128_ok.1 b2
  by_cases hfg : f.1 = g.1
  · have hg : ({ L with idx := L.idx.set f.1 (L.global f.1 + r) } : Ledger).global g.1 = L.global g.1 + r := by
      unfold Ledger.global
      simp only
      rw [Map.get_set, if_pos hfg, Option.getD_some, hfg]
    rw [hg] at b3
    refine ⟨_, bind_ok_iff.2 ⟨q, b1, bind_ok_iff.2 ⟨L.global g.1 + q, cadd128_ok.2 ⟨by omega, rfl⟩, rfl⟩⟩,
      bind_ok_iff.2 ⟨r, a1, bind_ok_iff.2 ⟨L.global g.1 + q + r, cadd128_ok.2 ⟨?_, ?_⟩, ?_⟩⟩⟩
    · unfold Ledger.global
      simp only
      rw [Map.get_set, if_pos hfg.symm, Option.getD_some]
      unfold Ledger.global at b3
      omega
    · unfold Ledger.global
      simp only
      rw [Map.get_set, if_pos hfg.symm, Option.getD_some]
    · rw [pure_ok_iff, hg, hfg, Map.set_set, Map.set_set]
      congr 2
      omega
  · have hg : ({ L with idx := L.idx.set f.1 (L.global f.1 + r) } : Ledger).global g.1 = L.global g.1 := by
      unfold Ledger.global
      simp only
      rw [Map.get_set_ne _ _ hfg]
    have hf : ({ L with idx := L.idx.set g.1 (L.global g.1 + q) } : Ledger).global f.1 = L.global f.1 := by
      unfold Ledger.global
      simp only
      rw [Map.get_set_ne _ _ (Ne.symm hfg)]
    rw [hg] at b3
    refine ⟨_, bind_ok_iff.2 ⟨q, b1, bind_ok_iff.2 ⟨L.global g.1 + q, cadd128_ok.2 ⟨b3, rfl⟩, rfl⟩⟩,
      bind_ok_iff.2 ⟨r, a1, bind_ok_iff.2 ⟨L.global f.1 + r, cadd128_ok.2 ⟨?_, ?_⟩, ?_⟩⟩⟩
    · rw [hf]; exact a3
    · rw [hf]
    · rw [pure_ok_iff, hg]
      simp only
      rw [Map.set_comm _ _ _ hfg]

theorem distribute_comm_one {n : Nat} {g : Nat × Nat} : ∀ (l : List (Nat × Nat)) {L L1 L2 : Ledger},
    l.foldlM (Ledger.distributeOne n) L = .ok L1 → L1.distributeOne n g = .ok L2 →
    ∃ M, L.distributeOne n g = .ok M ∧ l.foldlM (Ledger.distributeOne n) M = .ok L2
  | [], L, L1, L2, h1, h2 => by
    rw [foldlM_nil_ok_iff] at h1
    subst h1
    exact ⟨L2, h2, rfl⟩
  | f :: l, L, L1, L2, h1, h2 => by
    obtain ⟨K, a1, a2⟩ := foldlM_cons_ok_iff.1 h1
    obtain ⟨M, b1, b2⟩ := distribute_comm_one l a2 h2
    obtain ⟨N, c1, c2⟩ := distributeOne_comm a1 b1
    exact ⟨N, c1, foldlM_cons_ok_iff.2 ⟨M, c2, b2⟩⟩

theorem distribute_comm {n : Nat} (l : List (Nat × Nat)) : ∀ (m : List (Nat × Nat)) {L L1 L2 : Ledger},
    l.foldlM (Ledger.distributeOne n) L = .ok L1 → m.foldlM (Ledger.distributeOne n) L1 = .ok L2 →
    ∃ M, m.foldlM (Ledger.distributeOne n) L = .ok M ∧ l.foldlM (Ledger.distributeOne n) M = .ok L2
  | [], L, L1, L2, h1, h2 => by
    rw [foldlM_nil_ok_iff] at h2
    subst h2
    exact ⟨L, rfl, h1⟩
  | g :: m, L, L1, L2, h1, h2 => by
    obtain ⟨K, a1, a2⟩ := foldlM_cons_ok_iff.1 h2
    obtain ⟨M, b1, b2⟩ := distribute_comm_one l h1 a1
    obtain ⟨N, c1, c2⟩ := distribute_comm l m b2 a2
    exact ⟨N, foldlM_cons_ok_iff.2 ⟨M, b1, c1⟩, c2⟩

/-! ### States -/

theorem Same.rfl' {U : Addr → Prop} (s : State) : Same U s s := ⟨rfl, rfl, rfl, rfl, rfl, .rfl' _, .rfl' _⟩

/-- The state of one user is the same. -/
structure Kept (u : Addr) (s t : State) : Prop where
  effective : s.effective.get u = t.effective.get u
  native : s.native.Same (· = u) t.native
  cw20 : s.cw20.Same (· = u) t.cw20

theorem Kept.rfl' (u : Addr) (s : State) : Kept u s s := ⟨rfl, .rfl' _, .rfl' _⟩

theorem Kept.symm {u : Addr} {s t : State} (h : Kept u s t) : Kept u t s := ⟨h.effective.symm, h.native.symm, h.cw20.symm⟩

theorem Kept.trans {u : Addr} {s t r : State} (h : Kept u s t) (h' : Kept u t r) : Kept u s r :=
  ⟨h.effective.trans h'.effective, h.native.trans h'.native, h.cw20.trans h'.cw20⟩

theorem Kept.eq {u : Addr} {s t : State} (h : Kept u s t) (h' : Same (· ≠ u) s t) : s = t := by
  obtain ⟨a, m, w, e, n, x, y⟩ := s
  obtain ⟨a', m', w', e', n', x', y'⟩ := t
  have h1 := h'.admin
  have h2 := h'.min
  have h3 := h'.weights
  have h4 := h'.effective
  have h5 := h'.total
  have h6 := h.native.eq h'.native
  have h7 := h.cw20.eq h'.cw20
  simp only at h1 h2 h3 h4 h5 h6 h7
  rw [h1, h2, h3, h4, h5, h6, h7]

theorem claim_same {U : Addr → Prop} {v : Addr} (hv : U v) {s t : State} (h : Same U s t) {e : Env} {ds ts : List Nat}
    {x : State × List Out} (hx : claim s e v ds ts = .ok x) : ∃ y, claim t e v ds ts = .ok y ∧ Same U x.1 y.1 ∧ x.2 = y.2 := by
  obtain ⟨h1, h2, n, c, h3, h4, h5⟩ := claim_ok_iff.1 hx
  have he : effective s v = effective t v := by unfold effective; rw [h.effective]
  rw [he] at h3 h4
  obtain ⟨n', k1, k2, k3⟩ := claims_same hv ds h.native h3
  obtain ⟨c', m1, m2, m3⟩ := claims_same hv ts h.cw20 h4
  refine ⟨_, claim_ok_iff.2 ⟨h1, h2, n', c', k1, m1, rfl⟩, ?_, ?_⟩
  · rw [h5]
    exact ⟨h.admin, h.min, h.weights, h.effective, h.total, k2, m2⟩
  · rw [h5, k3, m3]

theorem claim_kept {u : Addr} {s t : State} (h : Kept u s t) {e : Env} {ds ts : List Nat}
    {x : State × List Out} (hx : claim s e u ds ts = .ok x) : ∃ y, claim t e u ds ts = .ok y ∧ Kept u x.1 y.1 ∧ x.2 = y.2 := by
  obtain ⟨h1, h2, n, c, h3, h4, h5⟩ := claim_ok_iff.1 hx
  have he : effective s u = effective t u := by unfold effective; rw [h.effective]
  rw [he] at h3 h4
  obtain ⟨n', k1, k2, k3⟩ := claims_same (U := (· = u)) rfl ds h.native h3
  obtain ⟨c', m1, m2, m3⟩ := claims_same (U := (· = u)) rfl ts h.cw20 h4
  refine ⟨_, claim_ok_iff.2 ⟨h1, h2, n', c', k1, m1, rfl⟩, ?_, ?_⟩
  · rw [h5]
    exact ⟨h.effective, k2, m2⟩
  · rw [h5, k3, m3]

theorem claim_frame {u : Addr} {s : State} {e : Env} {ds ts : List Nat} {x : State × List Out}
    (hx : claim s e u ds ts = .ok x) : Same (· ≠ u) s x.1 := by
  obtain ⟨_, _, n, c, h3, h4, h5⟩ := claim_ok_iff.1 hx
  rw [h5]
  exact ⟨rfl, rfl, rfl, rfl, rfl, claims_frame ds h3, claims_frame ts h4⟩

theorem claim_other {u v : Addr} (huv : u ≠ v) {s : State} {e : Env} {ds ts : List Nat} {x : State × List Out}
    (hx : claim s e v ds ts = .ok x) : Kept u s x.1 := by
  have h := claim_frame hx
  exact ⟨by rw [h.effective], h.native.mono (fun w hw => by rw [hw]; exact huv),
    h.cw20.mono (fun w hw => by rw [hw]; exact huv)⟩

theorem updateOne_loc {u : Addr} {s t s' : State} (h : Same (· ≠ u) s t) {p : Addr × Nat} (hp : p.1 ≠ u)
    (hx : updateOne s p = .ok s') : ∃ t', updateOne t p = .ok t' ∧ Same (· ≠ u) s' t' := by
  unfold updateOne at hx
  obtain ⟨x, h1, hx⟩ := bind_ok_iff.1 hx
  obtain ⟨t1, h2, hx⟩ := bind_ok_iff.1 hx
  obtain ⟨t2, h3, hx⟩ := bind_ok_iff.1 hx
  rw [pure_ok_iff] at hx
  subst hx
  obtain ⟨y, g1, g2, g3⟩ := refresh_loc (U := (· ≠ u)) hp (by rw [h.effective]) h.native h.cw20 h1
  rw [h.total, h.effective] at h2
  rw [h.min] at h3
  refine ⟨_, bind_ok_iff.2 ⟨y, g1, bind_ok_iff.2 ⟨t1, h2, bind_ok_iff.2 ⟨t2, h3, rfl⟩⟩⟩, h.admin, h.min, ?_, ?_, rfl, g2, g3⟩
  · simp only [h.weights]
  · simp only [h.effective, h.min]

theorem updateOne_other {u : Addr} {s s' : State} {p : Addr × Nat} (hp : p.1 ≠ u) (hx : updateOne s p = .ok s') :
    Kept u s s' := by
  unfold updateOne at hx
  obtain ⟨x, h1, hx⟩ := bind_ok_iff.1 hx
  obtain ⟨t1, h2, hx⟩ := bind_ok_iff.1 hx
  obtain ⟨t2, h3, hx⟩ := bind_ok_iff.1 hx
  rw [pure_ok_iff] at hx
  subst hx
  obtain ⟨g1, g2⟩ := refresh_frame h1
  refine ⟨?_, g1.mono (fun w hw => by rw [hw]; exact Ne.symm hp), g2.mono (fun w hw => by rw [hw]; exact Ne.symm hp)⟩
  simp only
  rw [Map.get_set_ne _ _ hp]

theorem updates_loc {u : Addr} : ∀ (l : List (Addr × Nat)) {s t s' : State}, Same (· ≠ u) s t → (∀ p ∈ l, p.1 ≠ u) →
    l.foldlM updateOne s = .ok s' → ∃ t', l.foldlM updateOne t = .ok t' ∧ Same (· ≠ u) s' t'
  | [], s, t, s', h, _, hx => by
    rw [foldlM_nil_ok_iff] at hx
    subst hx
    exact ⟨t, rfl, h⟩
  | p :: l, s, t, s', h, hl, hx => by
    obtain ⟨s1, h1, hx⟩ := foldlM_cons_ok_iff.1 hx
    obtain ⟨t1, g1, g2⟩ := updateOne_loc h (hl p List.mem_cons_self) h1
    obtain ⟨t', k1, k2⟩ := updates_loc l g2 (fun q hq => hl q (List.mem_cons_of_mem _ hq)) hx
    exact ⟨t', foldlM_cons_ok_iff.2 ⟨t1, g1, k1⟩, k2⟩

theorem updates_other {u : Addr} : ∀ (l : List (Addr × Nat)) {s s' : State}, (∀ p ∈ l, p.1 ≠ u) →
    l.foldlM updateOne s = .ok s' → Kept u s s'
  | [], s, s', _, hx => by
    rw [foldlM_nil_ok_iff] at hx
    subst hx
    exact .rfl' u s
  | p :: l, s, s', hl, hx => by
    obtain ⟨s1, h1, hx⟩ := foldlM_cons_ok_iff.1 hx
    exact (updateOne_other (hl p List.mem_cons_self) h1).trans
      (updates_other l (fun q hq => hl q (List.mem_cons_of_mem _ hq)) hx)

/-! ### Exchanging two messages -/

/-- A claim of `u` and a message that neither looks at nor changes the state of `u`. -/
theorem swap_claim {u : Addr} {s : State} {e : Env} {ds ts : List Nat} {g : State → Except Err (State × List Out)}
    (hA : ∀ {s t x}, Same (· ≠ u) s t → g s = .ok x → ∃ y, g t = .ok y ∧ Same (· ≠ u) x.1 y.1 ∧ x.2 = y.2)
    (hB : ∀ {s x}, g s = .ok x → Kept u s x.1) :
    (∀ x y, claim s e u ds ts = .ok x → g x.1 = .ok y → ∃ t, g s = .ok (t, y.2) ∧ claim t e u ds ts = .ok (y.1, x.2)) ∧
    (∀ x y, g s = .ok x → claim x.1 e u ds ts = .ok y → ∃ t, claim s e u ds ts = .ok (t, y.2) ∧ g t = .ok (y.1, x.2)) := by
  refine ⟨fun x y hx hy => ?_, fun x y hx hy => ?_⟩
  · obtain ⟨⟨t1, o⟩, h1, h2, h3⟩ := hA (claim_frame hx).symm hy
    obtain ⟨⟨t2, o'⟩, h4, h5, h6⟩ := claim_kept (hB h1) hx
    simp only at h2 h3 h5 h6
    subst h3 h6
    refine ⟨t1, h1, ?_⟩
    have h7 := claim_frame h4
    rw [h4, Kept.eq ((hB hy).symm.trans h5) (h2.trans h7)]
  · obtain ⟨⟨t1, o⟩, h1, h2, h3⟩ := claim_kept (hB hx).symm hy
    obtain ⟨⟨t2, o'⟩, h4, h5, h6⟩ := hA (claim_frame h1) hx
    simp only at h2 h3 h5 h6
    subst h3 h6
    refine ⟨t1, h1, ?_⟩
    rw [h4, Kept.eq (h2.trans (hB h4)) ((claim_frame hy).symm.trans h5)]

theorem exec_report_iff {s : State} {e : Env} {l : List (Addr × Nat)} {x : State × List Out} :
    exec s e (.updateWeights l) = .ok x ↔ e.sender = s.admin ∧ l.foldlM updateOne s = .ok x.1 ∧ x.2 = [] := by
  simp only [exec, bind_ok_iff, pure_ok_iff]
  unfold updateWeights
  constructor
  · rintro ⟨s', h1, rfl⟩
    obtain ⟨h2, h3⟩ := ite_ok_iff.1 h1
    exact ⟨not_not.1 h2, h3, rfl⟩
  · rintro ⟨h1, h2, h3⟩
    exact ⟨x.1, ite_ok_iff.2 ⟨not_not.2 h1, h2⟩, by rw [← h3]⟩

theorem exec_native_iff {s : State} {e : Env} {l : List (Nat × Nat)} {x : State × List Out} :
    exec s e (.distributeNative l) = .ok x ↔ (∀ f ∈ l, Allowed e (.native f.1)) ∧ s.total ≠ 0 ∧
      ∃ n, l.foldlM (Ledger.distributeOne s.total) s.native = .ok n ∧ x = ({ s with native := n }, []) := by
  simp only [exec, bind_ok_iff, pure_ok_iff]
  constructor
  · rintro ⟨s', h1, rfl⟩
    obtain ⟨h2, h3, n, h4, rfl⟩ := distributeNative_ok_iff.1 h1
    exact ⟨h2, h3, n, h4, rfl⟩
  · rintro ⟨h2, h3, n, h4, rfl⟩
    exact ⟨_, distributeNative_ok_iff.2 ⟨h2, h3, n, h4, rfl⟩, rfl⟩

theorem exec_token_iff {s : State} {e : Env} {k : Bool} {n : Nat} {x : State × List Out} :
    exec s e (.receiveCw20 k n) = .ok x ↔ k = true ∧ Allowed e (.cw20 e.sender) ∧ s.total ≠ 0 ∧
      ∃ c, s.cw20.distributeOne s.total (e.sender, n) = .ok c ∧ x = ({ s with cw20 := c }, []) := by
  simp only [exec, bind_ok_iff, pure_ok_iff]
  constructor
  · rintro ⟨s', h1, rfl⟩
    obtain ⟨h2, h3, h5, c, h4, rfl⟩ := receiveCw20_ok_iff.1 h1
    exact ⟨h2, h3, h5, c, h4, rfl⟩
  · rintro ⟨h2, h3, h5, c, h4, rfl⟩
    exact ⟨_, receiveCw20_ok_iff.2 ⟨h2, h3, h5, c, h4, rfl⟩, rfl⟩

/-- A list of claims and one of distributions of other assets can be exchanged. -/
theorem claims_distribute {u : Addr} {w n : Nat} {l : List Nat} {f : List (Nat × Nat)} (hd : ∀ x ∈ f, x.1 ∉ l) (L : Ledger) :
    (∀ x M, l.foldlM (Ledger.claimOne u w) (L, []) = .ok x → f.foldlM (Ledger.distributeOne n) x.1 = .ok M →
      ∃ K, f.foldlM (Ledger.distributeOne n) L = .ok K ∧ l.foldlM (Ledger.claimOne u w) (K, []) = .ok (M, x.2)) ∧
    (∀ K y, f.foldlM (Ledger.distributeOne n) L = .ok K → l.foldlM (Ledger.claimOne u w) (K, []) = .ok y →
      ∃ N, l.foldlM (Ledger.claimOne u w) (L, []) = .ok (N, y.2) ∧ f.foldlM (Ledger.distributeOne n) N = .ok y.1) := by
  have hne : ∀ a ∈ l, ∀ x ∈ f, x.1 ≠ a := fun a ha x hx h => hd x hx (h ▸ ha)
  refine ⟨fun x M h1 h2 => ?_, fun K y h1 h2 => ?_⟩
  · obtain ⟨a1, a2, a3⟩ := distribute_idx f h2
    have hi : x.1.idx = L.idx := (claims_named l (fun _ _ => rfl) rfl h1).1
    have hK := a3 L hi.symm
    refine ⟨_, hK, ?_⟩
    obtain ⟨_, b2, _⟩ := distribute_idx f hK
    have := (claims_named (M := ⟨M.idx, L.dist⟩) l (fun a ha => (b2 a (hne a ha)).symm) rfl h1).2
    rw [this, ← a1]
  · obtain ⟨a1, a2, a3⟩ := distribute_idx f h1
    obtain ⟨b1, b2⟩ := claims_named (M := L) l (fun a ha => a2 a (hne a ha)) a1 h2
    refine ⟨_, b2, ?_⟩
    rw [a3 ⟨L.idx, y.1.dist⟩ rfl, ← b1]

theorem swap_native {s : State} {e e' : Env} {u : Addr} {ds ts : List Nat} {f : List (Nat × Nat)} (hd : ∀ x ∈ f, x.1 ∉ ds) :
    (∀ x y, exec s e (.claim u ds ts) = .ok x → exec x.1 e' (.distributeNative f) = .ok y →
      ∃ t, exec s e' (.distributeNative f) = .ok (t, y.2) ∧ exec t e (.claim u ds ts) = .ok (y.1, x.2)) ∧
    (∀ x y, exec s e' (.distributeNative f) = .ok x → exec x.1 e (.claim u ds ts) = .ok y →
      ∃ t, exec s e (.claim u ds ts) = .ok (t, y.2) ∧ exec t e' (.distributeNative f) = .ok (y.1, x.2)) := by
  refine ⟨fun x y hx hy => ?_, fun x y hx hy => ?_⟩
  · obtain ⟨h1, h2, n, c, h3, h4, rfl⟩ := claim_ok_iff.1 hx
    obtain ⟨g1, g2, m, g3, rfl⟩ := exec_native_iff.1 hy
    obtain ⟨K, k1, k2⟩ := (claims_distribute hd s.native).1 n m h3 g3
    exact ⟨_, exec_native_iff.2 ⟨g1, g2, K, k1, rfl⟩, claim_ok_iff.2 ⟨h1, h2, (m, n.2), c, k2, h4, rfl⟩⟩
  · obtain ⟨g1, g2, m, g3, rfl⟩ := exec_native_iff.1 hx
    obtain ⟨h1, h2, n, c, h3, h4, rfl⟩ := claim_ok_iff.1 hy
    obtain ⟨K, k1, k2⟩ := (claims_distribute hd s.native).2 m n g3 h3
    exact ⟨_, claim_ok_iff.2 ⟨h1, h2, (K, n.2), c, k1, h4, rfl⟩, exec_native_iff.2 ⟨g1, g2, n.1, k2, rfl⟩⟩

theorem distribute_single {n : Nat} {L M : Ledger} {f : Nat × Nat} :
    [f].foldlM (Ledger.distributeOne n) L = .ok M ↔ L.distributeOne n f = .ok M := by
  rw [foldlM_cons_ok_iff]
  constructor
  · rintro ⟨K, h1, h2⟩
    rw [foldlM_nil_ok_iff] at h2
    rw [h1, h2]
  · exact fun h => ⟨M, h, rfl⟩

theorem swap_token {s : State} {e e' : Env} {u : Addr} {ds ts : List Nat} {b : Bool} {q : Nat} (hd : e'.sender ∉ ts) :
    (∀ x y, exec s e (.claim u ds ts) = .ok x → exec x.1 e' (.receiveCw20 b q) = .ok y →
      ∃ t, exec s e' (.receiveCw20 b q) = .ok (t, y.2) ∧ exec t e (.claim u ds ts) = .ok (y.1, x.2)) ∧
    (∀ x y, exec s e' (.receiveCw20 b q) = .ok x → exec x.1 e (.claim u ds ts) = .ok y →
      ∃ t, exec s e (.claim u ds ts) = .ok (t, y.2) ∧ exec t e' (.receiveCw20 b q) = .ok (y.1, x.2)) := by
  have hf : ∀ x ∈ [(e'.sender, q)], x.1 ∉ ts := by
    intro x hx
    rw [List.mem_singleton.1 hx]
    exact hd
  refine ⟨fun x y hx hy => ?_, fun x y hx hy => ?_⟩
  · obtain ⟨h1, h2, n, c, h3, h4, rfl⟩ := claim_ok_iff.1 hx
    obtain ⟨g0, g1, g2, m, g3, rfl⟩ := exec_token_iff.1 hy
    obtain ⟨K, k1, k2⟩ := (claims_distribute hf s.cw20).1 c m h4 (distribute_single.2 g3)
    exact ⟨_, exec_token_iff.2 ⟨g0, g1, g2, K, distribute_single.1 k1, rfl⟩,
      claim_ok_iff.2 ⟨h1, h2, n, (m, c.2), h3, k2, rfl⟩⟩
  · obtain ⟨g0, g1, g2, m, g3, rfl⟩ := exec_token_iff.1 hx
    obtain ⟨h1, h2, n, c, h3, h4, rfl⟩ := claim_ok_iff.1 hy
    obtain ⟨K, k1, k2⟩ := (claims_distribute hf s.cw20).2 m c (distribute_single.2 g3) h4
    exact ⟨_, claim_ok_iff.2 ⟨h1, h2, n, (K, c.2), h3, k1, rfl⟩,
      exec_token_iff.2 ⟨g0, g1, g2, c.1, distribute_single.1 k2, rfl⟩⟩

theorem swap_report {s : State} {e e' : Env} {u : Addr} {ds ts : List Nat} {l : List (Addr × Nat)} (hl : ∀ p ∈ l, p.1 ≠ u) :
    (∀ x y, exec s e (.claim u ds ts) = .ok x → exec x.1 e' (.updateWeights l) = .ok y →
      ∃ t, exec s e' (.updateWeights l) = .ok (t, y.2) ∧ exec t e (.claim u ds ts) = .ok (y.1, x.2)) ∧
    (∀ x y, exec s e' (.updateWeights l) = .ok x → exec x.1 e (.claim u ds ts) = .ok y →
      ∃ t, exec s e (.claim u ds ts) = .ok (t, y.2) ∧ exec t e' (.updateWeights l) = .ok (y.1, x.2)) := by
  refine swap_claim (g := fun s => exec s e' (.updateWeights l)) ?_ ?_
  · intro s t x h hx
    obtain ⟨h1, h2, h3⟩ := exec_report_iff.1 hx
    obtain ⟨t', k1, k2⟩ := updates_loc l h hl h2
    exact ⟨(t', []), exec_report_iff.2 ⟨h1.trans h.admin, k1, rfl⟩, k2, h3⟩
  · intro s x hx
    obtain ⟨h1, h2, h3⟩ := exec_report_iff.1 hx
    exact updates_other l hl h2

theorem swap_exec {s : State} {c d : Call} (hi : Independent c d) {x y : State × List Out}
    (hx : exec s c.env c.msg = .ok x) (hy : exec x.1 d.env d.msg = .ok y) :
    ∃ t, exec s d.env d.msg = .ok (t, y.2) ∧ exec t c.env c.msg = .ok (y.1, x.2) := by
  obtain ⟨e, m, dl⟩ := c
  obtain ⟨e', m', dl'⟩ := d
  unfold Independent at hi
  simp only at hi hx hy ⊢
  cases m with
  | updateWeights l =>
    cases m' with
    | claim u ds ts => exact (swap_report hi).2 x y hx hy
    | _ => exact hi.elim
  | updateMin n => cases m' <;> exact hi.elim
  | claim u ds ts =>
    cases m' with
    | claim v ds' ts' =>
      refine (swap_claim (g := fun s => exec s e' (.claim v ds' ts')) ?_ ?_).1 x y hx hy
      · intro s t x h hx
        exact claim_same (U := (· ≠ u)) (Ne.symm hi) h hx
      · intro s x hx
        exact claim_other hi hx
    | updateWeights l => exact (swap_report hi).1 x y hx hy
    | updateMin n => exact hi.elim
    | distributeNative f => exact (swap_native hi).1 x y hx hy
    | receiveCw20 b q => exact (swap_token hi).1 x y hx hy
  | distributeNative f =>
    cases m' with
    | claim v ds' ts' => exact (swap_native hi).2 x y hx hy
    | updateWeights l => exact hi.elim
    | updateMin n => exact hi.elim
    | distributeNative f' =>
      obtain ⟨a1, a2, n, a3, rfl⟩ := exec_native_iff.1 hx
      obtain ⟨b1, b2, k, b3, rfl⟩ := exec_native_iff.1 hy
      obtain ⟨M, c1, c2⟩ := distribute_comm f f' a3 b3
      exact ⟨_, exec_native_iff.2 ⟨b1, b2, M, c1, rfl⟩, exec_native_iff.2 ⟨a1, a2, k, c2, rfl⟩⟩
    | receiveCw20 b q =>
      obtain ⟨a1, a2, n, a3, rfl⟩ := exec_native_iff.1 hx
      obtain ⟨b0, b1, b2, k, b3, rfl⟩ := exec_token_iff.1 hy
      exact ⟨_, exec_token_iff.2 ⟨b0, b1, b2, k, b3, rfl⟩, exec_native_iff.2 ⟨a1, a2, n, a3, rfl⟩⟩
  | receiveCw20 b q =>
    cases m' with
    | claim v ds' ts' => exact (swap_token hi).2 x y hx hy
    | updateWeights l => exact hi.elim
    | updateMin n => exact hi.elim
    | distributeNative f' =>
      obtain ⟨b0, b1, b2, k, b3, rfl⟩ := exec_token_iff.1 hx
      obtain ⟨a1, a2, n, a3, rfl⟩ := exec_native_iff.1 hy
      exact ⟨_, exec_native_iff.2 ⟨a1, a2, n, a3, rfl⟩, exec_token_iff.2 ⟨b0, b1, b2, k, b3, rfl⟩⟩
    | receiveCw20 b' q' =>
      obtain ⟨a0, a1, a2, n, a3, rfl⟩ := exec_token_iff.1 hx
      obtain ⟨b0, b1, b2, k, b3, rfl⟩ := exec_token_iff.1 hy
      obtain ⟨M, c1, c2⟩ := distributeOne_comm a3 b3
      exact ⟨_, exec_token_iff.2 ⟨b0, b1, b2, M, c1, rfl⟩, exec_token_iff.2 ⟨a0, a1, a2, k, c2, rfl⟩⟩

theorem step_of_ok {s : State} {c : Call} {x : State × List Out} (hd : c.delivered = true) (h : exec s c.env c.msg = .ok x) :
    step s c = x := by
  unfold step
  rw [h]
  simp only [hd, if_true]

/-! ### C161 -/

/-- C161, two messages: independent messages that are accepted one after the other are also accepted in the other order,
with the same state in the end, and each of them pays the same. -/
theorem C161_swap (s : State) (c d : Call) (hi : Independent c d) (hc : accepted s c) (hd : accepted (step s c).1 d) :
    accepted s d ∧ accepted (step s d).1 c ∧ (step (step s d).1 c).1 = (step (step s c).1 d).1 ∧
    (step s d).2 = (step (step s c).1 d).2 ∧ (step (step s d).1 c).2 = (step s c).2 := by
  obtain ⟨hc1, x, hx⟩ := hc
  obtain ⟨hd1, y, hy⟩ := hd
  rw [step_of_ok hc1 hx] at hy ⊢
  rw [step_of_ok hd1 hy]
  obtain ⟨t, h1, h2⟩ := swap_exec hi hx hy
  rw [step_of_ok hd1 h1]
  simp only
  rw [step_of_ok hc1 h2]
  exact ⟨⟨hd1, _, h1⟩, ⟨hc1, _, h2⟩, by simp⟩

theorem everyAccepted_append_iff : ∀ (h t : List Call) (s : State),
    everyAccepted s (h ++ t) ↔ everyAccepted s h ∧ everyAccepted (run s h) t
  | [], t, s => by simp [everyAccepted, run]
  | c :: h, t, s => by
    simp only [List.cons_append, everyAccepted, run, everyAccepted_append_iff h t, and_assoc]

theorem run_append9 : ∀ (h t : List Call) (s : State), run s (h ++ t) = run (run s h) t
  | [], _, _ => rfl
  | c :: h, t, s => by simp only [List.cons_append, run, run_append9 h t]

theorem claimed_append9 (u : Addr) (a : AssetInfo) : ∀ (h t : List Call) (s : State),
    claimed u a s (h ++ t) = claimed u a s h + claimed u a (run s h) t
  | [], t, s => by simp [claimed, run]
  | c :: h, t, s => by
    simp only [List.cons_append, claimed, run, claimed_append9 u a h t]
    omega

/-- C161, histories: when all messages of a history are accepted, they are also accepted in every order that comes from
exchanging independent neighbours; the state in the end is the same, and every user has been paid the same. -/
theorem C161_order (s : State) (h h' : List Call) (hr : Reordered h h') (ha : everyAccepted s h) :
    everyAccepted s h' ∧ run s h' = run s h ∧ ∀ u a, claimed u a s h' = claimed u a s h := by
  induction hr with
  | refl h => exact ⟨ha, rfl, fun _ _ => rfl⟩
  | swap h t c d hi =>
    obtain ⟨h1, h2, h3, h4⟩ := (everyAccepted_append_iff _ _ _).1 ha
    obtain ⟨k1, k2, k3, k4, k5⟩ := C161_swap _ c d hi h2 h3
    refine ⟨(everyAccepted_append_iff _ _ _).2 ⟨h1, k1, k2, by rw [k3]; exact h4⟩, ?_, fun u a => ?_⟩
    · rw [run_append9, run_append9]
      simp only [run, k3]
    · rw [claimed_append9, claimed_append9]
      simp only [claimed, k3, k4, k5]
      omega
  | trans _ _ ih1 ih2 =>
    obtain ⟨a1, a2, a3⟩ := ih1 ha
    obtain ⟨b1, b2, b3⟩ := ih2 a1
    exact ⟨b1, b2.trans a2, fun u a => (b3 u a).trans (a3 u a)⟩

/-! ### Reports -/

theorem eff_le_total {s : State} (hc : Core s) (u : Addr) : (s.effective.get u).getD 0 ≤ s.total := by
  rw [hc.total]
  cases h : s.effective.get u with
  | none => exact Nat.zero_le _
  | some w => exact Map.le_sum (fun _ w => w) h

theorem updateOne_iff {s s' : State} {p : Addr × Nat} : updateOne s p = .ok s' ↔ ∃ x : Ledger × Ledger, refresh s p.1 = .ok x ∧
    (s.effective.get p.1).getD 0 ≤ s.total ∧
    s.total - (s.effective.get p.1).getD 0 + effWeight p.2 s.min < M128 ∧
    s' = { s with
      native := x.1, cw20 := x.2, weights := s.weights.set p.1 p.2,
      effective := s.effective.set p.1 (effWeight p.2 s.min),
      total := s.total - (s.effective.get p.1).getD 0 + effWeight p.2 s.min } := by
  unfold updateOne
  simp only [bind_ok_iff, pure_ok_iff, csub_ok, cadd128_ok]
  constructor
  · rintro ⟨x, h1, t1, ⟨h2, rfl⟩, t2, ⟨h3, rfl⟩, rfl⟩
    exact ⟨x, h1, h2, h3, rfl⟩
  · rintro ⟨x, h1, h2, h3, rfl⟩
    exact ⟨x, h1, _, ⟨h2, rfl⟩, _, ⟨h3, rfl⟩, rfl⟩

theorem effWeight_le (w m : Nat) : effWeight w m ≤ w := by
  unfold effWeight
  split <;> omega

/-- Two lines of a report, about different users, in the other order. -/
theorem updateOne_comm {s s1 s2 : State} (hi : Inv s) {p q : Addr × Nat} (hpq : p.1 ≠ q.1)
    (hb : s.total + p.2 + q.2 < 2 ^ 128) (h1 : updateOne s p = .ok s1) (h2 : updateOne s1 q = .ok s2) :
    ∃ t, updateOne s q = .ok t ∧ updateOne t p = .ok s2 := by
  have hp' := effWeight_le p.2 s.min
  have hq' := effWeight_le q.2 s.min
  obtain ⟨x, a1, a2, a3, a4⟩ := updateOne_iff.1 h1
  obtain ⟨y, b1, b2, b3, b4⟩ := updateOne_iff.1 h2
  have e1 : s1.effective.get q.1 = s.effective.get q.1 := by
    rw [a4]
    simp only
    rw [Map.get_set_ne _ _ hpq]
  obtain ⟨f1, f2⟩ := refresh_frame a1
  have n1 : s1.native = x.1 := by rw [a4]
  have c1 : s1.cw20 = x.2 := by rw [a4]
  have m1 : s1.min = s.min := by rw [a4]
  obtain ⟨y', d1, d2, d3⟩ := refresh_loc (U := (· ≠ p.1)) (t := s) (Ne.symm hpq) e1 (by rw [n1]; exact f1.symm) (by rw [c1]; exact f2.symm) b1
  obtain ⟨t, ht⟩ : ∃ t, updateOne s q = .ok t :=
    ⟨_, updateOne_iff.2 ⟨y', d1, eff_le_total hi.toCore q.1, by unfold M128; omega, rfl⟩⟩
  obtain ⟨it, _⟩ := updateOne_ok hi ht
  obtain ⟨y2, g1, g2, g3, g4⟩ := updateOne_iff.1 ht
  have hy : y2 = y' := by rw [d1] at g1; cases g1; rfl
  subst hy
  obtain ⟨k1, k2⟩ := refresh_frame g1
  have e2 : s.effective.get p.1 = t.effective.get p.1 := by
    rw [g4]
    simp only
    rw [Map.get_set_ne _ _ (Ne.symm hpq)]
  have n2 : t.native = y2.1 := by rw [g4]
  have c2 : t.cw20 = y2.2 := by rw [g4]
  have m2 : t.min = s.min := by rw [g4]
  have t2 : t.total = s.total - (s.effective.get q.1).getD 0 + effWeight q.2 s.min := by rw [g4]
  have t1 : s1.total = s.total - (s.effective.get p.1).getD 0 + effWeight p.2 s.min := by rw [a4]
  have hne : ∀ w, w = p.1 → w ≠ q.1 := fun w hw => by rw [hw]; exact hpq
  obtain ⟨z, z1, z2, z3⟩ := refresh_loc (U := (· = p.1)) (t := t) rfl e2 (by rw [n2]; exact k1.mono hne)
    (by rw [c2]; exact k2.mono hne) a1
  have hz := eff_le_total it.toCore p.1
  refine ⟨t, ht, updateOne_iff.2 ⟨z, z1, hz, ?_, ?_⟩⟩
  · rw [m2, t2]
    unfold M128
    omega
  · obtain ⟨u1, u2⟩ := refresh_frame z1
    obtain ⟨v1, v2⟩ := refresh_frame b1
    rw [n2] at u1
    rw [c2] at u2
    rw [n1] at v1
    rw [c1] at v2
    have hN : y.1 = z.1 := Ledger.Same.eq (u := p.1) ((v1.mono hne).symm.trans z2) (d2.trans u1)
    have hC : y.2 = z.2 := Ledger.Same.eq (u := p.1) ((v2.mono hne).symm.trans z3) (d3.trans u2)
    rw [b4, hN, hC, m1, m2, t1, t2, e1, ← e2]
    have ht : s.total - (s.effective.get p.1).getD 0 + effWeight p.2 s.min - (s.effective.get q.1).getD 0 + effWeight q.2 s.min =
        s.total - (s.effective.get q.1).getD 0 + effWeight q.2 s.min - (s.effective.get p.1).getD 0 + effWeight p.2 s.min := by
      rw [t1, e1] at b2
      rw [t2, ← e2] at hz
      have := eff_le_total hi.toCore q.1
      omega
    rw [ht, a4, g4]
    simp only
    rw [Map.set_comm _ _ _ hpq, Map.set_comm _ _ _ hpq]

theorem updates_perm {l l' : List (Addr × Nat)} (hp : l.Perm l') : ∀ {s s' : State}, Inv s → (l.map (·.1)).Nodup →
    s.total + (l.map (·.2)).sum < 2 ^ 128 → l.foldlM updateOne s = .ok s' → l'.foldlM updateOne s = .ok s' := by
  induction hp with
  | nil => exact fun _ _ _ h => h
  | cons p _ ih =>
    intro s s' hi hn hb h
    obtain ⟨s1, h1, h⟩ := foldlM_cons_ok_iff.1 h
    obtain ⟨i1, _⟩ := updateOne_ok hi h1
    obtain ⟨x, _, _, _, e⟩ := updateOne_iff.1 h1
    have ht : s1.total ≤ s.total + p.2 := by
      rw [e]
      have := effWeight_le p.2 s.min
      simp only
      omega
    rw [List.map_cons, List.nodup_cons] at hn
    rw [List.map_cons, List.sum_cons] at hb
    exact foldlM_cons_ok_iff.2 ⟨s1, h1, ih i1 hn.2 (by omega) h⟩
  | swap p q l =>
    intro s s' hi hn hb h
    obtain ⟨s1, h1, h⟩ := foldlM_cons_ok_iff.1 h
    obtain ⟨s2, h2, h⟩ := foldlM_cons_ok_iff.1 h
    simp only [List.map_cons, List.nodup_cons, List.mem_cons, not_or] at hn
    simp only [List.map_cons, List.sum_cons] at hb
    obtain ⟨t, g1, g2⟩ := updateOne_comm hi hn.1.1 (by omega) h1 h2
    exact foldlM_cons_ok_iff.2 ⟨t, g1, foldlM_cons_ok_iff.2 ⟨s2, g2, h⟩⟩
  | trans h1 h2 ih1 ih2 =>
    intro s s' hi hn hb h
    have := ih1 hi hn hb h
    exact ih2 hi ((h1.map (·.1)).nodup_iff.1 hn) (by rw [← (h1.map (·.2)).sum_eq]; exact hb) this

/-- C161, reports: the lines of a report about different users can be in any order. -/
theorem C161_report (s : State) (hs : Reachable s) (e : Env) (l l' : List (Addr × Nat)) (hp : l.Perm l')
    (hn : (l.map (·.1)).Nodup) (hb : s.total + (l.map (·.2)).sum < 2 ^ 128) (x : State × List Out) :
    exec s e (.updateWeights l) = .ok x ↔ exec s e (.updateWeights l') = .ok x := by
  have hi := hs.inv
  rw [exec_report_iff, exec_report_iff]
  constructor
  · rintro ⟨h1, h2, h3⟩
    exact ⟨h1, updates_perm hp hi hn hb h2, h3⟩
  · rintro ⟨h1, h2, h3⟩
    exact ⟨h1, updates_perm hp.symm hi ((hp.map (·.1)).nodup_iff.1 hn) (by rw [← (hp.map (·.2)).sum_eq]; exact hb) h2, h3⟩

theorem updateOne_admin {s s' : State} {p : Addr × Nat} (h : updateOne s p = .ok s') : s'.admin = s.admin := by
  obtain ⟨x, _, _, _, rfl⟩ := updateOne_iff.1 h
  rfl

theorem updates_admin : ∀ (l : List (Addr × Nat)) {s s' : State}, l.foldlM updateOne s = .ok s' → s'.admin = s.admin
  | [], s, s', h => by rw [foldlM_nil_ok_iff] at h; rw [h]
  | p :: l, s, s', h => by
    obtain ⟨s1, h1, h⟩ := foldlM_cons_ok_iff.1 h
    rw [updates_admin l h, updateOne_admin h1]

/-- C161, split reports: one report does the same as its two parts one after the other. -/
theorem C161_split (s : State) (e : Env) (l m : List (Addr × Nat)) (x : State × List Out) :
    exec s e (.updateWeights (l ++ m)) = .ok x ↔
    ∃ y, exec s e (.updateWeights l) = .ok y ∧ exec y.1 e (.updateWeights m) = .ok x := by
  simp only [exec_report_iff, List.foldlM_append, bind_ok_iff]
  constructor
  · rintro ⟨h1, ⟨y, h2, h3⟩, h4⟩
    exact ⟨(y, []), ⟨h1, h2, rfl⟩, h1.trans (updates_admin l h2).symm, h3, h4⟩
  · rintro ⟨y, ⟨h1, h2, _⟩, _, h3, h4⟩
    exact ⟨h1, ⟨y.1, h2, h3⟩, h4⟩

/-! ### Examples -/

/-- Two distributions, claims of two users, a report about a third, and a distribution of a token. -/
def exOrder : List Call :=
  [⟨exEnv 77, .distributeNative [(5, 10), (8, 30)], true⟩, ⟨exEnv 900, .receiveCw20 true 100, true⟩,
   ⟨exEnv 1, .claim 1 [5] [], true⟩, ⟨exEnv 2, .claim 2 [5, 8] [900], true⟩, ⟨exEnv 10, .updateWeights [(7, 3)], true⟩]

/-- The same in another order: the report before the claims, these exchanged, the token first. -/
def exOrder' : List Call :=
  [⟨exEnv 900, .receiveCw20 true 100, true⟩, ⟨exEnv 77, .distributeNative [(5, 10), (8, 30)], true⟩,
   ⟨exEnv 10, .updateWeights [(7, 3)], true⟩, ⟨exEnv 2, .claim 2 [5, 8] [900], true⟩, ⟨exEnv 1, .claim 1 [5] [], true⟩]

example : Reordered exOrder exOrder' := by
  refine .trans (.swap [] _ _ _ ?_) (.trans (.swap [_, _] _ _ _ ?_) (.trans (.swap [_, _, _] _ _ _ ?_) (.swap [_, _] _ _ _ ?_))) <;>
    simp [Independent]

example : everyAccepted exInit exOrder ∧ claimed 1 (.native 5) exInit exOrder = 3 ∧
    claimed 2 (.cw20 900) exInit exOrder = 66 := by
  refine ⟨?_, by decide +kernel, by decide +kernel⟩
  simp only [exOrder, everyAccepted, and_true]
  decide +kernel

/-- A distribution and a claim of the same coin are not independent, and their order matters. -/
example : claimed 1 (.native 5) exInit [⟨exEnv 77, .distributeNative [(5, 10)], true⟩, ⟨exEnv 1, .claim 1 [5] [], true⟩] ≠
    claimed 1 (.native 5) exInit [⟨exEnv 1, .claim 1 [5] [], true⟩, ⟨exEnv 77, .distributeNative [(5, 10)], true⟩] := by
  decide +kernel

example : Reachable exInit ∧ exInit.total + ([(1, 4), (7, 3)].map (·.2) : List Nat).sum < 2 ^ 128 ∧
    (∃ x, exec exInit (exEnv 10) (.updateWeights [(1, 4), (7, 3)]) = .ok x) := by
  refine ⟨⟨_, _, _, _, [], exInit_eq, rfl⟩, by decide +kernel, ?_⟩
  have : accepted exInit ⟨exEnv 10, .updateWeights [(1, 4), (7, 3)], true⟩ := by decide +kernel
  exact this.2

end Verif.Distributor
