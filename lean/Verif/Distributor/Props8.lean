import Verif.Distributor.Props7
import Mathlib.Data.List.Dedup

/-!
# Funds distributor: the work that changes of weights and of the minimum weight make (C158)
-/

set_option linter.unusedSimpArgs false

namespace Verif.Distributor
open Verif

/-! ### Specification -/

/-- The loop of `update_user_native_distributions` (native_distributions.rs 55-83) and of its twin for tokens, that also counts
the entries that it writes. -/
def Ledger.settleCounting (L : Ledger) (u : Addr) (w : Nat) : Except Err (Ledger × Nat) :=
  L.idx.entries.foldlM (fun x e => do
    let y ← settleOne u w x.1 e
    return (y, x.2 + 1)) (L, 0)

/-- The loop of `initialize_user_indices` (user_weights.rs 145-191), that also counts the entries that it writes. -/
def Ledger.initCounting (L : Ledger) (u : Addr) : Ledger × Nat :=
  L.idx.entries.foldl (fun x e => (initOne u x.1 e, x.2 + 1)) (L, 0)

/-- `refresh` (user_weights.rs 88-112) with the number of entries written. -/
def refreshCounting (s : State) (u : Addr) : Except Err ((Ledger × Ledger) × Nat) :=
  match s.effective.get u with
  | none => .ok (((s.native.initCounting u).1, (s.cw20.initCounting u).1),
      (s.native.initCounting u).2 + (s.cw20.initCounting u).2)
  | some old => do
    let n ← s.native.settleCounting u old
    let c ← s.cw20.settleCounting u old
    return ((n.1, c.1), n.2 + c.2)

/-- `updateOne` (user_weights.rs 85-124) with the number of entries written. -/
def updateOneCounting (x : State × Nat) (p : Addr × Nat) : Except Err (State × Nat) := do
  let ls ← refreshCounting x.1 p.1
  let t ← csub x.1.total ((x.1.effective.get p.1).getD 0)
  let t ← cadd128 t (effWeight p.2 x.1.min)
  return ({ x.1 with
    native := ls.1.1, cw20 := ls.1.2, weights := x.1.weights.set p.1 p.2,
    effective := x.1.effective.set p.1 (effWeight p.2 x.1.min), total := t }, x.2 + ls.2)

/-- `update_user_weights` (user_weights.rs 64-129) with the number of entries written. -/
def updateWeightsCounting (s : State) (e : Env) (l : List (Addr × Nat)) : Except Err (State × Nat) :=
  if e.sender ≠ s.admin then .error .unauthorized else l.foldlM updateOneCounting (s, 0)

/-- `minOne` (eligibility.rs 87-109) with the number of entries written. -/
def minOneCounting (useActual : Bool) (x : State × Nat) (p : Addr × Nat) : Except Err (State × Nat) := do
  let old := (x.1.effective.get p.1).getD 0
  let n ← x.1.native.settleCounting p.1 old
  let c ← x.1.cw20.settleCounting p.1 old
  let new := if useActual then p.2 else 0
  let t ← csub x.1.total old
  let t ← cadd128 t new
  return ({ x.1 with native := n.1, cw20 := c.1, effective := x.1.effective.set p.1 new, total := t }, x.2 + (n.2 + c.2))

/-- `update_minimum_eligible_weight` (eligibility.rs 18-116) with the number of entries written. -/
def updateMinCounting (s : State) (e : Env) (new : Nat) : Except Err (State × Nat) :=
  if e.sender ≠ s.admin then .error .unauthorized
  else if s.min = new then .ok (s, 0)
  else do
    let x ← (affected s s.min new).foldlM (minOneCounting (decide (s.min > new))) (s, 0)
    return ({ x.1 with min := new }, x.2)

/-- The assets of the distributions that were accepted, in the order of the history. -/
def assetsOf : State → List Call → List AssetInfo
  | _, [] => []
  | s, c :: t => (if accepted s c then
      match c.msg with
      | .distributeNative f => f.map (fun x => .native x.1)
      | .receiveCw20 _ _ => [.cw20 c.env.sender]
      | _ => []
    else []) ++ assetsOf (step s c).1 t

/-- The number of different assets of which anything was ever distributed. -/
def assetCount (s : State) (h : List Call) : Nat := (assetsOf s h).dedup.length

/-- The number of users on record who get or lose the right to rewards when the minimum becomes `m`. Users stay on record
when their weight is zero. -/
def turned (s : State) (m : Nat) : Nat :=
  (s.weights.keys.filter (fun u => decide (s.min ≤ weight s u) != decide (m ≤ weight s u))).length

/-! ### Counting -/

theorem settle_counting {u : Addr} {w : Nat} : ∀ (l : List (Nat × Nat)) (L L' : Ledger) (k n : Nat),
    l.foldlM (fun (x : Ledger × Nat) e => do
      let y ← Ledger.settleOne u w x.1 e
      return (y, x.2 + 1)) (L, k) = .ok (L', n) ↔ l.foldlM (Ledger.settleOne u w) L = .ok L' ∧ n = k + l.length
  | [], L, L', k, n => by
    rw [foldlM_nil_ok_iff, foldlM_nil_ok_iff, Prod.mk.injEq]
    simp [eq_comm]
  | e :: l, L, L', k, n => by
    rw [foldlM_cons_ok_iff, foldlM_cons_ok_iff]
    constructor
    · rintro ⟨⟨L1, k1⟩, h1, h2⟩
      obtain ⟨y, hy, h1⟩ := bind_ok_iff.1 h1
      cases pure_ok_iff.1 h1
      obtain ⟨h3, h4⟩ := (settle_counting l _ _ _ _).1 h2
      exact ⟨⟨_, hy, h3⟩, by rw [List.length_cons]; omega⟩
    · rintro ⟨⟨y, hy, h3⟩, h4⟩
      refine ⟨(y, k + 1), bind_ok_iff.2 ⟨y, hy, rfl⟩, (settle_counting l _ _ _ _).2 ⟨h3, ?_⟩⟩
      rw [List.length_cons] at h4; omega

theorem init_counting {u : Addr} : ∀ (l : List (Nat × Nat)) (L : Ledger) (k : Nat),
    l.foldl (fun (x : Ledger × Nat) e => (Ledger.initOne u x.1 e, x.2 + 1)) (L, k) =
      (l.foldl (Ledger.initOne u) L, k + l.length)
  | [], _, _ => rfl
  | e :: l, L, k => by
    rw [List.foldl_cons, List.foldl_cons]
    rw [init_counting l]
    rw [List.length_cons]
    congr 1; omega

/-- Number of assets with an index. -/
def indexCount (s : State) : Nat := s.native.idx.entries.length + s.cw20.idx.entries.length

theorem settleCounting_iff {L L' : Ledger} {u : Addr} {w n : Nat} :
    L.settleCounting u w = .ok (L', n) ↔ L.settle u w = .ok L' ∧ n = L.idx.entries.length := by
  unfold Ledger.settleCounting Ledger.settle
  rw [settle_counting, Nat.zero_add]

theorem initCounting_eq (L : Ledger) (u : Addr) : L.initCounting u = (L.initUser u, L.idx.entries.length) := by
  unfold Ledger.initCounting Ledger.initUser
  rw [init_counting, Nat.zero_add]

theorem refreshCounting_iff {s : State} {u : Addr} {x : Ledger × Ledger} {n : Nat} :
    refreshCounting s u = .ok (x, n) ↔ refresh s u = .ok x ∧ n = indexCount s := by
  unfold refreshCounting refresh
  cases s.effective.get u with
  | none =>
    simp only [initCounting_eq]
    constructor
    · intro h
      cases h
      exact ⟨rfl, rfl⟩
    · rintro ⟨h, rfl⟩
      cases h
      rfl
  | some w =>
    simp only [bind_ok_iff, pure_ok_iff]
    constructor
    · rintro ⟨⟨a, k⟩, h1, ⟨b, j⟩, h2, h3⟩
      obtain ⟨q1, rfl⟩ := settleCounting_iff.1 h1
      obtain ⟨q2, rfl⟩ := settleCounting_iff.1 h2
      cases h3
      exact ⟨⟨a, q1, b, q2, rfl⟩, rfl⟩
    · rintro ⟨⟨a, h1, b, h2, rfl⟩, rfl⟩
      exact ⟨(a, _), settleCounting_iff.2 ⟨h1, rfl⟩, (b, _), settleCounting_iff.2 ⟨h2, rfl⟩, rfl⟩

theorem settle_idx {L L' : Ledger} {u : Addr} {w : Nat} (h : L.settle u w = .ok L') : L'.idx = L.idx := (Ledger.settle_ok h).1

theorem initUser_idx (L : Ledger) (u : Addr) : (L.initUser u).idx = L.idx :=
  (initUser_get (u := u) L.idx.entries L L.idx.nodup_keys).1

theorem refresh_idx {s : State} {u : Addr} {x : Ledger × Ledger} (h : refresh s u = .ok x) :
    x.1.idx = s.native.idx ∧ x.2.idx = s.cw20.idx := by
  unfold refresh at h
  cases he : s.effective.get u with
  | none =>
    rw [he] at h
    cases h
    exact ⟨initUser_idx _ _, initUser_idx _ _⟩
  | some w =>
    rw [he] at h
    obtain ⟨n, h1, h⟩ := bind_ok_iff.1 h
    obtain ⟨c, h2, h⟩ := bind_ok_iff.1 h
    have h := pure_ok_iff.1 h
    subst h
    exact ⟨settle_idx h1, settle_idx h2⟩

/-- The indices are the same. -/
def SameIdx (s s' : State) : Prop := s'.native.idx = s.native.idx ∧ s'.cw20.idx = s.cw20.idx

theorem SameIdx.count {s s' : State} (h : SameIdx s s') : indexCount s' = indexCount s := by
  unfold indexCount
  rw [h.1, h.2]

theorem updateOne_idx {s s' : State} {p : Addr × Nat} (h : updateOne s p = .ok s') : SameIdx s s' := by
  unfold updateOne at h
  obtain ⟨x, h1, h⟩ := bind_ok_iff.1 h
  obtain ⟨a, _, h⟩ := bind_ok_iff.1 h
  obtain ⟨b, _, h⟩ := bind_ok_iff.1 h
  have h := pure_ok_iff.1 h
  subst h
  exact refresh_idx h1

theorem minOne_idx {b : Bool} {s s' : State} {p : Addr × Nat} (h : minOne b s p = .ok s') : SameIdx s s' := by
  unfold minOne at h
  obtain ⟨n, h1, h⟩ := bind_ok_iff.1 h
  obtain ⟨c, h2, h⟩ := bind_ok_iff.1 h
  obtain ⟨x, _, h⟩ := bind_ok_iff.1 h
  obtain ⟨y, _, h⟩ := bind_ok_iff.1 h
  have h := pure_ok_iff.1 h
  subst h
  exact ⟨settle_idx h1, settle_idx h2⟩

theorem updateOneCounting_iff {s s' : State} {k n : Nat} {p : Addr × Nat} :
    updateOneCounting (s, k) p = .ok (s', n) ↔ updateOne s p = .ok s' ∧ n = k + indexCount s := by
  unfold updateOneCounting updateOne
  simp only [bind_ok_iff, pure_ok_iff]
  constructor
  · rintro ⟨⟨x, j⟩, h1, a, h2, b, h3, h4⟩
    obtain ⟨q1, rfl⟩ := refreshCounting_iff.1 h1
    cases h4
    exact ⟨⟨x, q1, a, h2, b, h3, rfl⟩, rfl⟩
  · rintro ⟨⟨x, h1, a, h2, b, h3, rfl⟩, rfl⟩
    exact ⟨(x, _), refreshCounting_iff.2 ⟨h1, rfl⟩, a, h2, b, h3, rfl⟩

theorem minOneCounting_iff {u : Bool} {s s' : State} {k n : Nat} {p : Addr × Nat} :
    minOneCounting u (s, k) p = .ok (s', n) ↔ minOne u s p = .ok s' ∧ n = k + indexCount s := by
  unfold minOneCounting minOne
  simp only [bind_ok_iff, pure_ok_iff]
  constructor
  · rintro ⟨⟨x, j⟩, h1, ⟨y, i⟩, h2, a, h3, b, h4, h5⟩
    obtain ⟨q1, rfl⟩ := settleCounting_iff.1 h1
    obtain ⟨q2, rfl⟩ := settleCounting_iff.1 h2
    cases h5
    exact ⟨⟨x, q1, y, q2, a, h3, b, h4, rfl⟩, rfl⟩
  · rintro ⟨⟨x, h1, y, h2, a, h3, b, h4, rfl⟩, rfl⟩
    exact ⟨(x, _), settleCounting_iff.2 ⟨h1, rfl⟩, (y, _), settleCounting_iff.2 ⟨h2, rfl⟩, a, h3, b, h4, rfl⟩

theorem fold_counting {f : State → Addr × Nat → Except Err State} {g : State × Nat → Addr × Nat → Except Err (State × Nat)}
    (hg : ∀ s s' k n p, g (s, k) p = .ok (s', n) ↔ f s p = .ok s' ∧ n = k + indexCount s)
    (hf : ∀ s s' p, f s p = .ok s' → SameIdx s s') : ∀ (l : List (Addr × Nat)) (s s' : State) (k n : Nat),
    l.foldlM g (s, k) = .ok (s', n) ↔ l.foldlM f s = .ok s' ∧ n = k + l.length * indexCount s
  | [], s, s', k, n => by
    rw [foldlM_nil_ok_iff, foldlM_nil_ok_iff, Prod.mk.injEq]
    simp [eq_comm]
  | p :: l, s, s', k, n => by
    rw [foldlM_cons_ok_iff, foldlM_cons_ok_iff, List.length_cons, Nat.succ_mul]
    constructor
    · rintro ⟨⟨s1, k1⟩, h1, h2⟩
      obtain ⟨q1, rfl⟩ := (hg _ _ _ _ _).1 h1
      obtain ⟨h3, h4⟩ := (fold_counting hg hf l _ _ _ _).1 h2
      rw [(hf _ _ _ q1).count] at h4
      exact ⟨⟨s1, q1, h3⟩, by omega⟩
    · rintro ⟨⟨s1, h1, h3⟩, h4⟩
      refine ⟨(s1, k + indexCount s), (hg _ _ _ _ _).2 ⟨h1, rfl⟩, (fold_counting hg hf l _ _ _ _).2 ⟨h3, ?_⟩⟩
      rw [(hf _ _ _ h1).count]; omega

theorem fold_idx {f : State → Addr × Nat → Except Err State} (hf : ∀ s s' p, f s p = .ok s' → SameIdx s s') :
    ∀ (l : List (Addr × Nat)) (s s' : State), l.foldlM f s = .ok s' → SameIdx s s'
  | [], s, s', h => by
    rw [foldlM_nil_ok_iff] at h
    subst h
    exact ⟨rfl, rfl⟩
  | p :: l, s, s', h => by
    obtain ⟨s1, h1, h2⟩ := foldlM_cons_ok_iff.1 h
    have a := hf _ _ _ h1
    have b := fold_idx hf l _ _ h2
    exact ⟨b.1.trans a.1, b.2.trans a.2⟩

/-! ### Which assets have an index -/

/-- The assets of a message. -/
def msgAssets (c : Call) : List AssetInfo :=
  match c.msg with
  | .distributeNative f => f.map (fun x => .native x.1)
  | .receiveCw20 _ _ => [.cw20 c.env.sender]
  | _ => []

theorem distribute_has {t : Nat} {L L' : Ledger} {f : Nat × Nat} (h : L.distributeOne t f = .ok L') (a : Nat) :
    (L'.idx.get a).isSome = true ↔ (L.idx.get a).isSome = true ∨ a = f.1 := by
  unfold Ledger.distributeOne at h
  obtain ⟨r, _, h⟩ := bind_ok_iff.1 h
  obtain ⟨g, _, h⟩ := bind_ok_iff.1 h
  have h := pure_ok_iff.1 h
  subst h
  simp only [Map.get_set]
  by_cases hf : f.1 = a
  · rw [if_pos hf]; simp [hf]
  · rw [if_neg hf]
    exact ⟨Or.inl, fun hh => hh.resolve_right (fun hx => hf hx.symm)⟩

theorem distributes_has {t : Nat} : ∀ (l : List (Nat × Nat)) {L L' : Ledger}, l.foldlM (Ledger.distributeOne t) L = .ok L' →
    ∀ a, (L'.idx.get a).isSome = true ↔ (L.idx.get a).isSome = true ∨ a ∈ l.map (·.1)
  | [], L, L', h, a => by
    rw [foldlM_nil_ok_iff] at h
    subst h
    simp
  | f :: l, L, L', h, a => by
    obtain ⟨L1, h1, h2⟩ := foldlM_cons_ok_iff.1 h
    rw [distributes_has l h2 a, distribute_has h1 a, List.map_cons, List.mem_cons, or_assoc]

theorem claimOne_idx {u : Addr} {w a : Nat} {x y : Ledger × List (Nat × Nat)} (h : Ledger.claimOne u w x a = .ok y) :
    y.1.idx = x.1.idx := by
  unfold Ledger.claimOne at h
  split at h
  · cases h; rfl
  · obtain ⟨r, _, h⟩ := bind_ok_iff.1 h
    split at h <;> cases h <;> rfl

theorem claims_idx {u : Addr} {w : Nat} : ∀ (l : List Nat) {x y : Ledger × List (Nat × Nat)},
    l.foldlM (Ledger.claimOne u w) x = .ok y → y.1.idx = x.1.idx
  | [], x, y, h => by
    rw [foldlM_nil_ok_iff] at h
    rw [h]
  | a :: l, x, y, h => by
    obtain ⟨z, h1, h2⟩ := foldlM_cons_ok_iff.1 h
    rw [claims_idx l h2, claimOne_idx h1]

theorem exec_has {s : State} {c : Call} {x : State × List Out} (h : exec s c.env c.msg = .ok x) (a : Nat) :
    ((x.1.native.idx.get a).isSome = true ↔ (s.native.idx.get a).isSome = true ∨ .native a ∈ msgAssets c) ∧
    ((x.1.cw20.idx.get a).isSome = true ↔ (s.cw20.idx.get a).isSome = true ∨ .cw20 a ∈ msgAssets c) := by
  have same : SameIdx s x.1 → msgAssets c = [] →
      ((x.1.native.idx.get a).isSome = true ↔ (s.native.idx.get a).isSome = true ∨ .native a ∈ msgAssets c) ∧
      ((x.1.cw20.idx.get a).isSome = true ↔ (s.cw20.idx.get a).isSome = true ∨ .cw20 a ∈ msgAssets c) := by
    rintro ⟨h1, h2⟩ h3
    rw [h1, h2, h3]
    simp
  cases hm : c.msg with
  | updateWeights l =>
    refine same ?_ (by unfold msgAssets; rw [hm])
    rw [hm] at h
    simp only [exec] at h
    obtain ⟨s', h1, h⟩ := bind_ok_iff.1 h
    have h := pure_ok_iff.1 h
    subst h
    unfold updateWeights at h1
    obtain ⟨_, h1⟩ := ite_ok_iff.1 h1
    exact fold_idx (fun _ _ _ hh => updateOne_idx hh) l _ _ h1
  | updateMin n =>
    refine same ?_ (by unfold msgAssets; rw [hm])
    rw [hm] at h
    simp only [exec] at h
    obtain ⟨s', h1, h⟩ := bind_ok_iff.1 h
    have h := pure_ok_iff.1 h
    subst h
    unfold updateMin at h1
    obtain ⟨_, h1⟩ := ite_ok_iff.1 h1
    split at h1
    · cases h1; exact ⟨rfl, rfl⟩
    · obtain ⟨s1, h2, h1⟩ := bind_ok_iff.1 h1
      have h1 := pure_ok_iff.1 h1
      subst h1
      have := fold_idx (f := minOne (decide (s.min > n))) (fun _ _ _ hh => minOne_idx hh) _ _ _ h2
      exact this
  | claim u ds ts =>
    refine same ?_ (by unfold msgAssets; rw [hm])
    rw [hm] at h
    simp only [exec] at h
    obtain ⟨_, _, n, d, h3, h4, h5⟩ := claim_ok_iff.1 h
    rw [h5]
    exact ⟨claims_idx ds h3, claims_idx ts h4⟩
  | distributeNative f =>
    have hmm : msgAssets c = f.map (fun x => .native x.1) := by unfold msgAssets; rw [hm]
    rw [hm] at h
    simp only [exec] at h
    obtain ⟨s', h1, h⟩ := bind_ok_iff.1 h
    have h := pure_ok_iff.1 h
    subst h
    obtain ⟨_, _, n, h4, rfl⟩ := distributeNative_ok_iff.1 h1
    rw [hmm]
    refine ⟨?_, ?_⟩
    · rw [show ({ s with native := n } : State).native = n from rfl, distributes_has f h4 a]
      simp [List.mem_map]
    · simp [List.mem_map]
  | receiveCw20 k n =>
    have hmm : msgAssets c = [.cw20 c.env.sender] := by unfold msgAssets; rw [hm]
    rw [hm] at h
    simp only [exec] at h
    obtain ⟨s', h1, h⟩ := bind_ok_iff.1 h
    have h := pure_ok_iff.1 h
    subst h
    obtain ⟨_, _, _, d, h4, rfl⟩ := receiveCw20_ok_iff.1 h1
    rw [hmm]
    refine ⟨by simp, ?_⟩
    rw [show ({ s with cw20 := d } : State).cw20 = d from rfl, distribute_has h4 a]
    simp

theorem run_has : ∀ (h : List Call) (s : State) (a : Nat),
    (((run s h).native.idx.get a).isSome = true ↔ (s.native.idx.get a).isSome = true ∨ .native a ∈ assetsOf s h) ∧
    (((run s h).cw20.idx.get a).isSome = true ↔ (s.cw20.idx.get a).isSome = true ∨ .cw20 a ∈ assetsOf s h)
  | [], s, a => by simp [run, assetsOf]
  | c :: l, s, a => by
    obtain ⟨h1, h2⟩ := run_has l (step s c).1 a
    have e : assetsOf s (c :: l) = (if accepted s c then msgAssets c else []) ++ assetsOf (step s c).1 l := rfl
    have er : run s (c :: l) = run (step s c).1 l := rfl
    rw [e, er, h1, h2]
    rcases step_cases s c with ⟨x, hx, _, he, hacc⟩ | ⟨he, hacc⟩
    · rw [he, if_pos hacc, List.mem_append, List.mem_append]
      obtain ⟨k1, k2⟩ := exec_has hx a
      rw [k1, k2, or_assoc, or_assoc]
      exact ⟨Iff.rfl, Iff.rfl⟩
    · rw [he, if_neg hacc, List.nil_append]
      exact ⟨Iff.rfl, Iff.rfl⟩

theorem assets_kind : ∀ (h : List Call) (s : State) (b : AssetInfo), b ∈ assetsOf s h → (∃ a, b = .native a) ∨ ∃ a, b = .cw20 a
  | [], _, _, hb => by cases hb
  | c :: l, s, b, hb => by
    have e : assetsOf s (c :: l) = (if accepted s c then msgAssets c else []) ++ assetsOf (step s c).1 l := rfl
    rw [e, List.mem_append] at hb
    rcases hb with hb | hb
    · split at hb
      · unfold msgAssets at hb
        split at hb
        · obtain ⟨x, _, rfl⟩ := List.mem_map.1 hb
          exact Or.inl ⟨_, rfl⟩
        · exact Or.inr ⟨_, List.mem_singleton.1 hb⟩
        · cases hb
      · cases hb
    · exact assets_kind l _ b hb

theorem isSome_keys {m : Map Nat Nat} {a : Nat} : (m.get a).isSome = true ↔ a ∈ m.keys := by
  rw [Map.mem_keys, Option.isSome_iff_exists]

theorem count_eq {ad : Addr} {mw : Option Nat} {ws : List (Addr × Nat)} {s0 : State} (h0 : init ad mw ws = .ok s0) (h : List Call) :
    indexCount (run s0 h) = assetCount s0 h := by
  obtain ⟨e1, e2⟩ := init_empty h0
  have hn : ∀ a, a ∈ (run s0 h).native.idx.keys ↔ .native a ∈ assetsOf s0 h := fun a => by
    rw [← isSome_keys, (run_has h s0 a).1, e1]
    exact ⟨fun x => x.resolve_left (fun hh => by cases hh), Or.inr⟩
  have hc : ∀ a, a ∈ (run s0 h).cw20.idx.keys ↔ .cw20 a ∈ assetsOf s0 h := fun a => by
    rw [← isSome_keys, (run_has h s0 a).2, e2]
    exact ⟨fun x => x.resolve_left (fun hh => by cases hh), Or.inr⟩
  have hp : ((run s0 h).native.idx.keys.map AssetInfo.native ++ (run s0 h).cw20.idx.keys.map AssetInfo.cw20).Perm
      (assetsOf s0 h).dedup := by
    refine (List.perm_ext_iff_of_nodup ?_ (List.nodup_dedup _)).2 (fun b => ?_)
    · refine List.nodup_append.2 ⟨?_, ?_, ?_⟩
      · exact ((run s0 h).native.idx.nodup_keys).map (fun x y hxy => by cases hxy; rfl)
      · exact ((run s0 h).cw20.idx.nodup_keys).map (fun x y hxy => by cases hxy; rfl)
      · intro x hx y hy hxy
        obtain ⟨i, _, rfl⟩ := List.mem_map.1 hx
        obtain ⟨j, _, rfl⟩ := List.mem_map.1 hy
        cases hxy
    · rw [List.mem_dedup, List.mem_append, List.mem_map, List.mem_map]
      constructor
      · rintro (⟨a, ha, rfl⟩ | ⟨a, ha, rfl⟩)
        · exact (hn a).1 ha
        · exact (hc a).1 ha
      · intro hb
        rcases assets_kind h s0 b hb with ⟨a, rfl⟩ | ⟨a, rfl⟩
        · exact Or.inl ⟨a, (hn a).2 hb, rfl⟩
        · exact Or.inr ⟨a, (hc a).2 hb, rfl⟩
  have := hp.length_eq
  unfold assetCount indexCount
  rw [← this, List.length_append, List.length_map, List.length_map]
  unfold Map.keys
  rw [List.length_map, List.length_map]

theorem turned_eq (s : State) (m : Nat) : (affected s s.min m).length = turned s m := by
  unfold turned affected Map.keys
  rw [List.filter_map, List.length_map]
  congr 1
  refine List.filter_congr (fun p hp => ?_)
  have hw : weight s p.1 = p.2 := by
    unfold weight
    rw [Map.get_eq_some_iff.2 (show (p.1, p.2) ∈ s.weights.entries from hp)]
    rfl
  simp only [Function.comp, hw]
  by_cases h1 : s.min < m
  · rw [if_pos h1]
    by_cases h2 : s.min ≤ p.2 <;> by_cases h3 : m ≤ p.2 <;> simp [h2, h3] <;> omega
  · rw [if_neg h1]
    by_cases h2 : s.min ≤ p.2 <;> by_cases h3 : m ≤ p.2 <;> simp [h2, h3] <;> omega

/-! ## C158 -/

/-- A report of weights writes one entry for each of its lines and each asset of which anything was ever distributed. -/
theorem C158_weights (ad : Addr) (mw : Option Nat) (ws : List (Addr × Nat)) (s0 : State) (h : List Call)
    (h0 : init ad mw ws = .ok s0) (e : Env) (l : List (Addr × Nat)) (s' : State) (n : Nat) :
    updateWeightsCounting (run s0 h) e l = .ok (s', n) ↔
      updateWeights (run s0 h) e l = .ok s' ∧ n = l.length * assetCount s0 h := by
  unfold updateWeightsCounting updateWeights
  rw [ite_ok_iff, ite_ok_iff, fold_counting (f := updateOne) (fun _ _ _ _ _ => updateOneCounting_iff)
    (fun _ _ _ hh => updateOne_idx hh), count_eq h0, Nat.zero_add, and_assoc]

/-- A new minimum weight writes one entry for each asset and each user on record who gets or loses the right to rewards by it;
there is no bound on how many these are. -/
theorem C158_minimum (ad : Addr) (mw : Option Nat) (ws : List (Addr × Nat)) (s0 : State) (h : List Call)
    (h0 : init ad mw ws = .ok s0) (e : Env) (m : Nat) (s' : State) (n : Nat) :
    updateMinCounting (run s0 h) e m = .ok (s', n) ↔
      updateMin (run s0 h) e m = .ok s' ∧ n = turned (run s0 h) m * assetCount s0 h := by
  unfold updateMinCounting updateMin
  rw [ite_ok_iff, ite_ok_iff, and_assoc]
  refine and_congr_right (fun _ => ?_)
  by_cases hm : (run s0 h).min = m
  · rw [if_pos hm, if_pos hm]
    have : turned (run s0 h) m = 0 := by
      unfold turned
      rw [hm]
      simp
    rw [this, Nat.zero_mul]
    constructor
    · intro hh; cases hh; exact ⟨rfl, rfl⟩
    · rintro ⟨hh, rfl⟩; cases hh; rfl
  · rw [if_neg hm, if_neg hm, bind_ok_iff, bind_ok_iff]
    have key := fold_counting (f := minOne (decide ((run s0 h).min > m))) (g := minOneCounting (decide ((run s0 h).min > m)))
      (fun _ _ _ _ _ => minOneCounting_iff) (fun _ _ _ hh => minOne_idx hh) (affected (run s0 h) (run s0 h).min m) (run s0 h)
    rw [count_eq h0, turned_eq _ _] at key
    constructor
    · rintro ⟨⟨s1, k⟩, h1, h2⟩
      obtain ⟨q1, q2⟩ := (key _ _ _).1 h1
      cases pure_ok_iff.1 h2
      exact ⟨⟨s1, q1, rfl⟩, by rw [q2, Nat.zero_add]⟩
    · rintro ⟨⟨s1, h1, h2⟩, rfl⟩
      refine ⟨(s1, _), (key _ _ _).2 ⟨h1, rfl⟩, ?_⟩
      rw [Nat.zero_add]
      cases pure_ok_iff.1 h2
      rfl

theorem assets_allowed {A : List AssetInfo} : ∀ (h : List Call) (s : State), (∀ c ∈ h, ∀ a, Allowed c.env a → a ∈ A) →
    ∀ b ∈ assetsOf s h, b ∈ A
  | [], _, _, _, hb => by cases hb
  | c :: l, s, hA, b, hb => by
    have e : assetsOf s (c :: l) = (if accepted s c then msgAssets c else []) ++ assetsOf (step s c).1 l := rfl
    rw [e, List.mem_append] at hb
    rcases hb with hb | hb
    · by_cases hacc : accepted s c
      · rw [if_pos hacc] at hb
        refine hA c List.mem_cons_self b ?_
        obtain ⟨_, x, hx⟩ := hacc
        unfold msgAssets at hb
        cases hm : c.msg with
        | distributeNative f =>
          rw [hm] at hb hx
          simp only [exec] at hx
          obtain ⟨s', h1, _⟩ := bind_ok_iff.1 hx
          obtain ⟨g, hg, rfl⟩ := List.mem_map.1 hb
          exact (distributeNative_ok_iff.1 h1).1 g hg
        | receiveCw20 k n =>
          rw [hm] at hb hx
          simp only [exec] at hx
          obtain ⟨s', h1, _⟩ := bind_ok_iff.1 hx
          rw [List.mem_singleton.1 hb]
          exact (receiveCw20_ok_iff.1 h1).2.1
        | updateWeights l => rw [hm] at hb; cases hb
        | updateMin m => rw [hm] at hb; cases hb
        | claim u d t => rw [hm] at hb; cases hb
      · rw [if_neg hacc] at hb
        cases hb
    · exact assets_allowed l _ (fun c' hc' => hA c' (List.mem_cons_of_mem _ hc')) b hb

/-- Nobody can make the number of assets grow but by the whitelists: it is at most the number of assets that were allowed at some
time. -/
theorem C158_assets (s0 : State) (h : List Call) (A : List AssetInfo) (hA : ∀ c ∈ h, ∀ a, Allowed c.env a → a ∈ A) :
    assetCount s0 h ≤ A.length := by
  unfold assetCount
  refine List.Nodup.length_le_of_subset (List.nodup_dedup _) (fun b hb => ?_)
  exact assets_allowed h s0 hA b (List.mem_dedup.1 hb)

theorem keys_set {m : Map Addr Nat} {u v : Addr} {x : Nat} (h : v ∈ m.keys) : v ∈ (m.set u x).keys := by
  obtain ⟨y, hy⟩ := Map.mem_keys.1 h
  refine Map.mem_keys.2 ?_
  rw [Map.get_set]
  split
  · exact ⟨x, rfl⟩
  · exact ⟨y, hy⟩

theorem updates_keys {v : Addr} : ∀ (l : List (Addr × Nat)) {s s' : State}, l.foldlM updateOne s = .ok s' →
    v ∈ s.weights.keys → v ∈ s'.weights.keys
  | [], s, s', h, hv => by
    rw [foldlM_nil_ok_iff] at h
    rw [← h]; exact hv
  | p :: l, s, s', h, hv => by
    obtain ⟨s1, h1, h2⟩ := foldlM_cons_ok_iff.1 h
    refine updates_keys l h2 ?_
    unfold updateOne at h1
    obtain ⟨x, _, h1⟩ := bind_ok_iff.1 h1
    obtain ⟨a, _, h1⟩ := bind_ok_iff.1 h1
    obtain ⟨b, _, h1⟩ := bind_ok_iff.1 h1
    rw [← pure_ok_iff.1 h1]
    exact keys_set hv

theorem mins_keys {b : Bool} : ∀ (l : List (Addr × Nat)) {s s' : State}, l.foldlM (minOne b) s = .ok s' →
    s'.weights = s.weights
  | [], s, s', h => by
    rw [foldlM_nil_ok_iff] at h
    rw [← h]
  | p :: l, s, s', h => by
    obtain ⟨s1, h1, h2⟩ := foldlM_cons_ok_iff.1 h
    rw [mins_keys l h2]
    unfold minOne at h1
    obtain ⟨n, _, h1⟩ := bind_ok_iff.1 h1
    obtain ⟨c, _, h1⟩ := bind_ok_iff.1 h1
    obtain ⟨x, _, h1⟩ := bind_ok_iff.1 h1
    obtain ⟨y, _, h1⟩ := bind_ok_iff.1 h1
    rw [← pure_ok_iff.1 h1]

theorem step_keys {s : State} {c : Call} {v : Addr} (hv : v ∈ s.weights.keys) : v ∈ (step s c).1.weights.keys := by
  rcases step_cases s c with ⟨x, hx, _, he, _⟩ | ⟨he, _⟩
  · rw [he]
    cases hm : c.msg with
    | updateWeights l =>
      rw [hm] at hx
      simp only [exec] at hx
      obtain ⟨s', h1, hx⟩ := bind_ok_iff.1 hx
      rw [← pure_ok_iff.1 hx]
      unfold updateWeights at h1
      exact updates_keys l (ite_ok_iff.1 h1).2 hv
    | updateMin n =>
      rw [hm] at hx
      simp only [exec] at hx
      obtain ⟨s', h1, hx⟩ := bind_ok_iff.1 hx
      rw [← pure_ok_iff.1 hx]
      unfold updateMin at h1
      obtain ⟨_, h1⟩ := ite_ok_iff.1 h1
      split at h1
      · cases h1; exact hv
      · obtain ⟨s1, h2, h1⟩ := bind_ok_iff.1 h1
        rw [← pure_ok_iff.1 h1]
        show v ∈ s1.weights.keys
        rw [mins_keys _ h2]; exact hv
    | claim u ds ts =>
      rw [hm] at hx
      simp only [exec] at hx
      obtain ⟨_, _, n, d, _, _, h5⟩ := claim_ok_iff.1 hx
      rw [h5]; exact hv
    | distributeNative f =>
      rw [hm] at hx
      simp only [exec] at hx
      obtain ⟨s', h1, hx⟩ := bind_ok_iff.1 hx
      rw [← pure_ok_iff.1 hx]
      obtain ⟨_, _, n, _, rfl⟩ := distributeNative_ok_iff.1 h1
      exact hv
    | receiveCw20 k n =>
      rw [hm] at hx
      simp only [exec] at hx
      obtain ⟨s', h1, hx⟩ := bind_ok_iff.1 hx
      rw [← pure_ok_iff.1 hx]
      obtain ⟨_, _, _, d, _, rfl⟩ := receiveCw20_ok_iff.1 h1
      exact hv
  · rw [he]; exact hv

/-- Users stay on record for ever, also without weight. -/
theorem C158_record : ∀ (h : List Call) (s : State) (u : Addr), u ∈ s.weights.keys → u ∈ (run s h).weights.keys
  | [], _, _, hu => hu
  | _ :: l, s, u, hu => C158_record l _ u (step_keys hu)

/-- Without a minimum so far, all who ever had a weight, and now have less than the new minimum, count for the work: also those
who have left. -/
theorem C158_former (s : State) (m : Nat) (hm : s.min = 0) (us : List Addr) (hn : us.Nodup)
    (hu : ∀ u ∈ us, u ∈ s.weights.keys ∧ weight s u < m) : us.length ≤ turned s m := by
  unfold turned
  refine List.Nodup.length_le_of_subset hn (fun u h => ?_)
  obtain ⟨h1, h2⟩ := hu u h
  refine List.mem_filter.2 ⟨h1, ?_⟩
  rw [hm]
  simp only [Nat.zero_le, decide_true, bne_iff_ne, ne_eq]
  have : ¬ m ≤ weight s u := by omega
  simp [this]

/-! ### Examples -/

/-- Three assets were distributed: a report of two weights writes six entries; the minimum of four takes the
right to rewards of two users, a minimum of zero would give it to a third. -/
example : assetCount exInit exMixed = 3 ∧ (run exInit exMixed).weights.keys = [1, 2, 3, 7] ∧ turned (run exInit exMixed) 4 = 2 ∧
    turned (run exInit exMixed) 0 = 1 ∧
    (match updateWeightsCounting (run exInit exMixed) (exEnv 10) [(1, 5), (9, 2)] with | .ok x => x.2 | .error _ => 0) = 6 ∧
    (match updateMinCounting (run exInit exMixed) (exEnv 10) 4 with | .ok x => x.2 | .error _ => 0) = 6 := by
  decide +kernel

/-- Three assets are allowed in the example. -/
example : ∀ c ∈ exMixed, ∀ a, Allowed c.env a → a ∈ [AssetInfo.native 5, .cw20 900, .native 8] := by
  have key : ∀ u a, Allowed (exEnv u) a → a ∈ [AssetInfo.native 5, .cw20 900, .native 8] := by
    intro u a h
    rcases h with h | h
    · cases a with
      | native d =>
        have h : ((Map.empty.set 5 ()).get d).isSome = true := h
        rw [Map.get_set] at h
        split at h
        · rename_i hd; subst hd; simp
        · cases h
      | cw20 d =>
        have h : ((Map.empty.set 900 ()).get d).isSome = true := h
        rw [Map.get_set] at h
        split at h
        · rename_i hd; subst hd; simp
        · cases h
      | cw1155 x y => cases h
    · rw [List.mem_singleton.1 h]; simp
  intro c hc a ha
  simp only [exMixed, List.mem_cons, List.not_mem_nil, or_false] at hc
  rcases hc with rfl | rfl | rfl | rfl | rfl | rfl | rfl <;> exact key _ a ha

end Verif.Distributor
