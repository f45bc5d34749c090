import Verif.Staking.Spec
import Verif.Base.Except

/-!
# Staking: helper lemmas
-/

namespace Verif

namespace Members

/-- Sum of the member weights. -/
def wsum (m : Members) : Nat := m.weights.sum (fun _ w => w)

theorem weight_setWeight (m : Members) (u v : Addr) (w : Nat) :
    (m.setWeight u w).weight v = if v = u then w else m.weight v := by
  unfold setWeight weight
  simp only [Map.get_set]
  by_cases h : u = v
  · subst h; simp
  · have : ¬ v = u := fun hh => h hh.symm
    simp [h, this]

@[simp] theorem setWeight_byHeight (m : Members) (u : Addr) (w : Nat) : (m.setWeight u w).byHeight = m.byHeight := rfl
@[simp] theorem setWeight_bySeconds (m : Members) (u : Addr) (w : Nat) :
    (m.setWeight u w).bySeconds = m.bySeconds := rfl
@[simp] theorem setWeight_hooks (m : Members) (u : Addr) (w : Nat) : (m.setWeight u w).hooks = m.hooks := rfl
@[simp] theorem setWeight_total (m : Members) (u : Addr) (w : Nat) : (m.setWeight u w).total = m.total := rfl
@[simp] theorem saveTotal_weights (m : Members) (w : Nat) (b : Block) : (m.saveTotal w b).weights = m.weights := rfl
@[simp] theorem saveTotal_hooks (m : Members) (w : Nat) (b : Block) : (m.saveTotal w b).hooks = m.hooks := rfl
@[simp] theorem saveTotal_weight (m : Members) (w : Nat) (b : Block) (u : Addr) :
    (m.saveTotal w b).weight u = m.weight u := rfl
@[simp] theorem saveTotal_total (m : Members) (w : Nat) (b : Block) : (m.saveTotal w b).total = w := rfl
@[simp] theorem saveTotal_wsum (m : Members) (w : Nat) (b : Block) : (m.saveTotal w b).wsum = m.wsum := rfl

theorem weight_eq_contrib (m : Members) (u : Addr) :
    Map.contrib (fun _ w => w) u (m.weights.get u) = m.weight u := by
  unfold weight
  cases m.weights.get u <;> rfl

theorem wsum_setWeight (m : Members) (u : Addr) (w : Nat) :
    (m.setWeight u w).wsum + m.weight u = m.wsum + w := by
  have := m.weights.sum_set (fun _ w => w) u w
  rw [weight_eq_contrib] at this
  exact this

theorem weight_le_wsum (m : Members) (u : Addr) : m.weight u ≤ m.wsum := by
  rw [← weight_eq_contrib]
  exact Map.contrib_le_sum _ _ _

theorem incWeight_ok_iff {m : Members} {u : Addr} {a : Nat} {r : Members × Nat} :
    m.incWeight u a = .ok r ↔ m.weight u + a < M128 ∧ r = (m.setWeight u (m.weight u + a), m.weight u + a) := by
  unfold incWeight
  rw [bind_ok_iff]
  simp only [cadd128_ok, pure_ok_iff]
  constructor
  · rintro ⟨w, ⟨h1, rfl⟩, rfl⟩; exact ⟨h1, rfl⟩
  · rintro ⟨h1, rfl⟩; exact ⟨_, ⟨h1, rfl⟩, rfl⟩

theorem decWeight_ok_iff {m : Members} {u : Addr} {a : Nat} {r : Members × Nat} :
    m.decWeight u a = .ok r ↔ a ≤ m.weight u ∧ r = (m.setWeight u (m.weight u - a), m.weight u - a) := by
  unfold decWeight
  rw [bind_ok_iff]
  simp only [csub_ok, pure_ok_iff]
  constructor
  · rintro ⟨w, ⟨h1, rfl⟩, rfl⟩; exact ⟨h1, rfl⟩
  · rintro ⟨h1, rfl⟩; exact ⟨_, ⟨h1, rfl⟩, rfl⟩

theorem incTotal_ok_iff {m m' : Members} {a : Nat} {b : Block} :
    m.incTotal a b = .ok m' ↔ m.total + a < M128 ∧ m' = m.saveTotal (m.total + a) b := by
  unfold incTotal
  rw [bind_ok_iff]
  simp only [cadd128_ok, pure_ok_iff]
  constructor
  · rintro ⟨w, ⟨h1, rfl⟩, rfl⟩; exact ⟨h1, rfl⟩
  · rintro ⟨h1, rfl⟩; exact ⟨_, ⟨h1, rfl⟩, rfl⟩

theorem decTotal_ok_iff {m m' : Members} {a : Nat} {b : Block} :
    m.decTotal a b = .ok m' ↔ a ≤ m.total ∧ m' = m.saveTotal (m.total - a) b := by
  unfold decTotal
  rw [bind_ok_iff]
  simp only [csub_ok, pure_ok_iff]
  constructor
  · rintro ⟨w, ⟨h1, rfl⟩, rfl⟩; exact ⟨h1, rfl⟩
  · rintro ⟨h1, rfl⟩; exact ⟨_, ⟨h1, rfl⟩, rfl⟩

end Members

namespace Staking

theorem addClaim_ok_iff {s s' : State} {u : Addr} {a : Nat} {r : ReleaseAt} :
    addClaim s u a r = .ok s' ↔ s.nextClaim + 1 < M64 ∧
      s' = { s with nextClaim := s.nextClaim + 1, claims := s.claims.set s.nextClaim ⟨s.nextClaim, u, a, r⟩ } := by
  unfold addClaim
  rw [bind_ok_iff]
  simp only [cadd64_ok, pure_ok_iff]
  constructor
  · rintro ⟨w, ⟨h1, rfl⟩, rfl⟩; exact ⟨h1, rfl⟩
  · rintro ⟨h1, rfl⟩; exact ⟨_, ⟨h1, rfl⟩, rfl⟩

theorem stakeFor_ok_iff {s : State} {e : Env} {u : Addr} {a : Nat} {r : State × List Out} :
    stakeFor s e u a = .ok r ↔ e.restricted u = false ∧ s.mem.weight u + a < M128 ∧ s.mem.total + a < M128 ∧
      r = ({ s with mem := (s.mem.setWeight u (s.mem.weight u + a)).saveTotal (s.mem.total + a) e.block },
        s.mem.report [⟨u, s.mem.weight u, s.mem.weight u + a⟩]) := by
  unfold stakeFor
  rw [ite_ok_iff]
  simp only [bind_ok_iff, Members.incWeight_ok_iff, Members.incTotal_ok_iff, pure_ok_iff, Bool.not_eq_true]
  constructor
  · rintro ⟨h0, _, ⟨h1, rfl⟩, _, ⟨h2, rfl⟩, rfl⟩
    exact ⟨h0, h1, h2, rfl⟩
  · rintro ⟨h0, h1, h2, rfl⟩
    exact ⟨h0, _, ⟨h1, rfl⟩, _, ⟨h2, rfl⟩, rfl⟩

theorem unstake_ok_iff {s : State} {e : Env} {a : Nat} {r : State × List Out} :
    unstake s e a = .ok r ↔ a ≤ s.mem.weight e.sender ∧ a ≤ s.mem.total ∧ s.nextClaim + 1 < M64 ∧
      r = ({ s with
              mem := (s.mem.setWeight e.sender (s.mem.weight e.sender - a)).saveTotal (s.mem.total - a) e.block
              nextClaim := s.nextClaim + 1
              claims := s.claims.set s.nextClaim ⟨s.nextClaim, e.sender, a, releaseAt s.unlocking e.block⟩ },
        s.mem.report [⟨e.sender, s.mem.weight e.sender, s.mem.weight e.sender - a⟩]) := by
  unfold unstake
  simp only [ite_ok_iff, bind_ok_iff, Members.decWeight_ok_iff, Members.decTotal_ok_iff, addClaim_ok_iff,
    pure_ok_iff, Nat.not_lt]
  constructor
  · rintro ⟨h0, _, ⟨h1, rfl⟩, _, ⟨h2, rfl⟩, _, ⟨h3, rfl⟩, rfl⟩
    exact ⟨h0, h2, h3, rfl⟩
  · rintro ⟨h0, h2, h3, rfl⟩
    exact ⟨h0, _, ⟨h0, rfl⟩, _, ⟨h2, rfl⟩, _, ⟨h3, rfl⟩, rfl⟩

theorem updateUnlocking_ok_iff {s : State} {e : Env} {p : Option Duration} {r : State × List Out} :
    updateUnlocking s e p = .ok r ↔ e.sender = e.controller ∧
      r = ({ s with unlocking := p.getD s.unlocking }, []) := by
  unfold updateUnlocking
  rw [ite_ok_iff]
  simp [eq_comm]

theorem takeClaim_ok_iff {x y : State × Nat} {c : Claim} :
    takeClaim x c = .ok y ↔ x.2 + c.amount < M128 ∧
      y = ({ x.1 with claims := x.1.claims.remove c.id }, x.2 + c.amount) := by
  unfold takeClaim
  rw [bind_ok_iff]
  simp only [cadd128_ok, pure_ok_iff]
  constructor
  · rintro ⟨w, ⟨h1, rfl⟩, rfl⟩; exact ⟨h1, rfl⟩
  · rintro ⟨h1, rfl⟩; exact ⟨_, ⟨h1, rfl⟩, rfl⟩

/-- The loop of `claim`. -/
theorem takeClaims_ok_iff : ∀ (l : List Claim) {x y : State × Nat}, x.2 < M128 →
    (l.foldlM takeClaim x = .ok y ↔ x.2 + (l.map (·.amount)).sum < M128 ∧
      y = ({ x.1 with claims := (l.map (·.id)).foldl (fun m i => m.remove i) x.1.claims },
        x.2 + (l.map (·.amount)).sum)) := by
  intro l
  induction l with
  | nil =>
    intro x y hx
    rw [foldlM_nil_ok_iff]
    simp only [List.map_nil, List.sum_nil, List.foldl_nil, Nat.add_zero]
    constructor
    · rintro rfl; exact ⟨hx, rfl⟩
    · rintro ⟨_, rfl⟩; rfl
  | cons c t ih =>
    intro x y hx
    rw [foldlM_cons_ok_iff]
    simp only [takeClaim_ok_iff, List.map_cons, List.sum_cons, List.foldl_cons]
    constructor
    · rintro ⟨_, ⟨h1, rfl⟩, h2⟩
      obtain ⟨h3, rfl⟩ := (ih h1).1 h2
      rw [← Nat.add_assoc]
      exact ⟨h3, rfl⟩
    · rintro ⟨h1, rfl⟩
      have h2 : x.2 + c.amount < M128 := by omega
      refine ⟨_, ⟨h2, rfl⟩, (ih h2).2 ?_⟩
      rw [← Nat.add_assoc] at h1 ⊢
      exact ⟨h1, rfl⟩

theorem get_removes (l : List Nat) (m : Map Nat Claim) (i : Nat) :
    (l.foldl (fun m i => m.remove i) m).get i = if i ∈ l then none else m.get i := by
  induction l generalizing m with
  | nil => simp
  | cons j t ih =>
    rw [List.foldl_cons, ih, Map.get_remove]
    by_cases h1 : i ∈ t
    · simp [h1]
    · by_cases h2 : j = i
      · subst h2; simp
      · have : ¬ i = j := fun hh => h2 hh.symm
        simp [h1, h2, this]

/-- A claim that `user` can take at block `b`. -/
def takes (user : Addr) (b : Block) (c : Claim) : Bool := decide (c.user = user) && isReleasable c b

theorem getReleasable_eq (s : State) (b : Block) (u : Addr) :
    getReleasable s b u = (s.claims.filter (fun _ c => takes u b c)).values := by
  unfold getReleasable getClaims Map.values Map.filter takes
  rw [List.filter_filter, List.filter_map]
  congr 1
  apply List.filter_congr
  intro x _
  simp [Function.comp, Bool.and_comm]

/-- What holds in every reachable state. -/
structure Inv (s : State) : Prop where
  height : s.mem.byHeight.cur = some s.mem.wsum
  seconds : s.mem.bySeconds.cur = some s.mem.wsum
  ids : ∀ i c, s.claims.get i = some c → c.id = i ∧ i < s.nextClaim

theorem Inv.total {s : State} (h : Inv s) : s.mem.total = s.mem.wsum := by
  unfold Members.total Snap.load
  rw [h.height]; rfl

/-- The set of ids taken. -/
theorem mem_taken_iff {s : State} (hi : Inv s) {b : Block} {u : Addr} {i : Nat} :
    i ∈ (getReleasable s b u).map (·.id) ↔ ∃ c, s.claims.get i = some c ∧ takes u b c = true := by
  rw [getReleasable_eq]
  unfold Map.values Map.filter
  simp only [List.map_map, List.mem_map, List.mem_filter, Function.comp]
  constructor
  · rintro ⟨e, ⟨h1, h2⟩, h3⟩
    have hg := Map.get_eq_some_iff.2 (show (e.1, e.2) ∈ s.claims.entries from h1)
    have := (hi.ids _ _ hg).1
    refine ⟨e.2, ?_, h2⟩
    rw [← h3, this]; exact hg
  · rintro ⟨c, h1, h2⟩
    exact ⟨(i, c), ⟨Map.get_eq_some_iff.1 h1, h2⟩, (hi.ids _ _ h1).1⟩

theorem sum_filter_ite {α : Type} (p : α → Bool) (f : α → Nat) (l : List α) :
    ((l.filter p).map f).sum = (l.map (fun x => if p x then f x else 0)).sum := by
  induction l with
  | nil => rfl
  | cons x t ih =>
    rw [List.filter_cons, List.map_cons, List.sum_cons, ← ih]
    split <;> simp

/-- `claim` succeeds exactly for the user, and then pays and removes the releasable claims of the user. -/
theorem claim_ok_iff {s : State} (hi : Inv s) {e : Env} {u : Option Addr} {r : State × List Out} :
    claim s e u = .ok r ↔ u.getD e.sender = e.sender ∧
      (s.claims.sum fun _ c => if takes e.sender e.block c then c.amount else 0) < M128 ∧
      r = ({ s with claims := s.claims.filter (fun _ c => !takes e.sender e.block c) },
        [.pay e.sender (s.claims.sum fun _ c => if takes e.sender e.block c then c.amount else 0)]) := by
  have hsum : ∀ v, ((getReleasable s e.block v).map (·.amount)).sum =
      s.claims.sum fun _ c => if takes v e.block c then c.amount else 0 := by
    intro v
    rw [getReleasable_eq]
    unfold Map.values Map.filter Map.sum
    rw [List.map_map]
    exact sum_filter_ite (fun x : Nat × Claim => takes v e.block x.2) (fun x => x.2.amount) s.claims.entries
  have hrem : ((getReleasable s e.block e.sender).map (·.id)).foldl (fun m i => m.remove i) s.claims =
      s.claims.filter (fun _ c => !takes e.sender e.block c) := by
    apply Map.ext_get
    intro i
    rw [get_removes, Map.get_filter]
    cases hg : s.claims.get i with
    | none => simp
    | some c =>
      by_cases ht : takes e.sender e.block c = true
      · rw [if_pos ((mem_taken_iff hi).2 ⟨c, hg, ht⟩)]
        simp [Option.filter, ht]
      · rw [if_neg]
        · simp [Option.filter, ht]
        · rw [mem_taken_iff hi]
          rintro ⟨c', hc', ht'⟩
          rw [hg] at hc'; cases hc'
          exact ht ht'
  unfold claim
  simp only [ite_ok_iff, bind_ok_iff, pure_ok_iff, not_not]
  constructor
  · rintro ⟨h0, ⟨s1, sum⟩, h1, rfl⟩
    rw [← h0, takeClaims_ok_iff _ (show 0 < M128 by decide)] at h1
    obtain ⟨h2, h3⟩ := h1
    simp only [Nat.zero_add] at h2 h3
    rw [hsum] at h2 h3
    rw [hrem] at h3
    cases h3
    rw [← h0]
    exact ⟨rfl, h2, rfl⟩
  · rintro ⟨h0, h1, rfl⟩
    refine ⟨h0.symm, ({ s with claims := s.claims.filter (fun _ c => !takes e.sender e.block c) },
      s.claims.sum fun _ c => if takes e.sender e.block c then c.amount else 0), ?_, ?_⟩
    · rw [h0, takeClaims_ok_iff _ (show 0 < M128 by decide)]
      simp only [Nat.zero_add]
      rw [hsum, hrem]
      exact ⟨h1, rfl⟩
    · rw [h0]

theorem addStake_ok_iff {e : Env} {x y : Members × Nat × List WeightChange} {st : Addr × Nat} :
    addStake e x st = .ok y ↔ (st.2 = 0 ∧ y = x) ∨ (st.2 ≠ 0 ∧ e.restricted st.1 = false ∧
      x.1.weight st.1 + st.2 < M128 ∧ x.2.1 + st.2 < M128 ∧
      y = (x.1.setWeight st.1 (x.1.weight st.1 + st.2), x.2.1 + st.2,
        x.2.2 ++ [⟨st.1, x.1.weight st.1, x.1.weight st.1 + st.2⟩])) := by
  unfold addStake
  by_cases h0 : st.2 = 0
  · rw [if_pos h0]
    constructor
    · intro h; cases h; exact Or.inl ⟨h0, rfl⟩
    · rintro (⟨_, rfl⟩ | ⟨h, _⟩)
      · rfl
      · exact absurd h0 h
  · simp only [h0, if_false, ite_ok_iff, bind_ok_iff, cadd128_ok, pure_ok_iff, false_and, false_or, ne_eq,
      not_false_eq_true, true_and, Bool.not_eq_true]
    constructor
    · rintro ⟨h1, _, ⟨h2, rfl⟩, _, ⟨h3, rfl⟩, rfl⟩
      exact ⟨h1, h2, h3, rfl⟩
    · rintro ⟨h1, h2, h3, rfl⟩
      exact ⟨h1, _, ⟨h2, rfl⟩, _, ⟨h3, rfl⟩, rfl⟩

theorem shareOf_cons (st : Addr × Nat) (l : List (Addr × Nat)) (u : Addr) :
    shareOf (st :: l) u = (if u = st.1 then st.2 else 0) + shareOf l u := by
  unfold shareOf
  rw [List.filter_cons]
  by_cases h : st.1 = u
  · subst h; simp
  · have : ¬ u = st.1 := fun hh => h hh.symm
    simp [h, this]

theorem listSum_cons (st : Addr × Nat) (l : List (Addr × Nat)) : listSum (st :: l) = st.2 + listSum l := by
  simp [listSum]

theorem shareOf_le_listSum (l : List (Addr × Nat)) (u : Addr) : shareOf l u ≤ listSum l := by
  induction l with
  | nil => simp [shareOf, listSum]
  | cons st t ih =>
    rw [shareOf_cons, listSum_cons]
    split <;> omega

/-- Effect of the loop of `add_stakes`. -/
theorem addStakes_loop {e : Env} : ∀ (l : List (Addr × Nat)) {x y : Members × Nat × List WeightChange},
    l.foldlM (addStake e) x = .ok y →
      y.2.1 = x.2.1 + listSum l ∧
      (∀ u, y.1.weight u = x.1.weight u + shareOf l u) ∧
      y.1.wsum = x.1.wsum + listSum l ∧
      (y.1.byHeight = x.1.byHeight ∧ y.1.bySeconds = x.1.bySeconds ∧ y.1.hooks = x.1.hooks) ∧
      (∀ st ∈ l, st.2 ≠ 0 → e.restricted st.1 = false) ∧
      (∃ new, y.2.2 = x.2.2 ++ new ∧ Explains x.1.weight new y.1.weight ∧
        (∀ c ∈ new, c.old < c.new)) := by
  intro l
  induction l with
  | nil =>
    intro x y h
    rw [foldlM_nil_ok_iff] at h
    subst h
    refine ⟨by simp [listSum], by simp [shareOf], by simp [listSum], ⟨rfl, rfl, rfl⟩, by simp, [], by simp, ?_, by simp⟩
    intro u; rfl
  | cons st t ih =>
    intro x y h
    rw [foldlM_cons_ok_iff] at h
    obtain ⟨z, hz, hy⟩ := h
    obtain ⟨i1, i2, i3, i4, i5, new, i6, i7, i8⟩ := ih hy
    rcases addStake_ok_iff.1 hz with ⟨h0, rfl⟩ | ⟨h0, h1, h2, h3, rfl⟩
    · refine ⟨by rw [i1, listSum_cons, h0]; omega, ?_, by rw [i3, listSum_cons, h0]; omega, i4, ?_, new, i6, i7, i8⟩
      · intro u
        rw [i2, shareOf_cons, h0]
        simp
      · intro s hs hne
        rcases List.mem_cons.1 hs with rfl | hs
        · exact absurd h0 hne
        · exact i5 s hs hne
    · have hw := Members.wsum_setWeight x.1 st.1 (x.1.weight st.1 + st.2)
      simp only at i1 i2 i3 i4 i6 i7
      refine ⟨by rw [i1, listSum_cons]; omega, ?_, by rw [i3, listSum_cons]; omega, i4, ?_,
        ⟨st.1, x.1.weight st.1, x.1.weight st.1 + st.2⟩ :: new, ?_, ?_, ?_⟩
      · intro u
        rw [i2, shareOf_cons, Members.weight_setWeight]
        by_cases hu : u = st.1
        · subst hu; simp; omega
        · simp [hu]
      · intro s hs hne
        rcases List.mem_cons.1 hs with rfl | hs
        · exact h1
        · exact i5 s hs hne
      · rw [i6]; simp
      · refine ⟨rfl, ?_⟩
        have : (fun u => if u = st.1 then x.1.weight st.1 + st.2 else x.1.weight u) =
            (x.1.setWeight st.1 (x.1.weight st.1 + st.2)).weight := by
          funext u; rw [Members.weight_setWeight]
        simp only
        rw [this]; exact i7
      · intro c hc
        rcases List.mem_cons.1 hc with rfl | hc
        · simp only; omega
        · exact i8 c hc

/-- The loop of `add_stakes` succeeds when nobody is restricted and nothing overflows. -/
theorem addStakes_loop_exists {e : Env} : ∀ (l : List (Addr × Nat)) (x : Members × Nat × List WeightChange),
    (∀ st ∈ l, st.2 ≠ 0 → e.restricted st.1 = false) → x.2.1 + listSum l < M128 →
    (∀ u, x.1.weight u + shareOf l u < M128) → ∃ y, l.foldlM (addStake e) x = .ok y := by
  intro l
  induction l with
  | nil => intro x _ _ _; exact ⟨x, by rw [foldlM_nil_ok_iff]⟩
  | cons st t ih =>
    intro x h1 h2 h3
    rw [listSum_cons] at h2
    by_cases h0 : st.2 = 0
    · obtain ⟨y, hy⟩ := ih x (fun s hs => h1 s (List.mem_cons_of_mem _ hs)) (by omega) (by
        intro u; have := h3 u; rw [shareOf_cons, h0] at this; simpa using this)
      exact ⟨y, foldlM_cons_ok_iff.2 ⟨x, addStake_ok_iff.2 (Or.inl ⟨h0, rfl⟩), hy⟩⟩
    · have hw : x.1.weight st.1 + st.2 < M128 := by
        have := h3 st.1; rw [shareOf_cons] at this; simp only [if_true] at this; omega
      obtain ⟨y, hy⟩ := ih (x.1.setWeight st.1 (x.1.weight st.1 + st.2), x.2.1 + st.2,
          x.2.2 ++ [⟨st.1, x.1.weight st.1, x.1.weight st.1 + st.2⟩])
        (fun s hs => h1 s (List.mem_cons_of_mem _ hs)) (by simp only; omega) (by
          intro u
          have := h3 u
          rw [shareOf_cons] at this
          simp only [Members.weight_setWeight]
          by_cases hu : u = st.1
          · subst hu; simp only [if_true] at this ⊢; omega
          · simp only [hu, if_false] at this ⊢; omega)
      exact ⟨y, foldlM_cons_ok_iff.2 ⟨_, addStake_ok_iff.2
        (Or.inr ⟨h0, h1 st List.mem_cons_self h0, hw, by omega, rfl⟩), hy⟩⟩

/-- Entry `j` of an import as the stored claim with id `n + j`. -/
def UserClaim.stored (c : UserClaim) (i : Nat) : Claim := ⟨i, c.user, c.amount, c.release⟩

/-- The state with one more claim. -/
def State.pushed (s : State) (c : UserClaim) : State :=
  { s with nextClaim := s.nextClaim + 1, claims := s.claims.set s.nextClaim (c.stored s.nextClaim) }

@[simp] theorem pushed_next (s : State) (c : UserClaim) : (s.pushed c).nextClaim = s.nextClaim + 1 := rfl
@[simp] theorem pushed_claims (s : State) (c : UserClaim) :
    (s.pushed c).claims = s.claims.set s.nextClaim (c.stored s.nextClaim) := rfl
@[simp] theorem pushed_mem (s : State) (c : UserClaim) : (s.pushed c).mem = s.mem := rfl
@[simp] theorem pushed_asset (s : State) (c : UserClaim) : (s.pushed c).asset = s.asset := rfl
@[simp] theorem pushed_unlocking (s : State) (c : UserClaim) : (s.pushed c).unlocking = s.unlocking := rfl

theorem addTokenClaim_ok_iff {x y : State × Nat} {c : UserClaim} :
    addTokenClaim x c = .ok y ↔ x.1.nextClaim + 1 < M64 ∧ x.2 + c.amount < M128 ∧
      y = (x.1.pushed c, x.2 + c.amount) := by
  unfold addTokenClaim
  simp only [bind_ok_iff, addClaim_ok_iff, cadd128_ok, pure_ok_iff]
  constructor
  · rintro ⟨_, ⟨h1, rfl⟩, _, ⟨h2, rfl⟩, rfl⟩; exact ⟨h1, h2, rfl⟩
  · rintro ⟨h1, h2, rfl⟩; exact ⟨_, ⟨h1, rfl⟩, _, ⟨h2, rfl⟩, rfl⟩

/-- Effect of the loop of `add_token_claims`. -/
theorem addClaims_loop : ∀ (l : List UserClaim) {x y : State × Nat},
    l.foldlM addTokenClaim x = .ok y →
      y.2 = x.2 + (l.map (·.amount)).sum ∧ y.1.nextClaim = x.1.nextClaim + l.length ∧
      (l ≠ [] → y.1.nextClaim < M64) ∧
      (y.1.mem = x.1.mem ∧ y.1.asset = x.1.asset ∧ y.1.unlocking = x.1.unlocking) ∧
      (∀ i, i < x.1.nextClaim → y.1.claims.get i = x.1.claims.get i) ∧
      (∀ j, y.1.claims.get (x.1.nextClaim + j) =
        ((l[j]?).map (fun c => c.stored (x.1.nextClaim + j))).or (x.1.claims.get (x.1.nextClaim + j))) := by
  intro l
  induction l with
  | nil =>
    intro x y h
    rw [foldlM_nil_ok_iff] at h
    subst h
    refine ⟨by simp, by simp, by simp, ⟨rfl, rfl, rfl⟩, fun _ _ => rfl, ?_⟩
    intro i; simp
  | cons c t ih =>
    intro x y h
    rw [foldlM_cons_ok_iff] at h
    obtain ⟨z, hz, hy⟩ := h
    obtain ⟨h1, h2, rfl⟩ := addTokenClaim_ok_iff.1 hz
    obtain ⟨i1, i2, i3, i4, i5, i6⟩ := ih hy
    simp only [pushed_next, pushed_claims, pushed_mem, pushed_asset, pushed_unlocking] at i1 i2 i4 i5 i6
    refine ⟨by rw [i1]; simp; omega, by rw [i2]; simp; omega, ?_, i4, ?_, ?_⟩
    · intro _
      by_cases ht : t = []
      · subst ht; rw [i2]; simpa using h1
      · exact i3 ht
    · intro i hi
      rw [i5 i (by omega), Map.get_set_ne _ _ (by omega)]
    · intro j
      cases j with
      | zero =>
        rw [Nat.add_zero, i5 _ (by omega)]
        simp
      | succ j =>
        have := i6 j
        rw [show x.1.nextClaim + 1 + j = x.1.nextClaim + (j + 1) by omega] at this
        rw [this, List.getElem?_cons_succ, Map.get_set_ne _ _ (by omega)]

theorem addClaims_loop_exists : ∀ (l : List UserClaim) (x : State × Nat),
    x.1.nextClaim + l.length < M64 → x.2 + (l.map (·.amount)).sum < M128 → ∃ y, l.foldlM addTokenClaim x = .ok y := by
  intro l
  induction l with
  | nil => intro x _ _; exact ⟨x, by rw [foldlM_nil_ok_iff]⟩
  | cons c t ih =>
    intro x h1 h2
    simp only [List.length_cons, List.map_cons, List.sum_cons] at h1 h2
    obtain ⟨y, hy⟩ := ih (x.1.pushed c, x.2 + c.amount)
      (by simp only [pushed_next]; omega) (by simp only; omega)
    exact ⟨y, foldlM_cons_ok_iff.2 ⟨_, addTokenClaim_ok_iff.2 ⟨by omega, by omega, rfl⟩, hy⟩⟩

/-- The sum of the claims after the loop. -/
theorem addClaims_sum : ∀ (l : List UserClaim) {x y : State × Nat},
    (∀ i c, x.1.claims.get i = some c → i < x.1.nextClaim) →
    l.foldlM addTokenClaim x = .ok y → claimSum y.1 = claimSum x.1 + (l.map (·.amount)).sum := by
  intro l
  induction l with
  | nil =>
    intro x y _ h
    rw [foldlM_nil_ok_iff] at h
    subst h; simp
  | cons c t ih =>
    intro x y hx h
    rw [foldlM_cons_ok_iff] at h
    obtain ⟨z, hz, hy⟩ := h
    obtain ⟨h1, h2, rfl⟩ := addTokenClaim_ok_iff.1 hz
    have := ih (x := (x.1.pushed c, x.2 + c.amount)) (by
      intro i d hd
      simp only [pushed_claims, pushed_next, Map.get_set] at hd ⊢
      split at hd
      · omega
      · have := hx i d hd; omega) hy
    rw [this]
    have hs := x.1.claims.sum_set (fun _ c => c.amount) x.1.nextClaim (c.stored x.1.nextClaim)
    have hn : x.1.claims.get x.1.nextClaim = none := by
      cases hg : x.1.claims.get x.1.nextClaim with
      | none => rfl
      | some d => have := hx _ _ hg; omega
    rw [hn] at hs
    simp only [Map.contrib_none, Nat.add_zero, UserClaim.stored] at hs
    unfold claimSum
    simp only [pushed_claims, UserClaim.stored, List.map_cons, List.sum_cons] at hs ⊢
    rw [hs]; omega

/-- Success and effect of `add_stakes`. -/
theorem addStakes_ok {s : State} {e : Env} {a : Nat} {l : List (Addr × Nat)} {r : State × List Out}
    (h : addStakes s e a l = .ok r) :
    listSum l = a ∧ s.mem.total + a < M128 ∧ (∀ st ∈ l, st.2 ≠ 0 → e.restricted st.1 = false) ∧
    ∃ (m : Members) (changes : List WeightChange), r = ({ s with mem := m.saveTotal (s.mem.total + a) e.block }, s.mem.report changes) ∧
      (∀ u, m.weight u = s.mem.weight u + shareOf l u) ∧ m.wsum = s.mem.wsum + a ∧
      (m.byHeight = s.mem.byHeight ∧ m.bySeconds = s.mem.bySeconds ∧ m.hooks = s.mem.hooks) ∧
      Explains s.mem.weight changes m.weight ∧ (∀ c ∈ changes, c.old < c.new) := by
  unfold addStakes at h
  rw [bind_ok_iff] at h
  obtain ⟨⟨m1, sum, ch⟩, h1, h2⟩ := h
  obtain ⟨i1, i2, i3, i4, i5, new, i6, i7, i8⟩ := addStakes_loop l h1
  simp only at h2 i1 i2 i3 i4 i6 i7
  rw [ite_ok_iff, bind_ok_iff] at h2
  obtain ⟨h3, m2, h4, h5⟩ := h2
  rw [Members.incTotal_ok_iff] at h4
  obtain ⟨h6, rfl⟩ := h4
  rw [pure_ok_iff] at h5
  subst h5
  have hsum : sum = a := by simpa using h3
  have hl : listSum l = a := by rw [← hsum, i1]; omega
  subst hsum
  have ht : m1.total = s.mem.total := by unfold Members.total; rw [i4.1]
  rw [ht] at h6
  refine ⟨hl, h6, i5, m1, new, ?_, i2, by rw [i3, hl], i4, i7, i8⟩
  rw [ht]
  have : ch = new := by simpa using i6
  rw [this]
  unfold Members.report
  rw [Members.saveTotal_hooks, i4.2.2]

theorem addStakes_exists {s : State} (hi : Inv s) {e : Env} {a : Nat} {l : List (Addr × Nat)}
    (h1 : listSum l = a) (h2 : s.mem.total + a < M128) (h3 : ∀ st ∈ l, st.2 ≠ 0 → e.restricted st.1 = false) :
    ∃ r, addStakes s e a l = .ok r := by
  obtain ⟨⟨m1, sum, ch⟩, hy⟩ := addStakes_loop_exists l (s.mem, 0, []) h3 (by simp only; omega) (by
    intro u
    have := shareOf_le_listSum l u
    have := s.mem.weight_le_wsum u
    have := hi.total
    simp only; omega)
  obtain ⟨i1, i2, i3, i4, i5, new, i6, i7, i8⟩ := addStakes_loop l hy
  simp only at i1 i4
  have ht : m1.total = s.mem.total := by unfold Members.total; rw [i4.1]
  have hsum : sum = a := by omega
  refine ⟨({ s with mem := m1.saveTotal (m1.total + sum) e.block },
    (m1.saveTotal (m1.total + sum) e.block).report ch), ?_⟩
  unfold addStakes
  rw [bind_ok_iff]
  refine ⟨_, hy, ?_⟩
  simp only
  rw [ite_ok_iff, bind_ok_iff]
  refine ⟨by simp [hsum], _, Members.incTotal_ok_iff.2 ⟨by rw [ht, hsum]; exact h2, rfl⟩, ?_⟩
  rw [pure_ok_iff]

/-- Success and effect of `add_token_claims`. -/
theorem addTokenClaims_ok {s : State} {a : Nat} {l : List UserClaim} {r : State × List Out}
    (h : addTokenClaims s a l = .ok r) :
    r.2 = [] ∧ (l.map (·.amount)).sum = a ∧ l.foldlM addTokenClaim (s, 0) = .ok (r.1, a) := by
  unfold addTokenClaims at h
  rw [bind_ok_iff] at h
  obtain ⟨⟨s1, sum⟩, h1, h2⟩ := h
  simp only at h2
  rw [ite_ok_iff] at h2
  obtain ⟨h3, h4⟩ := h2
  rw [pure_ok_iff] at h4
  subst h4
  have hs : sum = a := by simpa using h3
  subst hs
  have := (addClaims_loop l h1).1
  simp only [Nat.zero_add] at this
  exact ⟨rfl, this.symm, h1⟩

end Staking
end Verif
