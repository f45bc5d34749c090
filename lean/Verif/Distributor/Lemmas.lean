import Verif.Distributor.Spec
import Verif.Treasury.Lemmas
import Verif.Base.Except

set_option linter.unusedSimpArgs false

/-!
# Funds distributor: helper lemmas on ledgers
-/

namespace Verif.Distributor
open Verif

theorem reward_ok_iff {g w r : Nat} {d : Option Dist} :
    reward g d w = .ok r ↔
      (d.getD ⟨0, 0⟩).index ≤ g ∧ r < M128 ∧
      r = w * (g - (d.getD ⟨0, 0⟩).index) / ONE + (d.getD ⟨0, 0⟩).pending := by
  unfold reward newReward
  simp only [bind_ok_iff, csub_ok, cadd128_ok]
  constructor
  · rintro ⟨x, ⟨y, ⟨h1, rfl⟩, h2⟩, h3, rfl⟩
    split at h2
    · cases h2
      exact ⟨h1, h3, rfl⟩
    · cases h2
  · rintro ⟨h1, h2, h3⟩
    refine ⟨w * (g - (d.getD ⟨0, 0⟩).index) / ONE, ⟨_, ⟨h1, rfl⟩, ?_⟩, by omega, h3⟩
    rw [if_pos (by omega)]

theorem fromRatio_ok {a t r : Nat} (h : fromRatio a t = .ok r) : t ≠ 0 ∧ r = a * ONE / t ∧ r < M128 := by
  unfold fromRatio checkedFromRatio at h
  by_cases h0 : t = 0
  · simp [h0] at h
  · by_cases h1 : a * ONE / t < M128
    · simp only [h0, if_false, h1, if_true] at h
      cases h
      exact ⟨h0, rfl, h1⟩
    · simp only [h0, if_false, h1] at h
      cases h

theorem fromRatio_exists {a t : Nat} (h : t ≠ 0) (h1 : a * ONE / t < M128) : fromRatio a t = .ok (a * ONE / t) := by
  unfold fromRatio checkedFromRatio
  simp only [h, if_false, h1, if_true]

namespace Ledger

/-- Amount the ledger gives to a user of weight `w`. -/
def amt (L : Ledger) (u : Addr) (w a : Nat) : Except Err Nat :=
  reward (L.global a) (L.dist.get (toLex (u, a))) w

/-- Entry of a user for an asset. -/
def at_ (L : Ledger) (u : Addr) (a : Nat) : Dist := (L.dist.get (toLex (u, a))).getD ⟨0, 0⟩

/-- 10^18 times the unrounded amount due to a user. -/
def share (L : Ledger) (u : Addr) (w a : Nat) : Nat :=
  ONE * (L.at_ u a).pending + w * (L.global a - (L.at_ u a).index)

/-- 10^18 times the unrounded amount due to all the users. -/
def owed (L : Ledger) (eff : Map Addr Nat) (a : Nat) : Nat := eff.sum (fun u w => L.share u w a)

/-- Entries are not ahead of the global index, belong to users with an effective weight, and hold nothing while the
global index is zero. -/
def Ok (L : Ledger) (eff : Map Addr Nat) : Prop :=
  ∀ u a d, L.dist.get (toLex (u, a)) = some d →
    d.index ≤ L.global a ∧ eff.has u = true ∧ (L.global a = 0 → d.pending = 0)

theorem Ok.index_le {L : Ledger} {eff : Map Addr Nat} (h : L.Ok eff) (u : Addr) (a : Nat) :
    (L.at_ u a).index ≤ L.global a := by
  unfold at_
  cases hd : L.dist.get (toLex (u, a)) with
  | none => simp
  | some d => exact (h u a d hd).1

theorem Ok.pending_zero {L : Ledger} {eff : Map Addr Nat} (h : L.Ok eff) (u : Addr) (a : Nat) (hz : L.global a = 0) :
    (L.at_ u a).pending = 0 := by
  unfold at_
  cases hd : L.dist.get (toLex (u, a)) with
  | none => simp
  | some d => exact (h u a d hd).2.2 hz

theorem amt_ok_iff {L : Ledger} {u : Addr} {w a r : Nat} :
    L.amt u w a = .ok r ↔ (L.at_ u a).index ≤ L.global a ∧ r < M128 ∧
      r = w * (L.global a - (L.at_ u a).index) / ONE + (L.at_ u a).pending := reward_ok_iff

theorem amt_le_share {L : Ledger} {u : Addr} {w a r : Nat} (h : L.amt u w a = .ok r) : ONE * r ≤ L.share u w a := by
  obtain ⟨_, _, rfl⟩ := amt_ok_iff.1 h
  unfold share
  rw [Nat.mul_add]
  have := Nat.mul_div_le (w * (L.global a - (L.at_ u a).index)) ONE
  omega

theorem key_ne {u v a b : Nat} (h : ¬ (v = u ∧ b = a)) : (toLex (u, a) : Addr ×ₗ Nat) ≠ toLex (v, b) := by
  intro he
  have := toLex.injective he
  simp only [Prod.mk.injEq] at this
  exact h ⟨this.1.symm, this.2.symm⟩

theorem settle_fold {u : Addr} {w : Nat} : ∀ (l : List (Nat × Nat)) (L L' : Ledger), (l.map (·.1)).Nodup →
    l.foldlM (settleOne u w) L = .ok L' →
    L'.idx = L.idx ∧
    (∀ v a, ¬ (v = u ∧ a ∈ l.map (·.1)) → L'.dist.get (toLex (v, a)) = L.dist.get (toLex (v, a))) ∧
    ∀ e ∈ l, ∃ r, reward e.2 (L.dist.get (toLex (u, e.1))) w = .ok r ∧ L'.dist.get (toLex (u, e.1)) = some ⟨e.2, r⟩
  | [], L, L', _, h => by
    rw [foldlM_nil_ok_iff] at h
    subst h
    exact ⟨rfl, fun _ _ _ => rfl, fun _ h => by simp at h⟩
  | e :: l, L, L', hn, h => by
    obtain ⟨L1, h1, h2⟩ := foldlM_cons_ok_iff.1 h
    unfold settleOne at h1
    obtain ⟨r, hr, h1⟩ := bind_ok_iff.1 h1
    cases h1
    rw [List.map_cons, List.nodup_cons] at hn
    obtain ⟨i1, i2, i3⟩ := settle_fold l _ L' hn.2 h2
    refine ⟨i1, fun v a hva => ?_, fun e' he' => ?_⟩
    · rw [i2 v a (fun hx => hva ⟨hx.1, by simp [hx.2]⟩)]
      exact Map.get_set_ne _ _ (key_ne (fun hx => hva ⟨hx.1, by simp [hx.2]⟩))
    · rcases List.mem_cons.1 he' with rfl | he'
      · refine ⟨r, hr, ?_⟩
        rw [i2 u e'.1 (fun hx => hn.1 hx.2)]
        exact Map.get_set_self _ _ _
      · obtain ⟨r', hr', hg⟩ := i3 e' he'
        refine ⟨r', ?_, hg⟩
        rw [← hr']
        congr 1
        refine (Map.get_set_ne _ _ (key_ne (fun hx => hn.1 ?_))).symm
        rw [← hx.2]
        exact List.mem_map_of_mem he'

theorem settle_fold_exists {u : Addr} {w : Nat} : ∀ (l : List (Nat × Nat)) (L : Ledger), (l.map (·.1)).Nodup →
    (∀ e ∈ l, ∃ r, reward e.2 (L.dist.get (toLex (u, e.1))) w = .ok r) → ∃ L', l.foldlM (settleOne u w) L = .ok L'
  | [], L, _, _ => ⟨L, rfl⟩
  | e :: l, L, hn, h => by
    obtain ⟨r, hr⟩ := h e List.mem_cons_self
    rw [List.map_cons, List.nodup_cons] at hn
    obtain ⟨L', hL⟩ := settle_fold_exists l { L with dist := L.dist.set (toLex (u, e.1)) ⟨e.2, r⟩ } hn.2 (by
      intro e' he'
      obtain ⟨r', hr'⟩ := h e' (List.mem_cons_of_mem _ he')
      refine ⟨r', ?_⟩
      rw [← hr']
      congr 1
      refine Map.get_set_ne _ _ (key_ne (fun hx => hn.1 ?_))
      rw [← hx.2]
      exact List.mem_map_of_mem he')
    refine ⟨L', foldlM_cons_ok_iff.2 ⟨_, ?_, hL⟩⟩
    unfold settleOne
    rw [hr]
    rfl

theorem mem_idx {L : Ledger} {a g : Nat} : L.idx.get a = some g ↔ (a, g) ∈ L.idx.entries := Map.get_eq_some_iff

theorem global_of_get {L : Ledger} {a g : Nat} (h : L.idx.get a = some g) : L.global a = g := by
  unfold global; rw [h]; rfl

/-- Effect of settling one user. -/
theorem settle_ok {L L' : Ledger} {u : Addr} {w : Nat} (h : L.settle u w = .ok L') :
    L'.idx = L.idx ∧
    (∀ v a, v ≠ u → L'.dist.get (toLex (v, a)) = L.dist.get (toLex (v, a))) ∧
    (∀ a, L.idx.get a = none → L'.dist.get (toLex (u, a)) = L.dist.get (toLex (u, a))) ∧
    ∀ a, L.idx.get a ≠ none → ∃ r, L.amt u w a = .ok r ∧ L'.dist.get (toLex (u, a)) = some ⟨L.global a, r⟩ := by
  obtain ⟨h1, h2, h3⟩ := settle_fold _ _ _ L.idx.nodup_keys h
  refine ⟨h1, fun v a hv => h2 v a (fun hx => hv hx.1), fun a ha => h2 u a (fun hx => ?_), fun a ha => ?_⟩
  · obtain ⟨g, hg⟩ := Map.mem_keys.1 hx.2
    rw [ha] at hg
    cases hg
  · cases hg : L.idx.get a with
    | none => exact absurd hg ha
    | some g =>
      obtain ⟨r, hr, hd⟩ := h3 (a, g) (mem_idx.1 hg)
      refine ⟨r, ?_, ?_⟩
      · unfold amt
        rw [global_of_get hg]
        exact hr
      · rw [global_of_get hg]
        exact hd

theorem settle_exists {L : Ledger} {u : Addr} {w : Nat} (h : ∀ a, ∃ r, L.amt u w a = .ok r) :
    ∃ L', L.settle u w = .ok L' := by
  refine settle_fold_exists _ _ L.idx.nodup_keys (fun e he => ?_)
  obtain ⟨r, hr⟩ := h e.1
  refine ⟨r, ?_⟩
  unfold amt at hr
  rw [global_of_get (mem_idx.2 he)] at hr
  exact hr

theorem init_fold {u : Addr} : ∀ (l : List (Nat × Nat)) (L : Ledger), (l.map (·.1)).Nodup →
    (∀ e ∈ l, L.dist.get (toLex (u, e.1)) = none) →
    (l.foldl (initOne u) L).idx = L.idx ∧
    (∀ v a, ¬ (v = u ∧ a ∈ l.map (·.1)) →
      (l.foldl (initOne u) L).dist.get (toLex (v, a)) = L.dist.get (toLex (v, a))) ∧
    ∀ e ∈ l, (l.foldl (initOne u) L).dist.get (toLex (u, e.1)) = some ⟨e.2, 0⟩
  | [], L, _, _ => ⟨rfl, fun _ _ _ => rfl, fun _ h => by simp at h⟩
  | e :: l, L, hn, hd => by
    rw [List.map_cons, List.nodup_cons] at hn
    have h1 : initOne u L e = { L with dist := L.dist.set (toLex (u, e.1)) ⟨e.2, 0⟩ } := by
      unfold initOne
      rw [hd e List.mem_cons_self]
    obtain ⟨i1, i2, i3⟩ := init_fold (u := u) l { L with dist := L.dist.set (toLex (u, e.1)) ⟨e.2, 0⟩ } hn.2 (by
      intro e' he'
      rw [← hd e' (List.mem_cons_of_mem _ he')]
      refine Map.get_set_ne _ _ (key_ne (fun hx => hn.1 ?_))
      rw [← hx.2]
      exact List.mem_map_of_mem he')
    rw [List.foldl_cons, h1]
    refine ⟨i1, fun v a hva => ?_, fun e' he' => ?_⟩
    · rw [i2 v a (fun hx => hva ⟨hx.1, by simp [hx.2]⟩)]
      exact Map.get_set_ne _ _ (key_ne (fun hx => hva ⟨hx.1, by simp [hx.2]⟩))
    · rcases List.mem_cons.1 he' with rfl | he'
      · rw [i2 u e'.1 (fun hx => hn.1 hx.2)]
        exact Map.get_set_self _ _ _
      · exact i3 e' he'

theorem init_ok {L : Ledger} {u : Addr} (hd : ∀ a, L.dist.get (toLex (u, a)) = none) :
    (L.initUser u).idx = L.idx ∧
    (∀ v a, v ≠ u → (L.initUser u).dist.get (toLex (v, a)) = L.dist.get (toLex (v, a))) ∧
    (∀ a, L.idx.get a = none → (L.initUser u).dist.get (toLex (u, a)) = none) ∧
    ∀ a, L.idx.get a ≠ none → (L.initUser u).dist.get (toLex (u, a)) = some ⟨L.global a, 0⟩ := by
  obtain ⟨h1, h2, h3⟩ := init_fold (u := u) L.idx.entries L L.idx.nodup_keys (fun e _ => hd e.1)
  refine ⟨h1, fun v a hv => h2 v a (fun hx => hv hx.1), fun a ha => ?_, fun a ha => ?_⟩
  · rw [← hd a]
    refine h2 u a (fun hx => ?_)
    obtain ⟨g, hg⟩ := Map.mem_keys.1 hx.2
    rw [ha] at hg
    cases hg
  · cases hg : L.idx.get a with
    | none => exact absurd hg ha
    | some g =>
      rw [global_of_get hg]
      exact h3 (a, g) (mem_idx.1 hg)

end Ledger

/-- Changing a summand at one key only. -/
theorem sum_change {K V : Type} [LinearOrder K] (m : Map K V) (f g : K → V → Nat) (k : K)
    (h : ∀ k' v, k' ≠ k → f k' v = g k' v) :
    m.sum f + Map.contrib g k (m.get k) = m.sum g + Map.contrib f k (m.get k) := by
  have h1 := m.sum_remove f k
  have h2 := m.sum_remove g k
  have h3 : (m.remove k).sum f = (m.remove k).sum g := by
    refine Map.sum_congr (fun k' v hv => h k' v ?_)
    rintro rfl
    rw [Map.get_remove] at hv
    simp at hv
  omega

namespace Ledger

/-- One user's rewards brought up to date: nothing of the other users changes, the amount of `u` becomes pending. -/
structure Fresh (L L' : Ledger) (u : Addr) (w : Nat) : Prop where
  idx : L'.idx = L.idx
  others : ∀ v a, v ≠ u → L'.dist.get (toLex (v, a)) = L.dist.get (toLex (v, a))
  same : ∀ w' a, L'.amt u w' a = L.amt u w a
  share : ∀ w' a, L'.share u w' a ≤ L.share u w a
  index : ∀ a d, L'.dist.get (toLex (u, a)) = some d → d.index ≤ L.global a ∧ (L.global a = 0 → d.pending = 0)

theorem global_congr {L L' : Ledger} (h : L'.idx = L.idx) (a : Nat) : L'.global a = L.global a := by
  unfold global; rw [h]

theorem Fresh.global {L L' : Ledger} {u : Addr} {w : Nat} (h : Fresh L L' u w) (a : Nat) : L'.global a = L.global a :=
  global_congr h.idx a

theorem global_none {L : Ledger} {a : Nat} (h : L.idx.get a = none) : L.global a = 0 := by
  unfold Ledger.global; rw [h]; rfl

theorem fresh_settle {L L' : Ledger} {eff : Map Addr Nat} {u : Addr} {w : Nat} (hok : L.Ok eff)
    (h : L.settle u w = .ok L') : Fresh L L' u w := by
  obtain ⟨h1, h2, h3, h4⟩ := settle_ok h
  refine ⟨h1, h2, fun w' a => ?_, fun w' a => ?_, fun a d hd => ?_⟩
  · by_cases ha : L.idx.get a = none
    · unfold amt
      rw [h3 a ha, global_congr h1, global_none ha]
      unfold reward newReward
      have hi := hok.index_le u a
      rw [global_none ha] at hi
      unfold at_ at hi
      have hz : 0 - ((L.dist.get (toLex (u, a))).getD ⟨0, 0⟩).index = 0 := by omega
      have hc : csub 0 ((L.dist.get (toLex (u, a))).getD ⟨0, 0⟩).index = .ok 0 := csub_ok.2 ⟨hi, by omega⟩
      simp only [hc]
      simp only [Except.bind, bind, Nat.mul_zero, Nat.zero_div]
    · obtain ⟨r, hr, hd⟩ := h4 a ha
      rw [hr, amt_ok_iff]
      obtain ⟨_, hlt, _⟩ := amt_ok_iff.1 hr
      unfold at_
      rw [hd, global_congr h1]
      simp [hlt]
  · by_cases ha : L.idx.get a = none
    · unfold share at_
      rw [h3 a ha, global_congr h1, global_none ha]
      simp
    · obtain ⟨r, hr, hd⟩ := h4 a ha
      have := amt_le_share hr
      refine le_trans (le_of_eq ?_) this
      unfold share at_
      rw [hd, global_congr h1]
      simp
  · by_cases ha : L.idx.get a = none
    · rw [h3 a ha] at hd
      exact ⟨(hok u a d hd).1, (hok u a d hd).2.2⟩
    · obtain ⟨r, hr, hd'⟩ := h4 a ha
      rw [hd'] at hd
      cases hd
      refine ⟨le_refl _, fun hz => ?_⟩
      obtain ⟨_, _, h7⟩ := amt_ok_iff.1 hr
      rw [hz, Nat.zero_sub, Nat.mul_zero, Nat.zero_div, Nat.zero_add, hok.pending_zero u a hz] at h7
      exact h7

theorem fresh_init {L : Ledger} {eff : Map Addr Nat} {u : Addr} (hok : L.Ok eff) (hu : eff.get u = none) :
    Fresh L (L.initUser u) u 0 := by
  have hd : ∀ a, L.dist.get (toLex (u, a)) = none := by
    intro a
    cases h : L.dist.get (toLex (u, a)) with
    | none => rfl
    | some d =>
      have := (hok u a d h).2.1
      rw [Map.has_iff] at this
      obtain ⟨v, hv⟩ := this
      rw [hu] at hv
      cases hv
  obtain ⟨h1, h2, h3, h4⟩ := init_ok hd
  have hz : ∀ a, L.amt u 0 a = .ok 0 := by
    intro a
    rw [amt_ok_iff]
    unfold at_
    rw [hd a]
    simp
  refine ⟨h1, h2, fun w' a => ?_, fun w' a => ?_, fun a d hd' => ?_⟩
  · rw [hz, amt_ok_iff]
    unfold at_
    rw [global_congr h1]
    by_cases ha : L.idx.get a = none
    · rw [h3 a ha, global_none ha]
      simp
    · rw [h4 a ha]
      simp
  · unfold share at_
    rw [global_congr h1]
    by_cases ha : L.idx.get a = none
    · rw [h3 a ha, global_none ha]
      simp
    · rw [h4 a ha]
      simp
  · by_cases ha : L.idx.get a = none
    · rw [h3 a ha] at hd'
      cases hd'
    · rw [h4 a ha] at hd'
      cases hd'
      exact ⟨le_refl _, fun _ => rfl⟩

theorem Fresh.ok {L L' : Ledger} {eff : Map Addr Nat} {u : Addr} {w w' : Nat} (h : Fresh L L' u w) (hok : L.Ok eff) :
    L'.Ok (eff.set u w') := by
  intro v a d hd
  rw [h.global]
  by_cases hv : v = u
  · subst hv
    exact ⟨(h.index a d hd).1, by rw [Map.has_set]; simp, (h.index a d hd).2⟩
  · rw [h.others v a hv] at hd
    obtain ⟨h1, h2, h3⟩ := hok v a d hd
    exact ⟨h1, by rw [Map.has_set, h2]; simp, h3⟩

theorem Fresh.amt_other {L L' : Ledger} {u v : Addr} {w : Nat} (h : Fresh L L' u w) (hv : v ≠ u) (x a : Nat) :
    L'.amt v x a = L.amt v x a := by
  unfold amt
  rw [h.global, h.others v a hv]

theorem Fresh.share_other {L L' : Ledger} {u v : Addr} {w : Nat} (h : Fresh L L' u w) (hv : v ≠ u) (x a : Nat) :
    L'.share v x a = L.share v x a := by
  unfold Ledger.share at_
  rw [h.global, h.others v a hv]

theorem Fresh.owed {L L' : Ledger} {eff : Map Addr Nat} {u : Addr} {w w' : Nat} (h : Fresh L L' u w)
    (hw : eff.get u = some w ∨ (eff.get u = none ∧ w = 0 ∧ ∀ a, L.dist.get (toLex (u, a)) = none)) (a : Nat) :
    L'.owed (eff.set u w') a ≤ L.owed eff a := by
  unfold Ledger.owed
  have h1 := Map.sum_set eff (fun u w => L'.share u w a) u w'
  have h2 := sum_change eff (fun u w => L'.share u w a) (fun u w => L.share u w a) u
    (fun v x hv => h.share_other hv x a)
  have h3 := h.share w' a
  rcases hw with hw | ⟨hw, rfl, hd⟩
  · rw [hw] at h1 h2
    simp only [Map.contrib_some] at h1 h2
    have h4 := h.share w a
    omega
  · rw [hw] at h1 h2
    simp only [Map.contrib_none] at h1 h2
    have h4 : L.share u 0 a = 0 := by
      unfold Ledger.share at_
      rw [hd]
      simp
    omega

/-- Effect of a distribution on a ledger. -/
theorem distributeOne_ok {t : Nat} {L L' : Ledger} {f : Nat × Nat} (h : L.distributeOne t f = .ok L') :
    t ≠ 0 ∧ f.2 * ONE / t < M128 ∧ L.global f.1 + f.2 * ONE / t < M128 ∧ L'.dist = L.dist ∧
    ∀ a, L'.global a = L.global a + if f.1 = a then f.2 * ONE / t else 0 := by
  unfold distributeOne at h
  obtain ⟨inc, h1, h⟩ := bind_ok_iff.1 h
  obtain ⟨g, h2, h⟩ := bind_ok_iff.1 h
  have h' := pure_ok_iff.1 h
  obtain ⟨ht, hinc, hlt⟩ := fromRatio_ok h1
  obtain ⟨hg, hg'⟩ := cadd128_ok.1 h2
  rw [← hinc]
  refine ⟨ht, hlt, hg, by rw [← h'], fun a => ?_⟩
  rw [← h']
  unfold global at hg' ⊢
  simp only [Map.get_set]
  by_cases ha : f.1 = a
  · rw [if_pos ha, if_pos ha, ← ha, ← hg']
    rfl
  · rw [if_neg ha, if_neg ha, Nat.add_zero]

theorem distributeOne_exists {t : Nat} {L : Ledger} {f : Nat × Nat} (ht : t ≠ 0)
    (h : L.global f.1 + f.2 * ONE / t < M128) : ∃ L', L.distributeOne t f = .ok L' := by
  refine ⟨{ L with idx := L.idx.set f.1 (L.global f.1 + f.2 * ONE / t) }, ?_⟩
  unfold distributeOne
  rw [fromRatio_exists ht (by omega)]
  refine bind_ok_iff.2 ⟨_, rfl, bind_ok_iff.2 ⟨_, cadd128_ok.2 ⟨h, rfl⟩, rfl⟩⟩

theorem distribute_Ok {t : Nat} {L L' : Ledger} {f : Nat × Nat} {eff : Map Addr Nat} (h : L.distributeOne t f = .ok L')
    (hok : L.Ok eff) : L'.Ok eff := by
  obtain ⟨_, _, _, hd, hg⟩ := distributeOne_ok h
  intro u a d hu
  rw [hd] at hu
  obtain ⟨h1, h2, h3⟩ := hok u a d hu
  rw [hg]
  exact ⟨by omega, h2, fun hz => h3 (by omega)⟩

theorem distribute_owed {t : Nat} {L L' : Ledger} {f : Nat × Nat} {eff : Map Addr Nat} (h : L.distributeOne t f = .ok L')
    (hok : L.Ok eff) (ht : t = eff.sum (fun _ w => w)) (a : Nat) :
    L'.owed eff a ≤ L.owed eff a + ONE * (if f.1 = a then f.2 else 0) := by
  obtain ⟨ht0, _, _, hd, hg⟩ := distributeOne_ok h
  by_cases ha : f.1 = a
  · have h1 : L'.owed eff a = L.owed eff a + (f.2 * ONE / t) * eff.sum (fun _ w => w) := by
      unfold owed
      rw [← Map.sum_mul_left, ← Map.sum_add]
      refine Map.sum_congr (fun u w _ => ?_)
      have hi := hok.index_le u a
      unfold share
      have : L'.at_ u a = L.at_ u a := by unfold at_; rw [hd]
      rw [this, hg, if_pos ha, Nat.add_comm (L.global a), Nat.add_sub_assoc hi, Nat.mul_add, Nat.mul_comm w]
      omega
    rw [h1, ← ht, if_pos ha]
    have := Nat.div_mul_le_self (f.2 * ONE) t
    rw [Nat.mul_comm ONE]
    omega
  · have h1 : L'.owed eff a = L.owed eff a := by
      unfold owed
      refine Map.sum_congr (fun u w _ => ?_)
      unfold share at_
      rw [hd, hg, if_neg ha]
      rfl
    omega

/-- Amount listed for an asset. -/
def listed (a : Nat) (l : List (Nat × Nat)) : Nat := (l.map (fun f => if f.1 = a then f.2 else 0)).sum

theorem distribute_fold {t : Nat} {eff : Map Addr Nat} (ht : t = eff.sum (fun _ w => w)) :
    ∀ (l : List (Nat × Nat)) (L L' : Ledger), l.foldlM (distributeOne t) L = .ok L' → L.Ok eff →
    L'.dist = L.dist ∧ L'.Ok eff ∧ (∀ a, L.global a ≤ L'.global a) ∧
    (∀ a, L'.owed eff a ≤ L.owed eff a + ONE * listed a l)
  | [], L, L', h, hok => by
    rw [foldlM_nil_ok_iff] at h
    subst h
    exact ⟨rfl, hok, fun _ => le_refl _, fun a => by simp [listed]⟩
  | f :: l, L, L', h, hok => by
    obtain ⟨L1, h1, h2⟩ := foldlM_cons_ok_iff.1 h
    obtain ⟨_, _, _, d1, g1⟩ := distributeOne_ok h1
    obtain ⟨i1, i2, i3, i4⟩ := distribute_fold ht l L1 L' h2 (distribute_Ok h1 hok)
    refine ⟨i1.trans d1, i2, fun a => ?_, fun a => ?_⟩
    · have := i3 a
      rw [g1] at this
      omega
    · have h3 := i4 a
      have h4 := distribute_owed h1 hok ht a
      have h5 : listed a (f :: l) = (if f.1 = a then f.2 else 0) + listed a l := rfl
      rw [h5, Nat.mul_add]
      omega

/-- Effect of claiming one asset. -/
structure Claimed (L L' : Ledger) (u : Addr) (w a r : Nat) : Prop where
  before : L.amt u w a = .ok r
  after : L'.amt u w a = .ok 0
  idx : L'.idx = L.idx
  others : ∀ v b, ¬ (v = u ∧ b = a) → L'.dist.get (toLex (v, b)) = L.dist.get (toLex (v, b))
  share : L'.share u w a + ONE * r ≤ L.share u w a
  entry : (r ≠ 0 ∧ L'.dist.get (toLex (u, a)) = some ⟨L.global a, 0⟩) ∨
    (r = 0 ∧ L'.dist.get (toLex (u, a)) = L.dist.get (toLex (u, a)))

theorem claimOne_ok {u : Addr} {w a : Nat} {x x' : Ledger × List (Nat × Nat)} {eff : Map Addr Nat} (hok : x.1.Ok eff)
    (h : claimOne u w x a = .ok x') :
    ∃ r, Claimed x.1 x'.1 u w a r ∧ x'.2 = x.2 ++ (if r = 0 then [] else [(a, r)]) := by
  unfold claimOne at h
  by_cases hg : x.1.global a = 0
  · rw [if_pos hg] at h
    cases h
    have h0 : x.1.amt u w a = .ok 0 := by
      rw [amt_ok_iff, hok.pending_zero u a hg, hg]
      have hi := hok.index_le u a
      rw [hg] at hi
      refine ⟨hi, by decide, by simp⟩
    exact ⟨0, ⟨h0, h0, rfl, fun _ _ _ => rfl, by simp, .inr ⟨rfl, rfl⟩⟩, by simp⟩
  · rw [if_neg hg] at h
    obtain ⟨r, hr, h⟩ := bind_ok_iff.1 h
    by_cases hz : r = 0
    · rw [if_pos hz] at h
      cases h
      subst hz
      exact ⟨0, ⟨hr, hr, rfl, fun _ _ _ => rfl, by simp, .inr ⟨rfl, rfl⟩⟩, by simp⟩
    · rw [if_neg hz] at h
      cases h
      have hd : ({ x.1 with dist := x.1.dist.set (toLex (u, a)) ⟨x.1.global a, 0⟩ } : Ledger).dist.get (toLex (u, a)) =
          some ⟨x.1.global a, 0⟩ := Map.get_set_self _ _ _
      have hgl : ({ x.1 with dist := x.1.dist.set (toLex (u, a)) ⟨x.1.global a, 0⟩ } : Ledger).global a = x.1.global a :=
        rfl
      refine ⟨r, ⟨hr, ?_, rfl, fun v b hvb => Map.get_set_ne _ _ (key_ne hvb), ?_, .inl ⟨hz, hd⟩⟩, by rw [if_neg hz]⟩
      · rw [amt_ok_iff]
        unfold at_
        rw [hd, hgl]
        simp
      · refine le_trans (le_of_eq ?_) (amt_le_share hr)
        unfold Ledger.share at_
        rw [hd, hgl]
        simp

theorem Claimed.global {L L' : Ledger} {u : Addr} {w a r : Nat} (h : Claimed L L' u w a r) (b : Nat) :
    L'.global b = L.global b := global_congr h.idx b

theorem Claimed.amt_other {L L' : Ledger} {u : Addr} {w a r : Nat} (h : Claimed L L' u w a r) {v : Addr} {b : Nat}
    (hv : ¬ (v = u ∧ b = a)) (x : Nat) : L'.amt v x b = L.amt v x b := by
  unfold amt
  rw [h.global, h.others v b hv]

theorem Claimed.known {L L' : Ledger} {u : Addr} {w a r : Nat} (h : Claimed L L' u w a r) {eff : Map Addr Nat}
    (hok : L.Ok eff) (hw : (eff.get u).getD 0 = w) (hr : r ≠ 0) : eff.get u = some w := by
  cases hu : eff.get u with
  | some w' =>
    rw [hu] at hw
    rw [← hw]
    rfl
  | none =>
    rw [hu] at hw
    have hw : 0 = w := hw
    obtain ⟨_, _, h3⟩ := amt_ok_iff.1 h.before
    cases hd : L.dist.get (toLex (u, a)) with
    | none =>
      unfold at_ at h3
      rw [hd, ← hw] at h3
      simp at h3
      exact absurd h3 hr
    | some d =>
      obtain ⟨x, hx⟩ := Map.has_iff.1 (hok u a d hd).2.1
      rw [hu] at hx
      cases hx

theorem Claimed.ok {L L' : Ledger} {u : Addr} {w a r : Nat} (h : Claimed L L' u w a r) {eff : Map Addr Nat}
    (hok : L.Ok eff) (hw : (eff.get u).getD 0 = w) : L'.Ok eff := by
  intro v b d hd
  rw [h.global]
  by_cases hvb : v = u ∧ b = a
  · obtain ⟨rfl, rfl⟩ := hvb
    rcases h.entry with ⟨hr, he⟩ | ⟨_, he⟩
    · rw [he] at hd
      cases hd
      exact ⟨le_refl _, Map.has_iff.2 ⟨w, h.known hok hw hr⟩, fun _ => rfl⟩
    · rw [he] at hd
      exact hok v b d hd
  · rw [h.others v b hvb] at hd
    exact hok v b d hd

theorem Claimed.owed {L L' : Ledger} {u : Addr} {w a r : Nat} (h : Claimed L L' u w a r) {eff : Map Addr Nat}
    (hok : L.Ok eff) (hw : (eff.get u).getD 0 = w) (b : Nat) :
    L'.owed eff b + ONE * (if a = b then r else 0) ≤ L.owed eff b := by
  have hsh : ∀ v x b, ¬ (v = u ∧ b = a) → L'.share v x b = L.share v x b := by
    intro v x b hv
    unfold Ledger.share at_
    rw [h.global, h.others v b hv]
  by_cases hab : a = b
  · subst hab
    rw [if_pos rfl]
    unfold Ledger.owed
    by_cases hr : r = 0
    · rcases h.entry with ⟨hr', _⟩ | ⟨_, he⟩
      · exact absurd hr hr'
      · refine le_of_eq ?_
        rw [hr, Nat.mul_zero, Nat.add_zero]
        refine Map.sum_congr (fun v x _ => ?_)
        by_cases hv : v = u
        · subst hv
          unfold Ledger.share at_
          rw [h.global, he]
        · exact hsh v x a (fun hx => hv hx.1)
    · have h2 := sum_change eff (fun u w => L'.share u w a) (fun u w => L.share u w a) u
        (fun v x hv => hsh v x a (fun hx => hv hx.1))
      rw [h.known hok hw hr] at h2
      simp only [Map.contrib_some] at h2
      have h3 := h.share
      omega
  · rw [if_neg hab, Nat.mul_zero, Nat.add_zero]
    refine le_of_eq ?_
    unfold Ledger.owed
    exact Map.sum_congr (fun v x _ => hsh v x b (fun hx => hab hx.2.symm))

theorem listed_cons (a : Nat) (f : Nat × Nat) (l : List (Nat × Nat)) :
    listed a (f :: l) = (if f.1 = a then f.2 else 0) + listed a l := rfl

/-- Effect of claiming a list of assets. -/
structure ClaimedAll (L L' : Ledger) (eff : Map Addr Nat) (u : Addr) (w : Nat) (l : List Nat)
    (pays : List (Nat × Nat)) : Prop where
  ok : L'.Ok eff
  idx : L'.idx = L.idx
  others : ∀ v b, ¬ (v = u ∧ b ∈ l) → L'.dist.get (toLex (v, b)) = L.dist.get (toLex (v, b))
  listed : ∀ b, b ∈ l → L.amt u w b = .ok (listed b pays) ∧ L'.amt u w b = .ok 0
  unlisted : ∀ b, b ∉ l → Ledger.listed b pays = 0
  owed : ∀ b, L'.owed eff b + ONE * Ledger.listed b pays ≤ L.owed eff b
  nonzero : ∀ p ∈ pays, p.2 ≠ 0

theorem claim_fold {u : Addr} {w : Nat} {eff : Map Addr Nat} (hw : (eff.get u).getD 0 = w) :
    ∀ (l : List Nat) (x x' : Ledger × List (Nat × Nat)), l.foldlM (claimOne u w) x = .ok x' → x.1.Ok eff →
    ∃ pays, x'.2 = x.2 ++ pays ∧ ClaimedAll x.1 x'.1 eff u w l pays
  | [], x, x', h, hok => by
    rw [foldlM_nil_ok_iff] at h
    subst h
    exact ⟨[], by simp, ⟨hok, rfl, fun _ _ _ => rfl, fun _ h => by simp at h, fun _ _ => rfl,
      fun _ => by simp [Ledger.listed], fun _ h => by simp at h⟩⟩
  | a :: l, x, x', h, hok => by
    obtain ⟨x1, h1, h2⟩ := foldlM_cons_ok_iff.1 h
    obtain ⟨r, hc, ho⟩ := claimOne_ok hok h1
    have hok1 := hc.ok hok hw
    obtain ⟨pays, ho2, i⟩ := claim_fold hw l x1 x' h2 hok1
    have hl : ∀ b, Ledger.listed b ((if r = 0 then [] else [(a, r)]) ++ pays) =
        (if a = b then r else 0) + Ledger.listed b pays := by
      intro b
      by_cases hr : r = 0
      · simp [hr]
      · rw [if_neg hr, List.singleton_append, listed_cons]
    refine ⟨(if r = 0 then [] else [(a, r)]) ++ pays, by rw [ho2, ho, List.append_assoc],
      ⟨i.ok, i.idx.trans hc.idx, fun v b hv => ?_, fun b hb => ?_, fun b hb => ?_, fun b => ?_, fun p hp => ?_⟩⟩
    · rw [i.others v b (fun hx => hv ⟨hx.1, List.mem_cons_of_mem _ hx.2⟩)]
      exact hc.others v b (fun hx => hv ⟨hx.1, by rw [hx.2]; exact List.mem_cons_self⟩)
    · rw [hl]
      by_cases hab : a = b
      · subst hab
        by_cases hal : a ∈ l
        · obtain ⟨h3, h4⟩ := i.listed a hal
          rw [hc.after] at h3
          cases h3' : Ledger.listed a pays with
          | zero => exact ⟨by rw [if_pos rfl]; exact hc.before, h4⟩
          | succ n =>
            rw [h3'] at h3
            cases h3
        · rw [i.unlisted a hal, if_pos rfl]
          refine ⟨hc.before, ?_⟩
          rw [← hc.after]
          unfold amt
          rw [global_congr i.idx, i.others u a (fun hx => hal hx.2)]
      · have hbl : b ∈ l := by
          rcases List.mem_cons.1 hb with h | h
          · exact absurd h.symm hab
          · exact h
        obtain ⟨h3, h4⟩ := i.listed b hbl
        rw [if_neg hab, Nat.zero_add]
        refine ⟨?_, h4⟩
        rw [← h3]
        exact (hc.amt_other (fun hx => hab hx.2.symm) w).symm
    · rw [hl]
      rw [List.mem_cons, not_or] at hb
      rw [i.unlisted b hb.2, if_neg (fun hx => hb.1 hx.symm)]
    · rw [hl]
      have h3 := i.owed b
      have h4 := hc.owed hok hw b
      rw [Nat.mul_add]
      omega
    · rcases List.mem_append.1 hp with h | h
      · by_cases hr : r = 0
        · simp [hr] at h
        · rw [if_neg hr, List.mem_singleton] at h
          rw [h]
          exact hr
      · exact i.nonzero p h

theorem claim_fold_exists {u : Addr} {w : Nat} {eff : Map Addr Nat} (hw : (eff.get u).getD 0 = w) :
    ∀ (l : List Nat) (x : Ledger × List (Nat × Nat)), x.1.Ok eff → (∀ a ∈ l, ∃ r, x.1.amt u w a = .ok r) →
    ∃ x', l.foldlM (claimOne u w) x = .ok x'
  | [], x, _, _ => ⟨x, rfl⟩
  | a :: l, x, hok, h => by
    obtain ⟨r, hr⟩ := h a List.mem_cons_self
    have h1 : ∃ x1, claimOne u w x a = .ok x1 := by
      unfold claimOne
      by_cases hg : x.1.global a = 0
      · exact ⟨x, if_pos hg⟩
      · rw [if_neg hg]
        unfold amt at hr
        rw [hr]
        by_cases hz : r = 0
        · exact ⟨x, if_pos hz⟩
        · exact ⟨_, if_neg hz⟩
    obtain ⟨x1, h1⟩ := h1
    obtain ⟨r1, hc, _⟩ := claimOne_ok hok h1
    obtain ⟨x', hx⟩ := claim_fold_exists hw l x1 (hc.ok hok hw) (by
      intro b hb
      by_cases hab : b = a
      · exact ⟨0, by rw [hab]; exact hc.after⟩
      · obtain ⟨r2, hr2⟩ := h b (List.mem_cons_of_mem _ hb)
        exact ⟨r2, by rw [← hr2]; exact hc.amt_other (fun hx => hab hx.2) w⟩)
    exact ⟨x', foldlM_cons_ok_iff.2 ⟨x1, h1, hx⟩⟩

theorem rewards_congr {L L' : Ledger} {u : Addr} {w w' : Nat} (h : ∀ a, L'.amt u w' a = L.amt u w a) :
    ∀ (l seen : List Nat), L'.rewards u w' seen l = L.rewards u w seen l
  | [], _ => rfl
  | a :: l, seen => by
    have ih1 := rewards_congr h l seen
    have ih2 := rewards_congr h l (a :: seen)
    have ha := h a
    unfold amt at ha
    unfold rewards
    rw [ih1, ih2, ha]

theorem rewards_exists {L : Ledger} {u : Addr} {w : Nat} : ∀ (l seen : List Nat),
    (∀ a ∈ l, ∃ r, L.amt u w a = .ok r) → ∃ x, L.rewards u w seen l = .ok x
  | [], _, _ => ⟨[], rfl⟩
  | a :: l, seen, h => by
    unfold rewards
    by_cases hs : a ∈ seen
    · rw [if_pos hs]
      exact rewards_exists l seen (fun b hb => h b (List.mem_cons_of_mem _ hb))
    · rw [if_neg hs]
      obtain ⟨r, hr⟩ := h a List.mem_cons_self
      obtain ⟨x, hx⟩ := rewards_exists l (a :: seen) (fun b hb => h b (List.mem_cons_of_mem _ hb))
      exact ⟨(a, r) :: x, bind_ok_iff.2 ⟨r, hr, bind_ok_iff.2 ⟨x, hx, rfl⟩⟩⟩

end Ledger

end Verif.Distributor
