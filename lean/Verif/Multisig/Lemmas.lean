import Verif.Multisig.Spec
import Verif.Staking.Lemmas
import Verif.Staking.Lemmas2
import Verif.Base.SnapSteps

set_option linter.unusedSimpArgs false

/-!
# Multisig membership: helper lemmas
-/

namespace Verif.Multisig
open Verif

theorem uniqueBy_length (l : List (Addr × Nat)) (seen : List Addr) : (uniqueBy seen l).length ≤ l.length := by
  induction l generalizing seen with
  | nil => exact le_refl _
  | cons p t ih =>
    unfold uniqueBy
    split
    · exact le_trans (ih seen) (Nat.le_succ _)
    · exact Nat.succ_le_succ (ih _)

theorem uniqueBy_iff (l : List (Addr × Nat)) (seen : List Addr) :
    ((uniqueBy seen l).length = l.length ↔ (l.map (·.1)).Nodup ∧ ∀ p ∈ l, p.1 ∉ seen) ∧
    ((uniqueBy seen l).length = l.length → uniqueBy seen l = l) := by
  induction l generalizing seen with
  | nil => simp [uniqueBy]
  | cons p t ih =>
    unfold uniqueBy
    by_cases hp : p.1 ∈ seen
    · have := uniqueBy_length t seen
      rw [if_pos hp]
      constructor
      · constructor
        · intro h; rw [h] at this; simp at this; omega
        · rintro ⟨_, h⟩; exact absurd hp (h p List.mem_cons_self)
      · intro h; rw [h] at this; simp at this; omega
    · rw [if_neg hp]
      have hi := ih (p.1 :: seen)
      simp only [List.length_cons, Nat.add_right_cancel_iff, List.map_cons, List.nodup_cons]
      constructor
      · rw [hi.1]
        constructor
        · rintro ⟨h1, h2⟩
          refine ⟨⟨?_, h1⟩, ?_⟩
          · intro hm
            obtain ⟨q, hq, he⟩ := List.mem_map.1 hm
            exact h2 q hq (by rw [he]; exact List.mem_cons_self)
          · intro q hq
            rcases List.mem_cons.1 hq with rfl | hq
            · exact hp
            · exact fun h => h2 q hq (List.mem_cons_of_mem _ h)
        · rintro ⟨⟨h1, h2⟩, h3⟩
          refine ⟨h2, fun q hq hm => ?_⟩
          rcases List.mem_cons.1 hm with h | h
          · exact h1 (List.mem_map.2 ⟨q, hq, h⟩)
          · exact h3 q (List.mem_cons_of_mem _ hq) h
      · intro h
        rw [hi.2 h]

theorem dedup_ok_iff {l d : List (Addr × Nat)} : dedup l = .ok d ↔ Distinct l ∧ d = l := by
  unfold dedup
  rw [ite_ok_iff]
  have h := uniqueBy_iff l []
  unfold Distinct
  constructor
  · rintro ⟨h1, h2⟩
    have h1 : (uniqueBy [] l).length = l.length := Classical.not_not.1 h1
    rw [h.2 h1] at h2
    cases h2
    exact ⟨(h.1.1 h1).1, rfl⟩
  · rintro ⟨h1, rfl⟩
    have : (uniqueBy [] d).length = d.length := h.1.2 ⟨h1, by simp⟩
    exact ⟨fun hn => hn this, by rw [h.2 this]⟩

/-- Members after setting the listed weights. -/
def setAll (m : Members) (l : List (Addr × Nat)) : Members := l.foldl (fun m p => m.setWeight p.1 p.2) m

theorem setAll_cons (m : Members) (p : Addr × Nat) (l : List (Addr × Nat)) :
    setAll m (p :: l) = setAll (m.setWeight p.1 p.2) l := rfl

theorem setAll_frame (m : Members) (l : List (Addr × Nat)) :
    (setAll m l).byHeight = m.byHeight ∧ (setAll m l).bySeconds = m.bySeconds ∧ (setAll m l).hooks = m.hooks := by
  induction l generalizing m with
  | nil => exact ⟨rfl, rfl, rfl⟩
  | cons p t ih => rw [setAll_cons]; exact ih _

theorem setAll_get_notin (m : Members) (l : List (Addr × Nat)) (u : Addr) (h : ∀ p ∈ l, p.1 ≠ u) :
    (setAll m l).weights.get u = m.weights.get u := by
  induction l generalizing m with
  | nil => rfl
  | cons p t ih =>
    rw [setAll_cons, ih _ (fun q hq => h q (List.mem_cons_of_mem _ hq))]
    exact Map.get_set_ne _ _ (h p List.mem_cons_self)

theorem setAll_get_in (m : Members) (l : List (Addr × Nat)) (hd : Distinct l) (u : Addr) (w : Nat) (h : (u, w) ∈ l) :
    (setAll m l).weights.get u = some w := by
  induction l generalizing m with
  | nil => cases h
  | cons p t ih =>
    have hd' := List.nodup_cons.1 hd
    rw [setAll_cons]
    rcases List.mem_cons.1 h with rfl | h
    · rw [setAll_get_notin]
      · exact Map.get_set_self _ _ _
      · intro q hq he
        exact hd'.1 (List.mem_map.2 ⟨q, hq, he⟩)
    · exact ih _ hd'.2 h

theorem held_setWeight (m : Members) (l : List (Addr × Nat)) (u : Addr) (w : Nat) (h : ∀ p ∈ l, p.1 ≠ u) :
    held (m.setWeight u w) l = held m l := by
  unfold held queryWeight
  congr 1
  apply List.map_congr_left
  intro p hp
  rw [Members.weight_setWeight, if_neg (h p hp)]

theorem changes_setWeight (m : Members) (l : List (Addr × Nat)) (u : Addr) (w : Nat) (h : ∀ p ∈ l, p.1 ≠ u) :
    (l.map (fun p => (⟨p.1, (m.setWeight u w).weight p.1, p.2⟩ : WeightChange))) =
      l.map (fun p => ⟨p.1, m.weight p.1, p.2⟩) := by
  apply List.map_congr_left
  intro p hp
  rw [Members.weight_setWeight, if_neg (h p hp)]

theorem wsum_setAll (m : Members) (l : List (Addr × Nat)) (hd : Distinct l) :
    (setAll m l).wsum + held m l = m.wsum + listed l := by
  induction l generalizing m with
  | nil => rfl
  | cons p t ih =>
    have hd' := List.nodup_cons.1 hd
    have hne : ∀ q ∈ t, q.1 ≠ p.1 := fun q hq he => hd'.1 (List.mem_map.2 ⟨q, hq, he⟩)
    have h1 := ih (m.setWeight p.1 p.2) hd'.2
    rw [held_setWeight _ _ _ _ hne] at h1
    have h2 := Members.wsum_setWeight m p.1 p.2
    rw [setAll_cons]
    simp only [held, listed, List.map_cons, List.sum_cons, queryWeight] at h1 ⊢
    omega

theorem held_le_wsum (m : Members) (l : List (Addr × Nat)) (hd : Distinct l) : held m l ≤ m.wsum := by
  have := wsum_setAll m (l.map (fun p => (p.1, 0))) (by
    unfold Distinct; rw [List.map_map]; exact hd)
  have h1 : held m (l.map (fun p => (p.1, 0))) = held m l := by
    unfold held; rw [List.map_map]; rfl
  have h2 : listed (l.map (fun p => (p.1, 0))) = 0 := by
    unfold listed; rw [List.map_map]
    clear this h1 hd
    induction l with
    | nil => rfl
    | cons x t ih => rw [List.map_cons, List.sum_cons, ih]; rfl
  omega

theorem updateOne_ok_iff {x y : Members × Nat × List WeightChange} {p : Addr × Nat} :
    updateOne x p = .ok y ↔ x.1.weight p.1 ≤ x.2.1 ∧ x.2.1 - x.1.weight p.1 + p.2 < M128 ∧
      y = (x.1.setWeight p.1 p.2, x.2.1 - x.1.weight p.1 + p.2, x.2.2 ++ [⟨p.1, x.1.weight p.1, p.2⟩]) := by
  unfold updateOne
  simp only [bind_ok_iff, csub_ok, cadd128_ok, pure_ok_iff]
  constructor
  · rintro ⟨t, ⟨h1, rfl⟩, t', ⟨h2, rfl⟩, rfl⟩; exact ⟨h1, h2, rfl⟩
  · rintro ⟨h1, h2, rfl⟩; exact ⟨_, ⟨h1, rfl⟩, _, ⟨h2, rfl⟩, rfl⟩

theorem runs_cons {m : Members} {t : Nat} {p : Addr × Nat} {l : List (Addr × Nat)}
    (hne : ∀ q ∈ l, q.1 ≠ p.1) (hle : m.weight p.1 ≤ t) :
    Fit m t (p :: l) ↔ t - m.weight p.1 + p.2 < M128 ∧
      Fit (m.setWeight p.1 p.2) (t - m.weight p.1 + p.2) l := by
  have key : ∀ n, listed ((p :: l).take (n + 1)) = p.2 + listed (l.take n) ∧
      held m ((p :: l).take (n + 1)) = m.weight p.1 + held (m.setWeight p.1 p.2) (l.take n) := by
    intro n
    rw [held_setWeight _ _ _ _ (fun q hq => hne q (List.mem_of_mem_take hq))]
    exact ⟨rfl, rfl⟩
  have e1 : listed (l.take 0) = 0 := rfl
  have e2 : held (m.setWeight p.1 p.2) (l.take 0) = 0 := rfl
  unfold Fit
  rw [List.length_cons]
  change _ ↔ _ < 2 ^ 128 ∧ _
  constructor
  · intro h
    refine ⟨?_, fun n hn => ?_⟩
    · have h1 := h 0 (by omega)
      rw [(key 0).1, (key 0).2, e1, e2] at h1
      omega
    · have h2 := h (n + 1) (by omega)
      rw [(key (n + 1)).1, (key (n + 1)).2] at h2
      omega
  · rintro ⟨h1, h2⟩ n hn
    rw [(key n).1, (key n).2]
    cases n with
    | zero => rw [e1, e2]; omega
    | succ n =>
      have h3 := h2 n (by omega)
      omega

theorem updateLoop_ok_iff : ∀ (l : List (Addr × Nat)) {x y : Members × Nat × List WeightChange}, Distinct l →
    x.2.1 = x.1.wsum →
    (l.foldlM updateOne x = .ok y ↔ Fit x.1 x.2.1 l ∧
      y = (setAll x.1 l, (setAll x.1 l).wsum, x.2.2 ++ l.map (fun p => ⟨p.1, x.1.weight p.1, p.2⟩)))
  | [], x, y, _, ht => by
    rw [foldlM_nil_ok_iff]
    have : (setAll x.1 [], (setAll x.1 []).wsum, x.2.2 ++ ([] : List (Addr × Nat)).map
        (fun p => (⟨p.1, x.1.weight p.1, p.2⟩ : WeightChange))) = x := by
      obtain ⟨m, t, cs⟩ := x
      simp only at ht
      simp [setAll, ht]
    rw [this]
    constructor
    · rintro rfl; exact ⟨fun n hn => absurd hn (Nat.not_lt_zero _), rfl⟩
    · rintro ⟨_, rfl⟩; rfl
  | p :: l, x, y, hd, ht => by
    have hd' := List.nodup_cons.1 hd
    have hne : ∀ q ∈ l, q.1 ≠ p.1 := fun q hq he => hd'.1 (List.mem_map.2 ⟨q, hq, he⟩)
    have hle : x.1.weight p.1 ≤ x.2.1 := by rw [ht]; exact Members.weight_le_wsum _ _
    have hw := Members.wsum_setWeight x.1 p.1 p.2
    rw [foldlM_cons_ok_iff, runs_cons hne hle]
    have ih := updateLoop_ok_iff l (y := y)
      (x := (x.1.setWeight p.1 p.2, x.2.1 - x.1.weight p.1 + p.2, x.2.2 ++ [⟨p.1, x.1.weight p.1, p.2⟩])) hd'.2
      (by simp only; omega)
    simp only [changes_setWeight _ _ _ _ hne] at ih
    constructor
    · rintro ⟨a, h1, h2⟩
      obtain ⟨_, h3, rfl⟩ := updateOne_ok_iff.1 h1
      obtain ⟨h4, rfl⟩ := ih.1 h2
      refine ⟨⟨h3, h4⟩, ?_⟩
      rw [setAll_cons, List.map_cons, List.append_assoc]; rfl
    · rintro ⟨⟨h3, h4⟩, rfl⟩
      refine ⟨_, updateOne_ok_iff.2 ⟨hle, h3, rfl⟩, ih.2 ⟨h4, ?_⟩⟩
      rw [setAll_cons, List.map_cons, List.append_assoc]; rfl

theorem setOne_ok_iff {old : Map Addr Nat} {x y : Members × Nat × List WeightChange} {p : Addr × Nat} :
    setOne old x p = .ok y ↔ x.2.1 + p.2 < M128 ∧
      y = (x.1.setWeight p.1 p.2, x.2.1 + p.2, x.2.2 ++ [⟨p.1, (old.get p.1).getD 0, p.2⟩]) := by
  unfold setOne
  simp only [bind_ok_iff, cadd128_ok, pure_ok_iff]
  constructor
  · rintro ⟨t, ⟨h1, rfl⟩, rfl⟩; exact ⟨h1, rfl⟩
  · rintro ⟨h1, rfl⟩; exact ⟨_, ⟨h1, rfl⟩, rfl⟩

theorem setLoop_ok_iff {old : Map Addr Nat} : ∀ (l : List (Addr × Nat)) {x y : Members × Nat × List WeightChange},
    x.2.1 < M128 →
    (l.foldlM (setOne old) x = .ok y ↔ x.2.1 + listed l < M128 ∧
      y = (setAll x.1 l, x.2.1 + listed l, x.2.2 ++ l.map (fun p => ⟨p.1, (old.get p.1).getD 0, p.2⟩)))
  | [], x, y, hx => by
    rw [foldlM_nil_ok_iff]
    have : (setAll x.1 [], x.2.1 + listed [], x.2.2 ++ ([] : List (Addr × Nat)).map
        (fun p => (⟨p.1, (old.get p.1).getD 0, p.2⟩ : WeightChange))) = x := by
      obtain ⟨m, t, cs⟩ := x
      simp [setAll, listed]
    rw [this]
    constructor
    · rintro rfl; exact ⟨hx, rfl⟩
    · rintro ⟨_, rfl⟩; rfl
  | p :: l, x, y, hx => by
    have hl : listed (p :: l) = p.2 + listed l := rfl
    rw [foldlM_cons_ok_iff, hl]
    constructor
    · rintro ⟨a, h1, h2⟩
      obtain ⟨h3, rfl⟩ := setOne_ok_iff.1 h1
      obtain ⟨h4, rfl⟩ := (setLoop_ok_iff l (by exact h3)).1 h2
      simp only at h4 ⊢
      refine ⟨by omega, ?_⟩
      rw [setAll_cons, List.map_cons, List.append_assoc, Nat.add_assoc]; rfl
    · rintro ⟨h3, rfl⟩
      refine ⟨_, setOne_ok_iff.2 ⟨by omega, rfl⟩, (setLoop_ok_iff l (by simp only; omega)).2 ⟨by simp only; omega, ?_⟩⟩
      rw [setAll_cons, List.map_cons, List.append_assoc, Nat.add_assoc]; rfl

theorem initOne_ok_iff {x y : Members × Nat} {p : Addr × Nat} :
    initOne x p = .ok y ↔ x.1.weight p.1 ≤ x.2 ∧ x.2 - x.1.weight p.1 + p.2 < M128 ∧
      y = (x.1.setWeight p.1 p.2, x.2 - x.1.weight p.1 + p.2) := by
  unfold initOne
  simp only [bind_ok_iff, csub_ok, cadd128_ok, pure_ok_iff]
  constructor
  · rintro ⟨t, ⟨h1, rfl⟩, t', ⟨h2, rfl⟩, rfl⟩; exact ⟨h1, h2, rfl⟩
  · rintro ⟨h1, h2, rfl⟩; exact ⟨_, ⟨h1, rfl⟩, _, ⟨h2, rfl⟩, rfl⟩

theorem initLoop : ∀ (l : List (Addr × Nat)) {x y : Members × Nat}, x.2 = x.1.wsum →
    l.foldlM initOne x = .ok y → y.2 = y.1.wsum ∧ y.1.byHeight = x.1.byHeight ∧ y.1.bySeconds = x.1.bySeconds ∧
      y.1 = setAll x.1 l
  | [], x, y, ht => by
    rw [foldlM_nil_ok_iff]
    rintro rfl; exact ⟨ht, rfl, rfl, rfl⟩
  | p :: l, x, y, ht => by
    rw [foldlM_cons_ok_iff]
    rintro ⟨a, h1, h2⟩
    obtain ⟨h3, _, rfl⟩ := initOne_ok_iff.1 h1
    have hw := Members.wsum_setWeight x.1 p.1 p.2
    have := initLoop l (by simp only; omega) h2
    exact this

/-- Invariant. -/
structure Inv (s : Members) : Prop where
  height : s.byHeight.cur = some s.wsum
  seconds : s.bySeconds.cur = some s.wsum

theorem Inv.total {s : Members} (h : Inv s) : s.total = s.wsum := by
  unfold Members.total Snap.load
  rw [h.height]; rfl

theorem updateMembers_ok_iff {s : Members} (hi : Inv s) {e : Env} {l : List (Addr × Nat)} {r : Members × List Out} :
    updateMembers s e l = .ok r ↔ e.sender = e.controller ∧ Distinct l ∧ Fit s s.total l ∧
      r = ((setAll s l).saveTotal (setAll s l).wsum e.block,
        s.report (l.map (fun p => ⟨p.1, s.weight p.1, p.2⟩))) := by
  have hrep : ∀ cs, ((setAll s l).saveTotal (setAll s l).wsum e.block).report cs = s.report cs := by
    intro cs
    unfold Members.report
    rw [Members.saveTotal_hooks, (setAll_frame s l).2.2]
  unfold updateMembers
  rw [ite_ok_iff]
  simp only [bind_ok_iff, dedup_ok_iff, pure_ok_iff]
  constructor
  · rintro ⟨h1, d, ⟨h2, rfl⟩, a, h3, rfl⟩
    obtain ⟨h4, rfl⟩ := (updateLoop_ok_iff d h2 (by exact hi.total)).1 h3
    refine ⟨Classical.not_not.1 h1, h2, h4, ?_⟩
    rw [← hrep]; rfl
  · rintro ⟨h1, h2, h3, rfl⟩
    refine ⟨fun h => h h1, l, ⟨h2, rfl⟩, _, (updateLoop_ok_iff l h2 (by exact hi.total)).2 ⟨h3, rfl⟩, ?_⟩
    rw [← hrep]; rfl

theorem setMembers_ok_iff {s : Members} {e : Env} {l : List (Addr × Nat)} {r : Members × List Out} :
    setMembers s e l = .ok r ↔ e.sender = e.controller ∧ Distinct l ∧ listed l < M128 ∧
      r = ((setAll { s with weights := Map.empty } l).saveTotal (listed l) e.block,
        s.report (l.map (fun p => ⟨p.1, s.weight p.1, p.2⟩))) := by
  have hrep : ∀ cs, ((setAll { s with weights := Map.empty } l).saveTotal (listed l) e.block).report cs =
      s.report cs := by
    intro cs
    unfold Members.report
    rw [Members.saveTotal_hooks, (setAll_frame _ l).2.2]
  have h0 : (0 : Nat) < M128 := by decide
  unfold setMembers
  rw [ite_ok_iff]
  simp only [bind_ok_iff, dedup_ok_iff, pure_ok_iff]
  constructor
  · rintro ⟨h1, d, ⟨h2, rfl⟩, a, h3, rfl⟩
    obtain ⟨h4, rfl⟩ := (setLoop_ok_iff d (by exact h0)).1 h3
    simp only [Nat.zero_add] at h4 ⊢
    refine ⟨Classical.not_not.1 h1, h2, h4, ?_⟩
    rw [← hrep]; rfl
  · rintro ⟨h1, h2, h3, rfl⟩
    refine ⟨fun h => h h1, l, ⟨h2, rfl⟩, _, (setLoop_ok_iff l (by exact h0)).2 ⟨by simpa using h3, rfl⟩, ?_⟩
    simp only [Nat.zero_add]
    rw [← hrep]; rfl

theorem wsum_cleared (s : Members) (l : List (Addr × Nat)) (hd : Distinct l) :
    (setAll { s with weights := Map.empty } l).wsum = listed l := by
  have h := wsum_setAll { s with weights := Map.empty } l hd
  have h1 : held { s with weights := Map.empty } l = 0 := by
    have := held_le_wsum { s with weights := Map.empty } l hd
    have h2 : Members.wsum { s with weights := Map.empty } = 0 := rfl
    omega
  have h2 : Members.wsum { s with weights := Map.empty } = 0 := rfl
  omega

theorem inv_saved (m : Members) (b : Block) : Inv (m.saveTotal m.wsum b) := ⟨rfl, rfl⟩

/-- What a successful message does, seen from the invariants. -/
structure Effect (s : Members) (e : Env) (s' : Members) : Prop where
  inv : Inv s'
  byHeight : s'.byHeight = s.byHeight ∨ ∃ v, s'.byHeight = s.byHeight.save v e.block.height
  bySeconds : s'.bySeconds = s.bySeconds ∨ ∃ v, s'.bySeconds = s.bySeconds.save v e.block.seconds

theorem effect_exec {s : Members} (hi : Inv s) {e : Env} {m : Msg} {r : Members × List Out}
    (h : exec s e m = .ok r) : Effect s e r.1 := by
  cases m with
  | updateMembers l =>
    obtain ⟨_, _, _, rfl⟩ := (updateMembers_ok_iff hi).1 h
    have hf := setAll_frame s l
    refine ⟨inv_saved _ _, Or.inr ⟨(setAll s l).wsum, ?_⟩, Or.inr ⟨(setAll s l).wsum, ?_⟩⟩
    · simp only [Members.saveTotal, hf.1]
    · simp only [Members.saveTotal, hf.2.1]
  | setMembers l =>
    obtain ⟨_, hd, _, rfl⟩ := setMembers_ok_iff.1 h
    have hf := setAll_frame { s with weights := Map.empty } l
    rw [← wsum_cleared s l hd]
    refine ⟨inv_saved _ _, Or.inr ⟨(setAll { s with weights := Map.empty } l).wsum, ?_⟩,
      Or.inr ⟨(setAll { s with weights := Map.empty } l).wsum, ?_⟩⟩
    · simp only [Members.saveTotal, hf.1]
    · simp only [Members.saveTotal, hf.2.1]
  | addHook a =>
    simp only [exec, bind_ok_iff, Members.addHook, ite_ok_iff, pure_ok_iff] at h
    obtain ⟨m, ⟨_, h1⟩, rfl⟩ := h
    cases h1
    exact ⟨⟨hi.height, hi.seconds⟩, Or.inl rfl, Or.inl rfl⟩
  | removeHook a =>
    simp only [exec, bind_ok_iff, Members.removeHook, ite_ok_iff, pure_ok_iff] at h
    obtain ⟨m, ⟨_, h1⟩, rfl⟩ := h
    cases h1
    exact ⟨⟨hi.height, hi.seconds⟩, Or.inl rfl, Or.inl rfl⟩

theorem step_cases (s : Members) (c : Call) :
    (accepted s c ∧ ∃ r, exec s c.env c.msg = .ok r ∧ step s c = r) ∨
    (¬ accepted s c ∧ step s c = (s, [])) := by
  unfold step accepted
  cases he : exec s c.env c.msg with
  | error x => right; exact ⟨(by rintro ⟨_, r, h⟩; cases h), rfl⟩
  | ok r =>
    cases hd : c.delivered with
    | true => left; exact ⟨⟨rfl, r, rfl⟩, r, rfl, rfl⟩
    | false => right; exact ⟨(by rintro ⟨h, _⟩; cases h), rfl⟩

theorem inv_step {s : Members} (hi : Inv s) (c : Call) : Inv (step s c).1 := by
  rcases step_cases s c with ⟨_, r, h1, h2⟩ | ⟨_, h2⟩
  · rw [h2]; exact (effect_exec hi h1).inv
  · rw [h2]; exact hi

theorem inv_run {s : Members} (hi : Inv s) (h : List Call) : Inv (run s h) := by
  induction h generalizing s with
  | nil => exact hi
  | cons c t ih => exact ih (inv_step hi c)

theorem init_ok {b : Block} {w : Option (List (Addr × Nat))} {hooks : List Addr} {x y : List (Nat × Nat)}
    {s : Members} (h : init b w hooks x y = .ok s) :
    (∀ l, w = some l → Distinct l ∧
      s = ((setAll (Members.empty.saveCheckpoints x y) l).saveTotal
        (setAll (Members.empty.saveCheckpoints x y) l).wsum b).saveHooks hooks) ∧
    (w = none → s = ((Members.empty.saveCheckpoints x y).saveTotal
      (Members.empty.saveCheckpoints x y).wsum b).saveHooks hooks) := by
  unfold init at h
  cases w with
  | none =>
    simp only [bind_ok_iff, pure_ok_iff] at h
    obtain ⟨m, h1, rfl⟩ := h
    cases h1
    exact ⟨(by rintro l h; cases h), fun _ => rfl⟩
  | some l =>
    simp only [bind_ok_iff, pure_ok_iff, saveInitial, dedup_ok_iff] at h
    obtain ⟨m, ⟨d, ⟨h1, rfl⟩, a, h2, rfl⟩, rfl⟩ := h
    obtain ⟨h3, _, _, h4⟩ := initLoop d (by rfl) h2
    refine ⟨?_, (by rintro h; cases h)⟩
    rintro _ h
    cases h
    refine ⟨h1, ?_⟩
    rw [h3, h4]

theorem inv_init {b : Block} {w : Option (List (Addr × Nat))} {hooks : List Addr} {x y : List (Nat × Nat)}
    {s : Members} (h : init b w hooks x y = .ok s) : Inv s := by
  have h := init_ok h
  cases w with
  | none => rw [h.2 rfl]; exact ⟨rfl, rfl⟩
  | some l => rw [(h.1 l rfl).2]; exact ⟨rfl, rfl⟩

theorem Reachable.inv {s : Members} (h : Reachable s) : Inv s := by
  obtain ⟨b, w, hk, x, y, s0, h, h0, rfl⟩ := h
  exact inv_run (inv_init h0) h

theorem run_append (s : Members) (h1 h2 : List Call) : run s (h1 ++ h2) = run (run s h1) h2 := by
  induction h1 generalizing s with
  | nil => rfl
  | cons c t ih => exact ih _

theorem reachable_step {s : Members} (h : Reachable s) (c : Call) : Reachable (step s c).1 := by
  obtain ⟨b, w, hk, x, y, s0, h, h0, rfl⟩ := h
  exact ⟨b, w, hk, x, y, s0, h ++ [c], h0, by rw [run_append]; rfl⟩

theorem byHeight_steps {s : Members} (hi : Inv s) (h : List Call) :
    s.byHeight.Steps (h.map (·.env.block.height)) (run s h).byHeight := by
  induction h generalizing s with
  | nil => exact .nil _
  | cons c t ih =>
    refine Snap.Steps.cons ?_ (ih (inv_step hi c))
    rcases step_cases s c with ⟨_, r, h1, h2⟩ | ⟨_, h2⟩
    · rw [h2]; exact (effect_exec hi h1).byHeight
    · rw [h2]; exact Or.inl rfl

theorem bySeconds_steps {s : Members} (hi : Inv s) (h : List Call) :
    s.bySeconds.Steps (h.map (·.env.block.seconds)) (run s h).bySeconds := by
  induction h generalizing s with
  | nil => exact .nil _
  | cons c t ih =>
    refine Snap.Steps.cons ?_ (ih (inv_step hi c))
    rcases step_cases s c with ⟨_, r, h1, h2⟩ | ⟨_, h2⟩
    · rw [h2]; exact (effect_exec hi h1).bySeconds
    · rw [h2]; exact Or.inl rfl

theorem init_logs {b : Block} {w : Option (List (Addr × Nat))} {hooks : List Addr} {x y : List (Nat × Nat)}
    {s : Members} (h : init b w hooks x y = .ok s) {j : Nat} :
    (s.byHeight.log.has j = true → j = b.height ∨ j ∈ x.map (·.2)) ∧
    (s.bySeconds.log.has j = true → j = b.seconds ∨ j ∈ y.map (·.2)) := by
  have hs : s.byHeight.log = ((Members.empty.saveCheckpoints x y).byHeight.save s.wsum b.height).log ∧
      s.bySeconds.log = ((Members.empty.saveCheckpoints x y).bySeconds.save s.wsum b.seconds).log := by
    have h := init_ok h
    cases w with
    | none => rw [h.2 rfl]; exact ⟨rfl, rfl⟩
    | some l =>
      rw [(h.1 l rfl).2]
      have hf := setAll_frame (Members.empty.saveCheckpoints x y) l
      simp only [Members.saveHooks, Members.saveTotal, hf.1, hf.2.1]
      exact ⟨rfl, rfl⟩
  rw [hs.1, hs.2]
  have := Staking.init_logs (b := b) (asset := 0) (u := .time 0) (hooks := hooks) (x := x) (y := y) (j := j)
  exact this

end Verif.Multisig
