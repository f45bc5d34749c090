import Verif.Distributor.Props5
import Mathlib.Tactic.Linarith
import Mathlib.Tactic.FieldSimp

/-!
# Funds distributor: splitting a weight over several accounts gains nothing (C151)
-/

set_option linter.unusedSimpArgs false

namespace Verif.Distributor
open Verif

/-! ### Specification -/

/-- The second list of weights has the accounts `g` where the first one has `u`: each weight of `u` is divided among
the accounts, in any way. (`u` may be one of the accounts.) -/
inductive SplitWeights (u : Addr) (g : List Addr) : List (Addr × Nat) → List (Addr × Nat) → Prop
  | nil : SplitWeights u g [] []
  | other (x : Addr × Nat) {l l' : List (Addr × Nat)} (hu : x.1 ≠ u) (hg : x.1 ∉ g) (t : SplitWeights u g l l') :
    SplitWeights u g (x :: l) (x :: l')
  | split (ns : List Nat) (hn : ns.length = g.length) {l l' : List (Addr × Nat)} (t : SplitWeights u g l l') :
    SplitWeights u g ((u, ns.sum) :: l) (g.zip ns ++ l')

/-- The second history differs from the first one in that the weights of `u` are divided among the accounts `g`, and in who
claims what and when, which is left open in both. -/
inductive SplitHistory (u : Addr) (g : List Addr) : List Call → List Call → Prop
  | nil : SplitHistory u g [] []
  | weights (e : Env) (d : Bool) {l l' : List (Addr × Nat)} (hl : SplitWeights u g l l') {h h' : List Call}
    (t : SplitHistory u g h h') : SplitHistory u g (⟨e, .updateWeights l, d⟩ :: h) (⟨e, .updateWeights l', d⟩ :: h')
  | min (e : Env) (d : Bool) (m : Nat) {h h' : List Call} (t : SplitHistory u g h h') :
    SplitHistory u g (⟨e, .updateMin m, d⟩ :: h) (⟨e, .updateMin m, d⟩ :: h')
  | native (e : Env) (d : Bool) (f : List (Nat × Nat)) {h h' : List Call} (t : SplitHistory u g h h') :
    SplitHistory u g (⟨e, .distributeNative f, d⟩ :: h) (⟨e, .distributeNative f, d⟩ :: h')
  | cw20 (e : Env) (d k : Bool) (n : Nat) {h h' : List Call} (t : SplitHistory u g h h') :
    SplitHistory u g (⟨e, .receiveCw20 k n, d⟩ :: h) (⟨e, .receiveCw20 k n, d⟩ :: h')
  | claim (c : Call) (hc : isClaim c = true) {h h' : List Call} (t : SplitHistory u g h h') : SplitHistory u g (c :: h) h'
  | claim' (c : Call) (hc : isClaim c = true) {h h' : List Call} (t : SplitHistory u g h h') : SplitHistory u g h (c :: h')

/-- All weight changes and distributions of the history were accepted. -/
def allAccepted : State → List Call → Prop
  | _, [] => True
  | s, c :: t => (isClaim c = false → accepted s c) ∧ allAccepted (step s c).1 t

instance decAllAccepted : ∀ (s : State) (h : List Call), Decidable (allAccepted s h)
  | _, [] => isTrue trivial
  | s, c :: t => @instDecidableAnd _ _ _ (decAllAccepted (step s c).1 t)

/-- The history never sets a minimum for rewards. -/
def noMinimum (h : List Call) : Prop := ∀ c ∈ h, ∀ m, c.msg = .updateMin m → m = 0

/-- What a user got of an asset over a history from `s`: what was paid and what is left to claim. -/
def got (u : Addr) (a : AssetInfo) (s : State) (h : List Call) : Nat := claimed u a s h + claimable (run s h) u a

/-- What the accounts of a group got together. -/
def gotAll (g : List Addr) (a : AssetInfo) (s : State) (h : List Call) : Nat := (g.map (fun x => got x a s h)).sum

/-! ### Lemmas -/

/-- How the states of the two histories compare. -/
structure Parts (u : Addr) (g : List Addr) (s s' : State) : Prop where
  min : s'.min = s.min
  other : ∀ x, x ≠ u → x ∉ g → s'.weights.get x = s.weights.get x
  fresh : ∀ x ∈ g, x ≠ u → s.weights.get x = none
  gone : u ∉ g → s'.weights.get u = none
  sum : (g.map (weight s')).sum = weight s u

/-- How the weights compare. -/
structure PartsW (u : Addr) (g : List Addr) (w w' : Map Addr Nat) : Prop where
  other : ∀ x, x ≠ u → x ∉ g → w'.get x = w.get x
  fresh : ∀ x ∈ g, x ≠ u → w.get x = none
  gone : u ∉ g → w'.get u = none
  sum : (g.map (fun x => (w'.get x).getD 0)).sum = (w.get u).getD 0

theorem zip_other {x : Addr} : ∀ (g : List Addr) (ns : List Nat) (w : Map Addr Nat), x ∉ g →
    ((g.zip ns).foldl (fun m p => m.set p.1 p.2) w).get x = w.get x
  | [], _, _, _ => rfl
  | _ :: _, [], _, _ => rfl
  | y :: g, n :: ns, w, hx => by
    rw [List.zip_cons_cons, List.foldl_cons, zip_other g ns _ (fun h => hx (List.mem_cons_of_mem _ h)), Map.get_set,
      if_neg (fun h => hx (by rw [← h]; exact List.mem_cons_self ..))]

theorem zip_own : ∀ (g : List Addr) (ns : List Nat) (w : Map Addr Nat), g.Nodup → ns.length = g.length →
    g.map (fun x => (((g.zip ns).foldl (fun m p => m.set p.1 p.2) w).get x).getD 0) = ns
  | [], [], _, _, _ => rfl
  | [], _ :: _, _, _, h => by simp at h
  | _ :: _, [], _, _, h => by simp at h
  | y :: g, n :: ns, w, hg, h => by
    obtain ⟨hy, hg⟩ := List.nodup_cons.1 hg
    rw [List.map_cons, List.zip_cons_cons, List.foldl_cons, zip_other g ns _ hy, Map.get_set_self,
      zip_own g ns _ hg (by simpa using h)]
    rfl

theorem parts_fold {u : Addr} {g : List Addr} (hg : g.Nodup) {l l' : List (Addr × Nat)} (hl : SplitWeights u g l l') :
    ∀ {w w' : Map Addr Nat}, PartsW u g w w' →
    PartsW u g (l.foldl (fun m p => m.set p.1 p.2) w) (l'.foldl (fun m p => m.set p.1 p.2) w') := by
  induction hl with
  | nil => intro w w' h; exact h
  | @other x l l' hu hx _ ih =>
    intro w w' h
    refine ih ⟨fun y hyu hyg => ?_, fun y hy hyu => ?_, fun hu' => ?_, ?_⟩
    · rw [Map.get_set, Map.get_set, h.other y hyu hyg]
    · rw [Map.get_set, if_neg (fun hh => hx (by rw [hh]; exact hy))]; exact h.fresh y hy hyu
    · rw [Map.get_set, if_neg hu]; exact h.gone hu'
    · rw [Map.get_set, if_neg hu, ← h.sum]
      congr 1
      refine List.map_congr_left (fun y hy => ?_)
      rw [Map.get_set, if_neg (fun hh => hx (by rw [hh]; exact hy))]
  | @split ns hn l l' _ ih =>
    intro w w' h
    rw [List.foldl_cons, List.foldl_append]
    refine ih ⟨fun y hyu hyg => ?_, fun y hy hyu => ?_, fun hu' => ?_, ?_⟩
    · rw [zip_other g ns _ hyg, Map.get_set, if_neg (Ne.symm hyu)]
      exact h.other y hyu hyg
    · rw [Map.get_set, if_neg (Ne.symm hyu)]
      exact h.fresh y hy hyu
    · rw [zip_other g ns _ hu']
      exact h.gone hu'
    · rw [zip_own g ns _ hg hn, Map.get_set_self]
      rfl

theorem init_fold_weights : ∀ (l : List (Addr × Nat)) (s s' : State), l.foldlM initOne s = .ok s' →
    s'.weights = l.foldl (fun m p => m.set p.1 p.2) s.weights
  | [], s, s', h => by
    rw [foldlM_nil_ok_iff] at h
    subst h
    rfl
  | p :: l, s, s', h => by
    obtain ⟨s1, h1, h2⟩ := foldlM_cons_ok_iff.1 h
    have hs1 : s1.weights = s.weights.set p.1 p.2 := by
      unfold initOne at h1
      obtain ⟨_, h1⟩ := ite_ok_iff.1 h1
      obtain ⟨t, _, h1⟩ := bind_ok_iff.1 h1
      cases pure_ok_iff.1 h1
      rfl
    rw [init_fold_weights l s1 s' h2, hs1]
    rfl

theorem init_parts {ad : Addr} {m : Option Nat} {l l' : List (Addr × Nat)} {s s' : State} {u : Addr} {g : List Addr}
    (hg : g.Nodup) (hl : SplitWeights u g l l') (h : init ad m l = .ok s) (h' : init ad m l' = .ok s') : Parts u g s s' := by
  have hw := init_fold_weights _ _ _ h
  have hw' := init_fold_weights _ _ _ h'
  have hh := parts_fold hg hl (w := Map.empty) (w' := Map.empty) ⟨fun _ _ _ => rfl, fun _ _ _ => rfl, fun _ => rfl, by
    show (g.map (fun _ => 0)).sum = 0
    simp⟩
  refine ⟨by rw [(init_inv h).2.2.1, (init_inv h').2.2.1], fun x hx hv => ?_, fun x hx hu => ?_, fun hu => ?_, ?_⟩
  · rw [hw, hw']; exact hh.other x hx hv
  · rw [hw]; exact hh.fresh x hx hu
  · rw [hw']; exact hh.gone hu
  · unfold weight; rw [hw, hw']; exact hh.sum

theorem eff_of {s : State} (hi : Inv s) (x : Addr) :
    effective s x = if s.weights.get x = none then 0 else effWeight (weight s x) s.min := by
  unfold effective weight
  rw [hi.eff]
  cases s.weights.get x <;> rfl

theorem effWeight_zero (m : Nat) : effWeight 0 m = 0 := by unfold effWeight; split <;> rfl

theorem eff_eq {s : State} (hi : Inv s) (x : Addr) : effective s x = effWeight (weight s x) s.min := by
  rw [eff_of hi]
  by_cases h : s.weights.get x = none
  · rw [if_pos h]; unfold weight; rw [h]; exact (effWeight_zero _).symm
  · rw [if_neg h]

theorem effWeight_parts (m : Nat) : ∀ (l : List Nat), (l.map (fun n => effWeight n m)).sum ≤ effWeight l.sum m
  | [] => Nat.zero_le _
  | n :: l => by
    have ih := effWeight_parts m l
    rw [List.map_cons, List.sum_cons, List.sum_cons]
    refine le_trans (Nat.add_le_add_left ih _) ?_
    unfold effWeight
    split <;> split <;> split <;> omega

theorem effWeight_parts_eq : ∀ (l : List Nat), (l.map (fun n => effWeight n 0)).sum = effWeight l.sum 0
  | [] => rfl
  | n :: l => by
    have ih := effWeight_parts_eq l
    rw [List.map_cons, List.sum_cons, List.sum_cons, ih]
    unfold effWeight
    rw [if_pos (Nat.zero_le _), if_pos (Nat.zero_le _), if_pos (Nat.zero_le _)]

theorem get_removes {x : Addr} : ∀ (g : List Addr) (w : Map Addr Nat),
    (g.foldl (fun m y => m.remove y) w).get x = if x ∈ g then none else w.get x
  | [], _ => rfl
  | y :: g, w => by
    rw [List.foldl_cons, get_removes g]
    by_cases hx : x ∈ g
    · rw [if_pos hx, if_pos (List.mem_cons_of_mem _ hx)]
    · rw [if_neg hx, Map.get_remove]
      by_cases hy : y = x
      · rw [if_pos hy, if_pos (by rw [hy]; exact List.mem_cons_self ..)]
      · rw [if_neg hy, if_neg (fun h => by
          rcases List.mem_cons.1 h with h | h
          · exact hy h.symm
          · exact hx h)]

theorem sum_removes : ∀ (g : List Addr) (w : Map Addr Nat), g.Nodup →
    (g.foldl (fun m y => m.remove y) w).sum (fun _ n => n) + (g.map (fun x => (w.get x).getD 0)).sum = w.sum (fun _ n => n)
  | [], _, _ => rfl
  | y :: g, w, hg => by
    obtain ⟨hy, hg⟩ := List.nodup_cons.1 hg
    have ih := sum_removes g (w.remove y) hg
    have h1 := Map.sum_remove w (fun _ n => n) y
    have h2 : Map.contrib (fun _ n => n) y (w.get y) = (w.get y).getD 0 := by cases w.get y <;> rfl
    have h3 : g.map (fun x => ((w.remove y).get x).getD 0) = g.map (fun x => (w.get x).getD 0) := by
      refine List.map_congr_left (fun x hx => ?_)
      rw [Map.get_remove, if_neg (fun h => hy (by rw [h]; exact hx))]
    rw [h3] at ih
    rw [List.foldl_cons, List.map_cons, List.sum_cons]
    omega

/-- How the weights that count compare. -/
theorem parts_eff {u : Addr} {g : List Addr} (hg : g.Nodup) {s s' : State} (hi : Inv s) (hi' : Inv s') (h : Parts u g s s') :
    (∀ x, x ≠ u → x ∉ g → effective s' x = effective s x) ∧ (g.map (effective s')).sum ≤ effective s u ∧
    (s.min = 0 → (g.map (effective s')).sum = effective s u) ∧
    s'.effective.sum (fun _ w => w) + effective s u = s.effective.sum (fun _ w => w) + (g.map (effective s')).sum := by
  have hmap : g.map (effective s') = (g.map (weight s')).map (fun n => effWeight n s.min) := by
    rw [List.map_map]
    refine List.map_congr_left (fun x _ => ?_)
    rw [eff_eq hi', h.min]
    rfl
  refine ⟨fun x hu hv => ?_, ?_, fun hm => ?_, ?_⟩
  · rw [eff_eq hi, eff_eq hi', h.min]
    unfold weight
    rw [h.other x hu hv]
  · rw [hmap, eff_eq hi, ← h.sum]
    exact effWeight_parts _ _
  · rw [hmap, eff_eq hi, ← h.sum, hm]
    exact effWeight_parts_eq _
  · have hrest : g.foldl (fun m y => m.remove y) s'.effective = s.effective.remove u := by
      refine Map.ext_get (fun x => ?_)
      rw [get_removes, Map.get_remove]
      by_cases hx : x ∈ g
      · rw [if_pos hx]
        by_cases hu : u = x
        · rw [if_pos hu]
        · rw [if_neg hu, hi.eff, h.fresh x hx (Ne.symm hu)]
          rfl
      · rw [if_neg hx]
        by_cases hu : u = x
        · rw [if_pos hu, hi'.eff, ← hu, h.gone (by rw [hu]; exact hx)]
          rfl
        · rw [if_neg hu, hi.eff, hi'.eff, h.other x (Ne.symm hu) hx, h.min]
    have h1 := Map.sum_remove s.effective (fun _ w => w) u
    have h2 := sum_removes g s'.effective hg
    have hc : Map.contrib (fun _ w => w) u (s.effective.get u) = effective s u := by
      unfold effective
      cases s.effective.get u <;> rfl
    have hd : g.map (fun x => (s'.effective.get x).getD 0) = g.map (effective s') := rfl
    rw [hc] at h1
    rw [hrest, hd] at h2
    omega

theorem exec_effect {s : State} (hi : Inv s) {e : Env} {m : Msg} {x : State × List Out} (hx : exec s e m = .ok x) :
    (∀ l, m = .updateWeights l → x.1.weights = l.foldl (fun m p => m.set p.1 p.2) s.weights ∧ x.1.min = s.min) ∧
    (∀ n, m = .updateMin n → x.1.weights = s.weights ∧ x.1.min = n) ∧
    ((∀ l, m ≠ .updateWeights l) → (∀ n, m ≠ .updateMin n) → x.1.weights = s.weights ∧ x.1.min = s.min) := by
  cases m with
  | updateWeights l =>
    simp only [exec] at hx
    obtain ⟨t, h1, hx⟩ := bind_ok_iff.1 hx
    cases pure_ok_iff.1 hx
    unfold updateWeights at h1
    obtain ⟨_, h1⟩ := ite_ok_iff.1 h1
    obtain ⟨_, q, w⟩ := updates_ok l hi h1
    refine ⟨fun l' hl => ?_, fun _ hn => by simp at hn, fun hn => absurd rfl (hn l)⟩
    cases hl
    exact ⟨w, q.min⟩
  | updateMin n =>
    simp only [exec] at hx
    obtain ⟨t, h1, hx⟩ := bind_ok_iff.1 hx
    cases pure_ok_iff.1 hx
    obtain ⟨_, _, hm, hw, _⟩ := updateMin_ok hi h1
    refine ⟨fun _ hn => (by simp at hn), fun n' hl => ?_, fun _ hn => absurd rfl (hn n)⟩
    cases hl
    exact ⟨hw, hm⟩
  | distributeNative f =>
    simp only [exec] at hx
    obtain ⟨t, h1, hx⟩ := bind_ok_iff.1 hx
    cases pure_ok_iff.1 hx
    obtain ⟨_, _, n, _, rfl⟩ := distributeNative_ok_iff.1 h1
    exact ⟨fun _ hn => (by simp at hn), fun _ hn => (by simp at hn), fun _ _ => ⟨rfl, rfl⟩⟩
  | receiveCw20 k n =>
    simp only [exec] at hx
    obtain ⟨t, h1, hx⟩ := bind_ok_iff.1 hx
    cases pure_ok_iff.1 hx
    obtain ⟨_, _, _, n, _, rfl⟩ := receiveCw20_ok_iff.1 h1
    exact ⟨fun _ hn => (by simp at hn), fun _ hn => (by simp at hn), fun _ _ => ⟨rfl, rfl⟩⟩
  | claim w ds ts =>
    simp only [exec] at hx
    obtain ⟨_, _, n, c, _, _, rfl⟩ := claim_ok_iff.1 hx
    exact ⟨fun _ hn => (by simp at hn), fun _ hn => (by simp at hn), fun _ _ => ⟨rfl, rfl⟩⟩

theorem claim_keeps {s : State} (hi : Inv s) {c : Call} (hc : isClaim c = true) :
    (step s c).1.weights = s.weights ∧ (step s c).1.min = s.min ∧ ∀ a, funds c a = 0 := by
  have hm : (∀ l, c.msg ≠ .updateWeights l) ∧ (∀ n, c.msg ≠ .updateMin n) ∧ ∀ a, funds c a = 0 := by
    unfold isClaim at hc
    unfold funds
    cases h : c.msg <;> rw [h] at hc <;> simp at hc ⊢
  rcases step_cases s c with ⟨x, hx, _, he, _⟩ | ⟨he, _⟩
  · rw [he]
    obtain ⟨h1, h2⟩ := (exec_effect hi hx).2.2 hm.1 hm.2.1
    exact ⟨h1, h2, hm.2.2⟩
  · rw [he]
    exact ⟨rfl, rfl, hm.2.2⟩

/-- A part of a smaller whole: if a part shrinks and the rest stays, its share shrinks. -/
theorem part_le {f x x' r T T' : ℚ} (hf : 0 ≤ f) (hx' : 0 ≤ x') (hr : 0 ≤ r) (hle : x' ≤ x) (hT : T = r + x) (hT' : T' = r + x') :
    f * x' / T' ≤ f * x / T := by
  subst hT hT'
  rcases eq_or_lt_of_le hx' with h0 | h0
  · rw [← h0, mul_zero, zero_div]
    exact div_nonneg (mul_nonneg hf (h0 ▸ hle)) (add_nonneg hr (h0 ▸ hle))
  · have h1 : 0 < r + x' := by linarith
    have h2 : 0 < r + x := by linarith
    rw [div_le_div_iff₀ h1 h2]
    have h3 : 0 ≤ f * r * (x - x') := mul_nonneg (mul_nonneg hf hr) (by linarith)
    nlinarith

/-- And the shares of the others grow. -/
theorem part_ge {f y x x' r T T' : ℚ} (hf : 0 ≤ f) (hy : 0 ≤ y) (hx' : 0 ≤ x') (hr : y ≤ r) (hle : x' ≤ x) (hT : T = r + x)
    (hT' : T' = r + x') : f * y / T ≤ f * y / T' := by
  subst hT hT'
  rcases eq_or_lt_of_le hy with h0 | h0
  · rw [← h0, mul_zero, zero_div, zero_div]
  · have h1 : 0 < r + x' := by linarith
    exact div_le_div_of_nonneg_left (mul_nonneg hf hy) h1 (by linarith)

theorem shares_sum (g : List Addr) (e : Addr → Nat) (f T : ℚ) :
    (g.map (fun x => f * e x / T)).sum = f * ((g.map e).sum : Nat) / T := by
  induction g with
  | nil => simp
  | cons x g ih =>
    rw [List.map_cons, List.sum_cons, ih, List.map_cons, List.sum_cons]
    push_cast
    ring

/-- One distribution, if the two states compare. -/
theorem parts_share {u : Addr} {g : List Addr} (hg : g.Nodup) {s s' : State} (hi : Inv s) (hi' : Inv s') (h : Parts u g s s')
    (f : Nat) :
    ((g.map (fun x => (f : ℚ) * effective s' x / (s'.effective.sum (fun _ w => w) : Nat))).sum ≤
        (f : ℚ) * effective s u / (s.effective.sum (fun _ w => w) : Nat)) ∧
    (s.min = 0 → (g.map (fun x => (f : ℚ) * effective s' x / (s'.effective.sum (fun _ w => w) : Nat))).sum =
        (f : ℚ) * effective s u / (s.effective.sum (fun _ w => w) : Nat)) ∧
    ∀ x, x ≠ u → x ∉ g → ((f : ℚ) * effective s x / (s.effective.sum (fun _ w => w) : Nat) ≤
      (f : ℚ) * effective s' x / (s'.effective.sum (fun _ w => w) : Nat)) ∧
      (s.min = 0 → (f : ℚ) * effective s x / (s.effective.sum (fun _ w => w) : Nat) =
        (f : ℚ) * effective s' x / (s'.effective.sum (fun _ w => w) : Nat)) := by
  rw [shares_sum]
  obtain ⟨ho, hle, heq, hsum⟩ := parts_eff hg hi hi' h
  have hone : ∀ x, effective s x ≤ s.effective.sum (fun _ w => w) := by
    intro x
    unfold effective
    cases hx : s.effective.get x with
    | none => exact Nat.zero_le _
    | some y => exact Map.le_sum (fun _ w => w) hx
  have htwo : ∀ x, x ≠ u → effective s x + effective s u ≤ s.effective.sum (fun _ w => w) := by
    intro x hx
    have h1 := Map.sum_remove s.effective (fun _ w => w) u
    have h2 : effective s x ≤ (s.effective.remove u).sum (fun _ w => w) := by
      unfold effective
      cases hy : s.effective.get x with
      | none => exact Nat.zero_le _
      | some y => exact Map.le_sum (fun _ w => w) (by rw [Map.get_remove, if_neg (Ne.symm hx)]; exact hy)
    have h3 : Map.contrib (fun _ w => w) u (s.effective.get u) = effective s u := by
      unfold effective
      cases s.effective.get u <;> rfl
    omega
  obtain ⟨r, hr⟩ : ∃ r, s.effective.sum (fun _ w => w) = r + effective s u :=
    ⟨s.effective.sum (fun _ w => w) - effective s u, by have := hone u; omega⟩
  have hr' : s'.effective.sum (fun _ w => w) = r + (g.map (effective s')).sum := by omega
  have hq : ((s.effective.sum (fun _ w => w) : Nat) : ℚ) = r + effective s u := by rw [hr]; push_cast; ring
  have hq' : ((s'.effective.sum (fun _ w => w) : Nat) : ℚ) = r + ((g.map (effective s')).sum : Nat) := by
    rw [hr']; push_cast; ring
  refine ⟨?_, fun hm => ?_, fun x hxu hxv => ⟨?_, fun hm => ?_⟩⟩
  · exact part_le (f := f) (x := effective s u) (x' := ((g.map (effective s')).sum : Nat)) (Nat.cast_nonneg _)
      (Nat.cast_nonneg _) (Nat.cast_nonneg r) (by exact_mod_cast hle) hq hq'
  · rw [hq, hq', heq hm]
  · rw [ho x hxu hxv]
    refine part_ge (x := effective s u) (x' := ((g.map (effective s')).sum : Nat)) (Nat.cast_nonneg _) (Nat.cast_nonneg _)
      (Nat.cast_nonneg _) ?_ (by exact_mod_cast hle) hq hq'
    have := htwo x hxu
    exact_mod_cast (by omega : effective s x ≤ r)
  · rw [ho x hxu hxv, hq, hq', heq hm]

/-- How the exact shares of two histories compare. -/
structure Compare (u : Addr) (g : List Addr) (a : AssetInfo) (s s' : State) (h h' : List Call) : Prop where
  le : (g.map (fun x => exactShare x a s' h')).sum ≤ exactShare u a s h
  eq : s.min = 0 → noMinimum h → (g.map (fun x => exactShare x a s' h')).sum = exactShare u a s h
  others : ∀ x, x ≠ u → x ∉ g → exactShare x a s h ≤ exactShare x a s' h'
  same : s.min = 0 → noMinimum h → ∀ x, x ≠ u → x ∉ g → exactShare x a s h = exactShare x a s' h'

theorem compare_next {u : Addr} {g : List Addr} (hg : g.Nodup) {a : AssetInfo} {s s' : State} (hi : Inv s) (hi' : Inv s')
    (hh : Parts u g s s') {c c' : Call} (hc : accepted s c) (hc' : accepted s' c') (hf : funds c' a = funds c a)
    {h h' : List Call} (hz : s.min = 0 → noMinimum (c :: h) → (step s c).1.min = 0)
    (ih : Compare u g a (step s c).1 (step s' c').1 h h') : Compare u g a s s' (c :: h) (c' :: h') := by
  obtain ⟨g1, g2, g3⟩ := parts_share hg hi hi' hh (funds c a)
  have hno : noMinimum (c :: h) → noMinimum h := fun hn x hx => hn x (List.mem_cons_of_mem _ hx)
  have e1 : ∀ x, exactShare x a s (c :: h) =
      (funds c a : ℚ) * effective s x / (s.effective.sum (fun _ w => w) : Nat) + exactShare x a (step s c).1 h := by
    intro x
    conv_lhs => unfold exactShare
    rw [if_pos hc]
  have e2 : ∀ x, exactShare x a s' (c' :: h') =
      (funds c a : ℚ) * effective s' x / (s'.effective.sum (fun _ w => w) : Nat) + exactShare x a (step s' c').1 h' := by
    intro x
    conv_lhs => unfold exactShare
    rw [if_pos hc', hf]
  have e3 : (g.map (fun x => exactShare x a s' (c' :: h'))).sum =
      (g.map (fun x => (funds c a : ℚ) * effective s' x / (s'.effective.sum (fun _ w => w) : Nat))).sum +
        (g.map (fun x => exactShare x a (step s' c').1 h')).sum := by
    rw [← List.sum_map_add]
    simp only [e2]
  refine ⟨?_, fun hm hn => ?_, fun x hu hv => ?_, fun hm hn x hu hv => ?_⟩
  · rw [e1, e3]
    linarith [ih.le]
  · rw [e1, e3]
    linarith [ih.eq (hz hm hn) (hno hn), g2 hm]
  · rw [e1, e2]
    linarith [ih.others x hu hv, (g3 x hu hv).1]
  · rw [e1, e2]
    linarith [ih.same (hz hm hn) (hno hn) x hu hv, (g3 x hu hv).2 hm]

theorem exact_claim {s : State} (hi : Inv s) {c : Call} (hc : isClaim c = true) (x : Addr) (a : AssetInfo) (h : List Call) :
    exactShare x a s (c :: h) = exactShare x a (step s c).1 h := by
  unfold exactShare
  rw [(claim_keeps hi hc).2.2 a]
  simp
  cases h <;> rfl

theorem compare {u : Addr} {g : List Addr} (hg : g.Nodup) (a : AssetInfo) {h h' : List Call} (hs : SplitHistory u g h h') :
    ∀ {s s' : State}, Inv s → Inv s' → Parts u g s s' → allAccepted s h → allAccepted s' h' → Compare u g a s s' h h' := by
  induction hs with
  | nil =>
    intro s s' _ _ _ _ _
    exact ⟨by simp [exactShare], fun _ _ => by simp [exactShare], fun _ _ _ => by simp [exactShare],
      fun _ _ _ _ _ => by simp [exactShare]⟩
  | @weights e d l l' hl h h' _ ih =>
    intro s s' hi hi' hh ha ha'
    have hc := ha.1 rfl
    have hc' := ha'.1 rfl
    have i1 := (step_inv hi ⟨e, .updateWeights l, d⟩).1
    have i1' := (step_inv hi' ⟨e, .updateWeights l', d⟩).1
    have hst : (step s ⟨e, .updateWeights l, d⟩).1.weights = l.foldl (fun m p => m.set p.1 p.2) s.weights ∧
        (step s ⟨e, .updateWeights l, d⟩).1.min = s.min := by
      rcases step_cases s ⟨e, .updateWeights l, d⟩ with ⟨x, hx, _, he, _⟩ | ⟨_, hn⟩
      · rw [he]; exact (exec_effect hi hx).1 l rfl
      · exact absurd hc hn
    have hst' : (step s' ⟨e, .updateWeights l', d⟩).1.weights = l'.foldl (fun m p => m.set p.1 p.2) s'.weights ∧
        (step s' ⟨e, .updateWeights l', d⟩).1.min = s'.min := by
      rcases step_cases s' ⟨e, .updateWeights l', d⟩ with ⟨x, hx, _, he, _⟩ | ⟨_, hn⟩
      · rw [he]; exact (exec_effect hi' hx).1 l' rfl
      · exact absurd hc' hn
    have hw := parts_fold hg hl (w := s.weights) (w' := s'.weights) ⟨hh.other, hh.fresh, hh.gone, hh.sum⟩
    refine compare_next hg hi hi' hh hc hc' rfl (fun hm _ => hst.2.trans hm) (ih i1 i1' ⟨?_, fun x hx hv => ?_, fun x hx hu => ?_, fun hu => ?_, ?_⟩ ha.2 ha'.2)
    · rw [hst.2, hst'.2, hh.min]
    · rw [hst.1, hst'.1]; exact hw.other x hx hv
    · rw [hst.1]; exact hw.fresh x hx hu
    · rw [hst'.1]; exact hw.gone hu
    · unfold weight; rw [hst.1, hst'.1]; exact hw.sum
  | @min e d m h h' _ ih =>
    intro s s' hi hi' hh ha ha'
    have hc := ha.1 rfl
    have hc' := ha'.1 rfl
    have i1 := (step_inv hi ⟨e, .updateMin m, d⟩).1
    have i1' := (step_inv hi' ⟨e, .updateMin m, d⟩).1
    have key : ∀ {t : State}, Inv t → accepted t ⟨e, .updateMin m, d⟩ → (step t ⟨e, .updateMin m, d⟩).1.weights = t.weights ∧
        (step t ⟨e, .updateMin m, d⟩).1.min = m := by
      intro t it hc
      rcases step_cases t ⟨e, .updateMin m, d⟩ with ⟨x, hx, _, he, _⟩ | ⟨_, hn⟩
      · rw [he]; exact (exec_effect it hx).2.1 m rfl
      · exact absurd hc hn
    have hst := key hi hc
    have hst' := key hi' hc'
    refine compare_next hg hi hi' hh hc hc' rfl
      (fun _ hn => hst.2.trans (hn ⟨e, .updateMin m, d⟩ (List.mem_cons_self ..) m rfl))
      (ih i1 i1' ⟨?_, fun x hx hv => ?_, fun x hx hu => ?_, fun hu => ?_, ?_⟩ ha.2 ha'.2)
    · rw [hst.2, hst'.2]
    · rw [hst.1, hst'.1]; exact hh.other x hx hv
    · rw [hst.1]; exact hh.fresh x hx hu
    · rw [hst'.1]; exact hh.gone hu
    · unfold weight; rw [hst.1, hst'.1]; exact hh.sum
  | @native e d f h h' _ ih =>
    intro s s' hi hi' hh ha ha'
    have key : ∀ {t : State}, Inv t → (step t ⟨e, .distributeNative f, d⟩).1.weights = t.weights ∧
        (step t ⟨e, .distributeNative f, d⟩).1.min = t.min := by
      intro t it
      rcases step_cases t ⟨e, .distributeNative f, d⟩ with ⟨x, hx, _, he, _⟩ | ⟨he, _⟩
      · rw [he]; exact (exec_effect it hx).2.2 (fun _ hn => by simp at hn) (fun _ hn => by simp at hn)
      · rw [he]; exact ⟨rfl, rfl⟩
    have hst := key hi
    have hst' := key hi'
    refine compare_next hg hi hi' hh (ha.1 rfl) (ha'.1 rfl) rfl (fun hm _ => hst.2.trans hm)
      (ih (step_inv hi _).1 (step_inv hi' _).1 ⟨?_, fun x hx hv => ?_, fun x hx hu => ?_, fun hu => ?_, ?_⟩ ha.2 ha'.2)
    · rw [hst.2, hst'.2, hh.min]
    · rw [hst.1, hst'.1]; exact hh.other x hx hv
    · rw [hst.1]; exact hh.fresh x hx hu
    · rw [hst'.1]; exact hh.gone hu
    · unfold weight; rw [hst.1, hst'.1]; exact hh.sum
  | @cw20 e d k n h h' _ ih =>
    intro s s' hi hi' hh ha ha'
    have key : ∀ {t : State}, Inv t → (step t ⟨e, .receiveCw20 k n, d⟩).1.weights = t.weights ∧
        (step t ⟨e, .receiveCw20 k n, d⟩).1.min = t.min := by
      intro t it
      rcases step_cases t ⟨e, .receiveCw20 k n, d⟩ with ⟨x, hx, _, he, _⟩ | ⟨he, _⟩
      · rw [he]; exact (exec_effect it hx).2.2 (fun _ hn => by simp at hn) (fun _ hn => by simp at hn)
      · rw [he]; exact ⟨rfl, rfl⟩
    have hst := key hi
    have hst' := key hi'
    refine compare_next hg hi hi' hh (ha.1 rfl) (ha'.1 rfl) rfl (fun hm _ => hst.2.trans hm)
      (ih (step_inv hi _).1 (step_inv hi' _).1 ⟨?_, fun x hx hv => ?_, fun x hx hu => ?_, fun hu => ?_, ?_⟩ ha.2 ha'.2)
    · rw [hst.2, hst'.2, hh.min]
    · rw [hst.1, hst'.1]; exact hh.other x hx hv
    · rw [hst.1]; exact hh.fresh x hx hu
    · rw [hst'.1]; exact hh.gone hu
    · unfold weight; rw [hst.1, hst'.1]; exact hh.sum
  | @claim c hc h h' _ ih =>
    intro s s' hi hi' hh ha ha'
    obtain ⟨k1, k2, _⟩ := claim_keeps hi hc
    have := ih (step_inv hi c).1 hi' ⟨by rw [k2]; exact hh.min, fun x hx hv => by rw [k1]; exact hh.other x hx hv,
      fun x hx hu => by rw [k1]; exact hh.fresh x hx hu, hh.gone, by have := hh.sum; unfold weight at this ⊢; rw [k1]; exact this⟩ ha.2 ha'
    have hno : noMinimum (c :: h) → noMinimum h := fun hn x hx => hn x (List.mem_cons_of_mem _ hx)
    refine ⟨?_, fun hm hn => ?_, fun x hu hv => ?_, fun hm hn x hu hv => ?_⟩
    all_goals rw [exact_claim hi hc]
    · exact this.le
    · exact this.eq (k2.trans hm) (hno hn)
    · exact this.others x hu hv
    · exact this.same (k2.trans hm) (hno hn) x hu hv
  | @claim' c hc h h' _ ih =>
    intro s s' hi hi' hh ha ha'
    obtain ⟨k1, k2, _⟩ := claim_keeps hi' hc
    have := ih hi (step_inv hi' c).1 ⟨by rw [k2]; exact hh.min, fun x hx hv => by rw [k1]; exact hh.other x hx hv,
      hh.fresh, fun hu => by rw [k1]; exact hh.gone hu, by have := hh.sum; unfold weight at this ⊢; rw [k1]; exact this⟩ ha ha'.2
    refine ⟨?_, fun hm hn => ?_, fun x hu hv => ?_, fun hm hn x hu hv => ?_⟩
    · simp only [exact_claim hi' hc]; exact this.le
    · simp only [exact_claim hi' hc]; exact this.eq hm hn
    · rw [exact_claim hi' hc]; exact this.others x hu hv
    · rw [exact_claim hi' hc]; exact this.same hm hn x hu hv

theorem sums_le (g : List Addr) (n : Addr → Nat) (r : Addr → ℚ) (h : ∀ x, (n x : ℚ) ≤ r x) :
    (((g.map n).sum : Nat) : ℚ) ≤ (g.map r).sum := by
  induction g with
  | nil => simp
  | cons x g ih =>
    rw [List.map_cons, List.map_cons, List.sum_cons, List.sum_cons, Nat.cast_add]
    exact add_le_add (h x) ih

theorem sums_lt {g : List Addr} (hg : g ≠ []) (n : Addr → Nat) (k r : Addr → ℚ) (h : ∀ x, r x < n x + 1 + k x) :
    (g.map r).sum < ((g.map n).sum : Nat) + (g.length : Nat) + (g.map k).sum := by
  induction g with
  | nil => exact absurd rfl hg
  | cons x g ih =>
    simp only [List.map_cons, List.sum_cons, Nat.cast_add, List.length_cons, Nat.cast_one]
    have h1 := h x
    by_cases hn : g = []
    · subst hn
      simp
      linarith
    · linarith [ih hn]

/-! ### Theorems -/

/-- **Several accounts get no more than one.** Take two histories in which the same is distributed, and that differ in that the
weights that one user has in the first one are divided among any number of accounts in the second one, in any way and at any
change anew. What the accounts have been paid of an asset and can still claim is at most the exact share of the one account. So it
is more than what the one account got by at most the rounding losses of that account. -/
theorem C151_no_gain {ad : Addr} {mw : Option Nat} {ws ws' : List (Addr × Nat)} {s s' : State} {u : Addr} {g : List Addr}
    (hg : g.Nodup) (hws : SplitWeights u g ws ws') (h0 : init ad mw ws = .ok s) (h0' : init ad mw ws' = .ok s')
    {h h' : List Call} (hs : SplitHistory u g h h') (ha : allAccepted s h) (ha' : allAccepted s' h') (a : AssetInfo) :
    (gotAll g a s' h' : ℚ) ≤ exactShare u a s h ∧
    (distributed a s h < 2 ^ 128 → (gotAll g a s' h' : ℚ) < (got u a s h : Nat) + 1 + roundings u a s h) := by
  have hc := compare hg a hs (init_inv h0).1 (init_inv h0').1 (init_parts hg hws h0 h0') ha ha'
  have h1 : (gotAll g a s' h' : ℚ) ≤ (g.map (fun x => exactShare x a s' h')).sum :=
    sums_le g _ _ (fun x => C124_never_more ad mw ws' s' h' h0' x a)
  have hle := le_trans h1 hc.le
  exact ⟨hle, fun hb => lt_of_le_of_lt hle (C124_within_rounding ad mw ws s h h0 u a hb)⟩

/-- **Nor less, where there is no minimum.** Without a minimum for rewards, the accounts get what the one account gets, but
for their rounding losses. -/
theorem C151_no_loss {ad : Addr} {mw : Option Nat} {ws ws' : List (Addr × Nat)} {s s' : State} {u : Addr} {g : List Addr}
    (hg : g.Nodup) (hne : g ≠ []) (hws : SplitWeights u g ws ws') (h0 : init ad mw ws = .ok s) (h0' : init ad mw ws' = .ok s')
    {h h' : List Call} (hs : SplitHistory u g h h') (ha : allAccepted s h) (ha' : allAccepted s' h') (hm : mw.getD 0 = 0)
    (hn : noMinimum h) (a : AssetInfo) (hb : distributed a s' h' < 2 ^ 128) :
    (got u a s h : ℚ) < (gotAll g a s' h' : Nat) + (g.length : Nat) + (g.map (fun x => (roundings x a s' h' : ℚ))).sum := by
  have hc := compare hg a hs (init_inv h0).1 (init_inv h0').1 (init_parts hg hws h0 h0') ha ha'
  have h1 : (got u a s h : ℚ) ≤ exactShare u a s h := C124_never_more ad mw ws s h h0 u a
  rw [← hc.eq ((init_inv h0).2.2.1.trans hm) hn] at h1
  exact lt_of_le_of_lt h1 (sums_lt hne _ _ _ (fun x => C124_within_rounding ad mw ws' s' h' h0' x a hb))

/-- **The others do not lose.** Nobody else's exact share gets smaller by it, and without a minimum for rewards it is the
same. -/
theorem C151_others {ad : Addr} {mw : Option Nat} {ws ws' : List (Addr × Nat)} {s s' : State} {u : Addr} {g : List Addr}
    (hg : g.Nodup) (hws : SplitWeights u g ws ws') (h0 : init ad mw ws = .ok s) (h0' : init ad mw ws' = .ok s')
    {h h' : List Call} (hs : SplitHistory u g h h') (ha : allAccepted s h) (ha' : allAccepted s' h') (a : AssetInfo) {x : Addr}
    (hu : x ≠ u) (hx : x ∉ g) :
    exactShare x a s h ≤ exactShare x a s' h' ∧
    (mw.getD 0 = 0 → noMinimum h → exactShare x a s h = exactShare x a s' h') := by
  have hc := compare hg a hs (init_inv h0).1 (init_inv h0').1 (init_parts hg hws h0 h0') ha ha'
  exact ⟨hc.others x hu hx, fun hm hn => hc.same ((init_inv h0).2.2.1.trans hm) hn x hu hx⟩

/-! ### Example -/

/-- User 1 has weight 3 of 5 and later 7 of 9. -/
def oneInit : State :=
  match init 100 none [(1, 3), (2, 2)] with
  | .ok s => s
  | .error _ => ⟨0, 0, Map.empty, Map.empty, 0, Ledger.empty, Ledger.empty⟩

/-- The same with accounts 1, 8 and 9 in the place of user 1. -/
def threeInit : State :=
  match init 100 none [(1, 1), (8, 2), (9, 0), (2, 2)] with
  | .ok s => s
  | .error _ => ⟨0, 0, Map.empty, Map.empty, 0, Ledger.empty, Ledger.empty⟩

/-- Message of the admin, with coin 5 distributable. -/
def adminEnv : Env := ⟨100, fun _ => false, ⟨Map.empty, Map.empty, Map.empty⟩, [.native 5]⟩

/-- Two distributions around a change of weights. -/
def oneHistory : List Call :=
  [⟨adminEnv, .distributeNative [(5, 11)], true⟩, ⟨adminEnv, .updateWeights [(1, 7)], true⟩,
    ⟨adminEnv, .distributeNative [(5, 100)], true⟩]

/-- The same with three accounts, one of which claims. -/
def threeHistory : List Call :=
  [⟨adminEnv, .distributeNative [(5, 11)], true⟩, ⟨{ adminEnv with sender := 8 }, .claim 8 [5] [], true⟩,
    ⟨adminEnv, .updateWeights [(1, 2), (8, 2), (9, 3)], true⟩, ⟨adminEnv, .distributeNative [(5, 100)], true⟩]

/-- Hypotheses met: of 11 and 100 coins user 1 gets 83; the three accounts get 24, 26 and 33, though one of
them claims in between. -/
example : SplitWeights 1 [1, 8, 9] [(1, 3), (2, 2)] [(1, 1), (8, 2), (9, 0), (2, 2)] ∧
    init 100 none [(1, 3), (2, 2)] = .ok oneInit ∧ init 100 none [(1, 1), (8, 2), (9, 0), (2, 2)] = .ok threeInit ∧
    SplitHistory 1 [1, 8, 9] oneHistory threeHistory ∧
    allAccepted oneInit oneHistory ∧ allAccepted threeInit threeHistory ∧ noMinimum oneHistory ∧
    distributed (.native 5) oneInit oneHistory = 111 ∧ distributed (.native 5) threeInit threeHistory = 111 ∧
    got 1 (.native 5) oneInit oneHistory = 83 ∧ got 1 (.native 5) threeInit threeHistory = 24 ∧
    got 8 (.native 5) threeInit threeHistory = 26 ∧ got 9 (.native 5) threeInit threeHistory = 33 := by
  refine ⟨.split (g := [1, 8, 9]) [1, 2, 0] rfl (.other (2, 2) (by decide) (by decide) .nil), by decide +kernel, by decide +kernel,
    .native _ _ _ (.claim' _ rfl (.weights _ _ (.split (g := [1, 8, 9]) [2, 2, 3] rfl .nil) (.native _ _ _ .nil))), by decide +kernel,
    by decide +kernel, fun c hc m hm => ?_, by decide +kernel, by decide +kernel, by decide +kernel, by decide +kernel,
    by decide +kernel, by decide +kernel⟩
  simp only [oneHistory, List.mem_cons, List.not_mem_nil, or_false] at hc
  rcases hc with rfl | rfl | rfl <;> simp at hm

/-- With a minimum the accounts can get less: of 10 coins user 1 gets 5 with weight 4 of 8, two accounts of weight 2 get
nothing with a minimum of 3. -/
example : ∃ s s', init 100 (some 3) [(1, 4), (2, 4)] = .ok s ∧ init 100 (some 3) [(1, 2), (8, 2), (2, 4)] = .ok s' ∧
    SplitWeights 1 [1, 8] [(1, 4), (2, 4)] [(1, 2), (8, 2), (2, 4)] ∧
    allAccepted s [⟨adminEnv, .distributeNative [(5, 10)], true⟩] ∧
    allAccepted s' [⟨adminEnv, .distributeNative [(5, 10)], true⟩] ∧
    got 1 (.native 5) s [⟨adminEnv, .distributeNative [(5, 10)], true⟩] = 5 ∧
    gotAll [1, 8] (.native 5) s' [⟨adminEnv, .distributeNative [(5, 10)], true⟩] = 0 :=
  ⟨_, _, rfl, rfl, .split (g := [1, 8]) [2, 2] rfl (.other (2, 4) (by decide) (by decide) .nil), by decide +kernel, by decide +kernel,
    by decide +kernel, by decide +kernel⟩

end Verif.Distributor
