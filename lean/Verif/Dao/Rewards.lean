import Verif.Dao.Trace
import Mathlib.Data.List.Dedup
import Mathlib.Tactic.Positivity

/-!
# The contracts of a DAO together: rewards over a history

Specification of C125, and helper lemmas.
-/

set_option linter.unusedSimpArgs false

namespace Verif.Dao
open Verif
open Verif.Staking (Explains)

/-! ### Specification -/

/-- The stake of a member that counts for rewards: the member's voting weight, or nothing if that is below the minimum. -/
def stakeOf (w : World) (u : Addr) : Nat := if w.mem.weight u < w.dist.min then 0 else w.mem.weight u

/-- The stakes of all the members that count for rewards. -/
def allStakes (w : World) : Nat := w.mem.mem.weights.sum (fun _ x => if x < w.dist.min then 0 else x)

/-- Amount of an asset handed to the distributor with a message. -/
def Entry.distributed (a : AssetInfo) (x : Entry) : Nat :=
  match x.msg with
  | .dist (.distributeNative l) => (l.map (fun f => if AssetInfo.native f.1 = a then f.2 else 0)).sum
  | .dist (.receiveCw20 _ n) => if AssetInfo.cw20 x.sender = a then n else 0
  | _ => 0

/-- Amount of an asset that the distributor pays to a user on a message. -/
def Entry.paid (u : Addr) (a : AssetInfo) (x : Entry) : Nat :=
  match x.msg with
  | .dist m =>
    match Distributor.exec x.world.dist (x.ext.denv x.sender) m with
    | .ok r => (r.2.map (fun o => if o.to = u ∧ o.asset = a then o.amount else 0)).sum
    | .error _ => 0
  | _ => 0

/-- Weight changes of a user among the messages of the membership contract. -/
def changesOf (u : Addr) (outs : List Out) : Nat :=
  ((outs.flatMap (fun o => match o with | .notify _ l => l | _ => [])).filter (fun ch => decide (ch.user = u))).length

/-- What a user can lose to rounding with a message: less than a unit for each change of the user's voting weight, for a
change of the minimum that makes the user eligible or not, and for a claim of the user for that asset; for each coin
distributed, the stake of the user over 10^18. -/
def Entry.lost (c : Cfg) (u : Addr) (a : AssetInfo) (x : Entry) : ℚ :=
  match x.msg with
  | .mem m =>
    match x.world.mem.exec ⟨c.menv x.ext x.world x.sender, x.ext.proxy⟩ m with
    | .ok r => changesOf u r.2
    | .error _ => 0
  | .dist (.updateMin n) => if (x.world.dist.min ≤ x.world.mem.weight u ↔ n ≤ x.world.mem.weight u) then 0 else 1
  | .dist (.distributeNative l) =>
    (stakeOf x.world u : ℚ) * (l.filter (fun f => decide (AssetInfo.native f.1 = a))).length / 10 ^ 18
  | .dist (.receiveCw20 _ _) => if AssetInfo.cw20 x.sender = a then (stakeOf x.world u : ℚ) / 10 ^ 18 else 0
  | .dist (.claim v ds ts) => if v = u ∧ a ∈ ds.map AssetInfo.native ++ ts.map AssetInfo.cw20 then 1 else 0
  | _ => 0

/-- Amount of an asset distributed over a history. -/
def distributedOver (a : AssetInfo) (t : List Entry) : Nat := (t.map (Entry.distributed a)).sum

/-- Amount of an asset paid to a user over a history. -/
def paidOver (u : Addr) (a : AssetInfo) (t : List Entry) : Nat := (t.map (Entry.paid u a)).sum

/-- A user's exact part of what is distributed of an asset over a history: of each distribution, the part that the user's
stake is of all the stakes at that time. -/
def entitled (u : Addr) (a : AssetInfo) (t : List Entry) : ℚ :=
  (t.map (fun x => (x.distributed a : ℚ) * stakeOf x.world u / allStakes x.world)).sum

/-- What a user can lose to rounding over a history. -/
def lostOver (c : Cfg) (u : Addr) (a : AssetInfo) (t : List Entry) : ℚ := (t.map (Entry.lost c u a)).sum

/-! ### Stakes and reward weights -/

theorem sum_map : ∀ (us : List Addr) (W : Map Addr Nat) (f : Nat → Nat), us.Nodup →
    (∀ u x, W.get u = some x → f x ≠ 0 → u ∈ us) →
    (us.map (fun u => Map.contrib (fun _ x => f x) u (W.get u))).sum = W.sum (fun _ x => f x)
  | [], W, f, _, h => by
    rw [Map.sum_congr (g := fun _ _ => 0) (fun u x hx => by
      by_contra h0
      simpa using h u x hx h0)]
    rw [Map.sum_zero]
    rfl
  | u :: us, W, f, hn, h => by
    rw [List.nodup_cons] at hn
    have ih := sum_map us (W.remove u) f hn.2 (fun v x hv h0 => by
      rw [Map.get_remove] at hv
      by_cases huv : u = v
      · rw [if_pos huv] at hv; cases hv
      · rw [if_neg huv] at hv
        exact (List.mem_cons.1 (h v x hv h0)).resolve_left (fun e => huv e.symm))
    have h1 := Map.sum_remove W (fun _ x => f x) u
    have h2 : (us.map (fun v => Map.contrib (fun _ x => f x) v ((W.remove u).get v))) =
        us.map (fun v => Map.contrib (fun _ x => f x) v (W.get v)) := by
      refine List.map_congr_left (fun v hv => ?_)
      rw [Map.get_remove, if_neg (fun h => hn.1 (by rw [h]; exact hv))]
    rw [h2] at ih
    rw [List.map_cons, List.sum_cons, ih]
    omega

/-- The reward weight of a user is that of the membership contract. -/
def Agree (w : World) (u : Addr) : Prop := rewardWeight w.dist u = w.mem.weight u

/-- The reward weights are at least those of the membership contract. -/
def AtLeast (w : World) : Prop := ∀ u, w.mem.weight u ≤ rewardWeight w.dist u

theorem effective_eq {w : World} (hi : Distributor.Inv w.dist) (u : Addr) : Distributor.effective w.dist u =
    if rewardWeight w.dist u < w.dist.min then 0 else rewardWeight w.dist u := by
  unfold Distributor.effective
  rw [hi.eff u]
  unfold rewardWeight
  cases w.dist.weights.get u with
  | none => simp
  | some x =>
    simp only [Option.map_some, Option.getD_some, Distributor.effWeight]
    by_cases hx : x < w.dist.min
    · rw [if_pos hx, if_neg (by omega)]
    · rw [if_neg hx, if_pos (by omega)]

theorem effective_stake {w : World} (hi : Distributor.Inv w.dist) {u : Addr} (h : Agree w u) :
    Distributor.effective w.dist u = stakeOf w u := by
  rw [effective_eq hi, h]
  rfl

theorem effective_covers {w : World} (hi : Distributor.Inv w.dist) (h : AtLeast w) (u : Addr) :
    stakeOf w u ≤ Distributor.effective w.dist u := by
  rw [effective_eq hi]
  unfold stakeOf
  have := h u
  split <;> split <;> omega

theorem stakes_list {w : World} (us : List Addr) (hn : us.Nodup) (h : ∀ u, w.mem.weight u ≠ 0 → u ∈ us) :
    (us.map (stakeOf w)).sum = allStakes w := by
  have hwt : ∀ u, w.mem.weight u = (w.mem.mem.weights.get u).getD 0 := fun u => w.mem.weight_eq u
  unfold allStakes
  rw [← sum_map us w.mem.mem.weights (fun x => if x < w.dist.min then 0 else x) hn]
  · congr 1
    refine List.map_congr_left (fun u _ => ?_)
    unfold stakeOf
    rw [hwt]
    cases w.mem.mem.weights.get u with
    | none => simp [Map.contrib_none]
    | some x => simp [Map.contrib_some]
  · intro u x hx h0
    refine h u ?_
    rw [hwt, hx]
    intro hz
    rw [Option.getD_some] at hz
    rw [hz] at h0
    simp at h0

theorem effective_list {w : World} : ∃ us : List Addr, us.Nodup ∧
    w.dist.effective.sum (fun _ x => x) = (us.map (Distributor.effective w.dist)).sum ∧
    allStakes w = (us.map (stakeOf w)).sum := by
  have hn : (w.mem.mem.weights.keys ++ w.dist.effective.keys).dedup.Nodup := List.nodup_dedup _
  refine ⟨_, hn, (Distributor.sum_all _ _ hn ?_).symm, (stakes_list _ hn ?_).symm⟩
  · intro u x hx _
    rw [List.mem_dedup, List.mem_append]
    exact Or.inr (Map.mem_keys.2 ⟨x, hx⟩)
  · intro u hu
    rw [List.mem_dedup, List.mem_append]
    left
    rw [w.mem.weight_eq] at hu
    have hu : (w.mem.mem.weights.get u).getD 0 ≠ 0 := hu
    cases hg : w.mem.mem.weights.get u with
    | none => rw [hg] at hu; exact absurd rfl hu
    | some x => exact Map.mem_keys.2 ⟨x, hg⟩

theorem effective_sum {w : World} (hi : Distributor.Inv w.dist) (h : ∀ u, Agree w u) :
    w.dist.effective.sum (fun _ x => x) = allStakes w := by
  obtain ⟨us, _, h1, h2⟩ := effective_list (w := w)
  rw [h1, h2]
  congr 1
  exact List.map_congr_left (fun u _ => effective_stake hi (h u))

theorem effective_sum_le {w : World} (hi : Distributor.Inv w.dist) (h : AtLeast w) :
    allStakes w ≤ w.dist.effective.sum (fun _ x => x) := by
  obtain ⟨us, hn, h1, h2⟩ := effective_list (w := w)
  rw [h1, h2]
  clear h1 h2 hn
  induction us with
  | nil => exact le_refl _
  | cons u us ih =>
    rw [List.map_cons, List.map_cons, List.sum_cons, List.sum_cons]
    exact Nat.add_le_add (effective_covers hi h u) ih

theorem stake_le (w : World) (u : Addr) : stakeOf w u ≤ allStakes w := by
  have h := Map.contrib_le_sum w.mem.mem.weights (fun _ x => if x < w.dist.min then 0 else x) u
  refine le_trans ?_ h
  have hwt : w.mem.weight u = (w.mem.mem.weights.get u).getD 0 := w.mem.weight_eq u
  unfold stakeOf
  rw [hwt]
  cases w.mem.mem.weights.get u with
  | none => simp
  | some x => simp [Map.contrib_some]

/-! ### One message -/

/-- The parts of a user with the sum of the weights that the distributor has. -/
def dueOver (u : Addr) (a : AssetInfo) (t : List Entry) : ℚ :=
  (t.map (fun x => (x.distributed a : ℚ) * stakeOf x.world u / (x.world.dist.effective.sum (fun _ w => w) : Nat))).sum

/-- What the messages of a history do to the amount due to a user of an asset. -/
structure Fair (c : Cfg) (u : Addr) (a : AssetInfo) (w w' : World) (t : List Entry) : Prop where
  ok : DistOk c w'
  agree : Agree w' u
  most : (Distributor.shareOf w'.dist u a : ℚ) + ONE * paidOver u a t ≤ Distributor.shareOf w.dist u a + ONE * dueOver u a t
  owed : Distributor.owedOf w'.dist a ≤ Distributor.owedOf w.dist a + ONE * distributedOver a t
  least : Distributor.owedOf w.dist a + ONE * distributedOver a t < ONE * M128 →
    (Distributor.shareOf w.dist u a : ℚ) + ONE * dueOver u a t ≤
      Distributor.shareOf w'.dist u a + ONE * paidOver u a t + ONE * lostOver c u a t

theorem Fair.same {c : Cfg} {u : Addr} {a : AssetInfo} {w w' : World} (h : DistOk c w') (hg : Agree w' u)
    (hd : w'.dist = w.dist) : Fair c u a w w' [] := by
  refine ⟨h, hg, ?_, ?_, fun _ => ?_⟩ <;> rw [hd] <;>
    simp [paidOver, dueOver, distributedOver, lostOver]

theorem Fair.trans {c : Cfg} {u : Addr} {a : AssetInfo} {w w1 w2 : World} {t t' : List Entry} (h1 : Fair c u a w w1 t)
    (h2 : Fair c u a w1 w2 t') : Fair c u a w w2 (t ++ t') := by
  have e1 : distributedOver a (t ++ t') = distributedOver a t + distributedOver a t' := by simp [distributedOver]
  have e2 : paidOver u a (t ++ t') = paidOver u a t + paidOver u a t' := by simp [paidOver]
  have e3 : dueOver u a (t ++ t') = dueOver u a t + dueOver u a t' := by simp [dueOver]
  have e4 : lostOver c u a (t ++ t') = lostOver c u a t + lostOver c u a t' := by simp [lostOver]
  refine ⟨h2.ok, h2.agree, ?_, ?_, fun hlt => ?_⟩
  · have m1 := h1.most
    have m2 := h2.most
    rw [e2, e3, Nat.cast_add, mul_add, mul_add]
    linarith
  · have o1 := h1.owed
    have o2 := h2.owed
    rw [e1, Nat.mul_add]
    generalize ONE * distributedOver a t = x at *
    generalize ONE * distributedOver a t' = y at *
    omega
  · rw [e1, Nat.mul_add] at hlt
    have o1 := h1.owed
    have l1 := h1.least
    have l2 := h2.least
    generalize ONE * distributedOver a t = x at *
    generalize ONE * distributedOver a t' = y at *
    generalize ONE * M128 = z at *
    have m1 := l1 (by omega)
    have m2 := l2 (by omega)
    rw [e2, e3, e4, Nat.cast_add, mul_add, mul_add, mul_add]
    linarith

theorem changes_length (u : Addr) (l : List WeightChange) :
    ((l.map (fun ch => (ch.user, ch.new))).filter (fun p => decide (p.1 = u))).length =
      (l.filter (fun ch => decide (ch.user = u))).length := by
  rw [List.filter_map, List.length_map]
  rfl

/-- A message that leaves the distributor as it is and has no part in rewards. -/
theorem Fair.quiet {c : Cfg} {u : Addr} {a : AssetInfo} {w w' : World} {x : Entry} (h : DistOk c w') (hg : Agree w' u)
    (hd : w'.dist = w.dist) (h1 : x.distributed a = 0) (h2 : x.paid u a = 0) (h3 : 0 ≤ x.lost c u a) :
    Fair c u a w w' [x] := by
  refine ⟨h, hg, ?_, ?_, fun _ => ?_⟩ <;> rw [hd] <;>
    simp [paidOver, dueOver, distributedOver, lostOver, h1, h2, h3]

theorem handled_fair {c : Cfg} (hw : c.Wf) {e : Ext} {w w1 : World} {s : Addr} {m : Msg} {subs : List Item}
    (hb : Base c w) (hk : Known c s m) (hr : handle c e w s m = .ok (w1, subs)) (hh : Handled c w s m w1 subs)
    (h : DistOk c w) {u : Addr} (hg : Agree w u) (a : AssetInfo) : Fair c u a w w1 [⟨w, e, s, m⟩] := by
  obtain ⟨k1, k2⟩ := hh.dist hw hb hk hr h
  have g1 : Agree w1 u := k2 u hg
  cases m with
  | ctl m =>
    obtain ⟨r, hx⟩ := handle_ctl hr
    have hworld := hx.world
    simp only at hworld
    exact Fair.quiet k1 g1 (by rw [hworld]) rfl rfl (le_refl _)
  | gov m =>
    simp only [handle, bind_ok_iff, pure_ok_iff] at hr
    obtain ⟨g, _, hx⟩ := hr
    cases hx
    exact Fair.quiet k1 g1 rfl rfl rfl (le_refl _)
  | council m =>
    have hm : s = c.self → (Msg.council m).tame = true := by
      intro ha
      rcases hk with hk | ⟨_, hk | ⟨id, hk⟩⟩
      · exact absurd ha hk.1
      · exact hk
      · cases hk
    obtain ⟨_, h2, _⟩ := handle_council hb.council hm hr
    simp only at h2
    exact Fair.quiet k1 g1 (by rw [h2]) rfl rfl (le_refl _)
  | dist m =>
    simp only [handle, bind_ok_iff, pure_ok_iff] at hr
    obtain ⟨r, h1, h2⟩ := hr
    cases h2
    have hne : ∀ l, m ≠ .updateWeights l := by
      rintro l rfl
      rcases hk with hk | ⟨_, hk | ⟨id, hk⟩⟩
      · simp only [Distributor.exec] at h1
        obtain ⟨s', h3, _⟩ := bind_ok_iff.1 h1
        unfold Distributor.updateWeights at h3
        obtain ⟨h4, _⟩ := ite_ok_iff.1 h3
        have h4 : s = w.dist.admin := Classical.not_not.1 h4
        exact hk.1 (h4.trans h.admin)
      · cases hk
      · cases hk
    obtain ⟨s1, s2⟩ := Distributor.exec_share h.inv h1 u a
    obtain ⟨_, _, o1⟩ := Distributor.exec_ok h.inv h1
    have o1 := o1 a
    have hd : Entry.distributed a ⟨w, e, s, .dist m⟩ = Distributor.fundsOf (e.denv s) m a := by cases m <;> rfl
    have hp : Entry.paid u a ⟨w, e, s, .dist m⟩ = Distributor.paid u a r.2 := by
      simp only [Entry.paid, h1]
      rfl
    have hlost : Entry.lost c u a ⟨w, e, s, .dist m⟩ = Distributor.rounding u a w.dist (e.denv s) m := by
      have hwt : Distributor.weight w.dist u = w.mem.weight u := hg
      cases m with
      | updateWeights l => exact absurd rfl (hne l)
      | updateMin n => simp only [Entry.lost, Distributor.rounding, hwt]
      | distributeNative l => simp only [Entry.lost, Distributor.rounding, effective_stake h.inv hg]
      | receiveCw20 k n => simp only [Entry.lost, Distributor.rounding, effective_stake h.inv hg]; rfl
      | claim v ds ts => rfl
    rw [effective_stake h.inv hg, ← hd, ← hp] at s1 s2
    rw [← hlost] at s2
    rw [← hd] at o1
    refine ⟨k1, g1, ?_, ?_, fun hlt => ?_⟩
    · simpa [paidOver, dueOver] using s1
    · simp only [distributedOver, List.map_cons, List.map_nil, List.sum_cons, List.sum_nil, Nat.add_zero]
      exact le_trans (Nat.le_add_right _ _) o1
    · have := s2 (lt_of_le_of_lt (Nat.le_add_right _ _) hlt)
      simpa [paidOver, dueOver, lostOver] using this
  | mem m =>
    have hm : s = c.self → m.tame = true := by
      intro ha
      rcases hk with hk | ⟨_, hk | ⟨id, hk⟩⟩
      · exact absurd ha hk.1
      · exact hk
      · cases hk
    simp only [handle, bind_ok_iff] at hr
    obtain ⟨x, h1, h2⟩ := hr
    have hrep := Member.exec_ok (e := ⟨c.menv e w s, e.proxy⟩) hb.mem rfl hm h1
    have hlost : Entry.lost c u a ⟨w, e, s, .mem m⟩ = changesOf u x.2 := by
      simp only [Entry.lost, h1]
    rcases hrep.report with ⟨l, ho, _, _⟩ | ⟨ho, _⟩
    · rw [ho] at h2 hlost
      have hlen : changesOf u [.notify c.self l] = ((l.map (fun ch => (ch.user, ch.new))).filter
          (fun p => decide (p.1 = u))).length := by
        rw [changes_length]
        simp [changesOf]
      unfold deliver at h2
      rw [if_pos rfl] at h2
      simp only [bind_ok_iff] at h2
      obtain ⟨y, hy, d, hd, h3⟩ := h2
      cases h3
      rcases Controller.weightsChanged_ok_iff.1 hy with ⟨hc, _⟩ | ⟨_, _, hu, hs⟩
      · exact absurd hc hw.both
      rw [hs] at hd
      unfold updateDist at hd
      simp only [bind_ok_iff] at hd
      obtain ⟨d', hd', hd''⟩ := hd
      cases hd''
      obtain ⟨s1, s2⟩ := Distributor.exec_share h.inv hd' u a
      obtain ⟨_, _, o1⟩ := Distributor.exec_ok h.inv hd'
      have o1 := o1 a
      have hz : Distributor.fundsOf (e.denv c.self) (.updateWeights (l.map (fun ch => (ch.user, ch.new)))) a = 0 := rfl
      have hp : Distributor.paid u a d'.2 = 0 := by
        simp only [Distributor.exec] at hd'
        obtain ⟨s', _, h4⟩ := bind_ok_iff.1 hd'
        cases pure_ok_iff.1 h4
        rfl
      rw [hz, hp] at s1 s2
      rw [hz] at o1
      have e1 : Entry.distributed a ⟨w, e, s, .mem m⟩ = 0 := rfl
      have e2 : Entry.paid u a ⟨w, e, s, .mem m⟩ = 0 := rfl
      have e3 : Entry.lost c u a ⟨w, e, s, .mem m⟩ = Distributor.rounding u a w.dist (e.denv c.self)
          (.updateWeights (l.map (fun ch => (ch.user, ch.new)))) := by
        rw [hlost, hlen]
        rfl
      rw [← e3] at s2
      refine ⟨k1, g1, ?_, ?_, fun hlt => ?_⟩
      · simpa [paidOver, dueOver, e1, e2] using s1
      · simp only [distributedOver, List.map_cons, List.map_nil, List.sum_cons, List.sum_nil, e1]
        exact le_trans (Nat.le_add_right _ _) o1
      · have := s2 (lt_of_le_of_lt (Nat.le_add_right _ _) hlt)
        simpa [paidOver, dueOver, lostOver, e1, e2] using this
    · obtain ⟨h3, _⟩ := deliver_quiet ho h2
      simp only at h3
      refine Fair.quiet k1 g1 (by rw [h3]) rfl rfl ?_
      rw [hlost]
      exact Nat.cast_nonneg _

theorem History.fair {c : Cfg} (hw : c.Wf) (ht : c.Tame) {w w' : World} {t : List Entry} (h : History c w w' t)
    (hr : Reachable c w) {u : Addr} (hg : Agree w u) (a : AssetInfo) : Fair c u a w w' t := by
  have key := h.induct hw ht (P := fun w w' t => DistOk c w → Agree w u → Fair c u a w w' t)
    (fun w h1 h2 => Fair.same h1 h2 rfl)
    (fun w l h1 h2 => Fair.same ⟨h1.admin, h1.inv⟩ h2 rfl)
    (fun w b h1 h2 => Fair.same ⟨h1.admin, h1.inv⟩ h2 rfl)
    (fun w w1 w2 t t' p1 p2 h1 h2 => by
      have f1 := p1 h1 h2
      exact f1.trans (p2 f1.ok f1.agree))
    (fun w w1 s m subs e hb hk hx hh h1 h2 => handled_fair hw hb hk hx hh h1 h2 a) hr
  exact key (hr.dist hw ht) hg

/-! ### The states in a history -/

theorem explained_covers (u : Addr) : ∀ (l : List WeightChange) (W : Map Addr Nat) (f f' : Addr → Nat), Explains f l f' →
    f u ≤ (W.get u).getD 0 →
    f' u ≤ (((l.map (fun ch => (ch.user, ch.new))).foldl (fun m p => m.set p.1 p.2) W).get u).getD 0 := by
  intro l
  induction l with
  | nil => intro W f f' h hu; rw [h u]; exact hu
  | cons ch t ih =>
    intro W f f' h hu
    rw [List.map_cons, List.foldl_cons]
    refine ih _ _ _ h.2 ?_
    simp only [Map.get_set]
    by_cases hc : u = ch.user
    · rw [if_pos hc, if_pos hc.symm]; rfl
    · rw [if_neg hc, if_neg (fun hh => hc hh.symm)]; exact hu

theorem handled_covers {c : Cfg} (hw : c.Wf) {e : Ext} {w w1 : World} {s : Addr} {m : Msg} {subs : List Item}
    (hb : Base c w) (hk : Known c s m) (hr : handle c e w s m = .ok (w1, subs)) (hh : Handled c w s m w1 subs)
    (h : DistOk c w) (hg : AtLeast w) : AtLeast w1 := by
  cases m with
  | ctl m =>
    obtain ⟨r, hx⟩ := handle_ctl hr
    have hworld := hx.world
    simp only at hworld
    rw [hworld]
    exact hg
  | gov m =>
    simp only [handle, bind_ok_iff, pure_ok_iff] at hr
    obtain ⟨g, _, hx⟩ := hr
    cases hx
    exact hg
  | dist m =>
    have hsame : ∀ v, rewardWeight w1.dist v = rewardWeight w.dist v := by
      simp only [handle, bind_ok_iff, pure_ok_iff] at hr
      obtain ⟨r, h1, h2⟩ := hr
      cases h2
      have hne : ∀ l, m ≠ .updateWeights l := by
        rintro l rfl
        rcases hk with hk | ⟨_, hk | ⟨id, hk⟩⟩
        · simp only [Distributor.exec] at h1
          obtain ⟨s', h3, _⟩ := bind_ok_iff.1 h1
          unfold Distributor.updateWeights at h3
          obtain ⟨h4, _⟩ := ite_ok_iff.1 h3
          have h4 : s = w.dist.admin := Classical.not_not.1 h4
          exact hk.1 (h4.trans h.admin)
        · cases hk
        · cases hk
      intro v
      unfold rewardWeight
      show (r.1.weights.get v).getD 0 = _
      rw [dist_weights h.inv hne h1]
    have hmem : w1.mem = w.mem := by
      simp only [handle, bind_ok_iff, pure_ok_iff] at hr
      obtain ⟨r, _, h2⟩ := hr
      cases h2
      rfl
    intro v
    rw [hsame, hmem]
    exact hg v
  | mem m =>
    have hm : s = c.self → m.tame = true := by
      intro ha
      rcases hk with hk | ⟨_, hk | ⟨id, hk⟩⟩
      · exact absurd ha hk.1
      · exact hk
      · cases hk
    have hs := handle_mem hw hb.mem hm hr
    simp only at hs
    rcases hs.gov with ⟨l, e', hex, _, _, d, hd, hd1⟩ | ⟨_, hd, hwt⟩
    · simp only [Distributor.exec] at hd
      obtain ⟨s', h3, h4⟩ := bind_ok_iff.1 hd
      cases pure_ok_iff.1 h4
      unfold Distributor.updateWeights at h3
      obtain ⟨_, h3⟩ := ite_ok_iff.1 h3
      obtain ⟨_, _, hwt⟩ := Distributor.updates_ok _ h.inv h3
      intro u
      unfold rewardWeight
      rw [hd1, hwt]
      exact explained_covers u l _ _ _ hex (hg u)
    · intro u
      rw [hd, hwt]
      exact hg u
  | council m =>
    have hm : s = c.self → (Msg.council m).tame = true := by
      intro ha
      rcases hk with hk | ⟨_, hk | ⟨id, hk⟩⟩
      · exact absurd ha hk.1
      · exact hk
      · cases hk
    obtain ⟨_, h2, _⟩ := handle_council hb.council hm hr
    simp only at h2
    rw [h2]
    exact hg

/-- What is known of a state in a history that starts at `w`. -/
structure Seen (c : Cfg) (w w' : World) : Prop where
  ok : DistOk c w'
  agree : ∀ u, Agree w u → Agree w' u
  covers : AtLeast w → AtLeast w'

theorem Seen.trans {c : Cfg} {w w1 w2 : World} (h1 : Seen c w w1) (h2 : Seen c w1 w2) : Seen c w w2 :=
  ⟨h2.ok, fun u hu => h2.agree u (h1.agree u hu), fun hu => h2.covers (h1.covers hu)⟩

/-- What is distributed is distributed to someone. -/
theorem handled_staked {c : Cfg} {e : Ext} {w w1 : World} {s : Addr} {m : Msg} {subs : List Item}
    (hr : handle c e w s m = .ok (w1, subs)) (h : DistOk c w) (a : AssetInfo) :
    Entry.distributed a ⟨w, e, s, m⟩ = 0 ∨ w.dist.effective.sum (fun _ x => x) ≠ 0 := by
  cases m with
  | ctl m => exact .inl rfl
  | gov m => exact .inl rfl
  | mem m => exact .inl rfl
  | council m => exact .inl rfl
  | dist m =>
    simp only [handle, bind_ok_iff, pure_ok_iff] at hr
    obtain ⟨r, h1, _⟩ := hr
    have ht := h.inv.total
    cases m with
    | updateWeights _ => exact .inl rfl
    | updateMin _ => exact .inl rfl
    | claim _ _ _ => exact .inl rfl
    | distributeNative l =>
      simp only [Distributor.exec] at h1
      obtain ⟨s', h1, _⟩ := bind_ok_iff.1 h1
      exact .inr (ht ▸ (Distributor.distributeNative_ok_iff.1 h1).2.1)
    | receiveCw20 k n =>
      simp only [Distributor.exec] at h1
      obtain ⟨s', h1, _⟩ := bind_ok_iff.1 h1
      exact .inr (ht ▸ (Distributor.receiveCw20_ok_iff.1 h1).2.2.1)

theorem History.seen {c : Cfg} (hw : c.Wf) (ht : c.Tame) {w w' : World} {t : List Entry} (h : History c w w' t)
    (hr : Reachable c w) (a : AssetInfo) : ∀ x ∈ t, Seen c w x.world ∧
      (x.distributed a = 0 ∨ x.world.dist.effective.sum (fun _ x => x) ≠ 0) := by
  have key := h.induct hw ht (P := fun w w' t => DistOk c w → Seen c w w' ∧ ∀ x ∈ t, Seen c w x.world ∧
      (x.distributed a = 0 ∨ x.world.dist.effective.sum (fun _ x => x) ≠ 0))
    (fun w h1 => ⟨⟨h1, fun _ h => h, fun h => h⟩, fun x hx => by cases hx⟩)
    (fun w l h1 => ⟨⟨⟨h1.admin, h1.inv⟩, fun _ h => h, fun h => h⟩, fun x hx => by cases hx⟩)
    (fun w b h1 => ⟨⟨⟨h1.admin, h1.inv⟩, fun _ h => h, fun h => h⟩, fun x hx => by cases hx⟩)
    (fun w w1 w2 t t' p1 p2 h1 => by
      obtain ⟨a1, a2⟩ := p1 h1
      obtain ⟨b1, b2⟩ := p2 a1.ok
      refine ⟨a1.trans b1, fun x hx => ?_⟩
      rcases List.mem_append.1 hx with hx | hx
      · exact a2 x hx
      · exact ⟨a1.trans (b2 x hx).1, (b2 x hx).2⟩)
    (fun w w1 s m subs e hb hk hx hh h1 => by
      obtain ⟨k1, k2⟩ := hh.dist hw hb hk hx h1
      refine ⟨⟨k1, fun v hv => k2 v hv, fun hv => handled_covers hw hb hk hx hh h1 hv⟩, fun x hx' => ?_⟩
      cases List.mem_singleton.1 hx'
      exact ⟨⟨h1, fun _ h => h, fun h => h⟩, handled_staked hx h1 a⟩) hr
  exact (key (hr.dist hw ht)).2

theorem dueOver_eq {c : Cfg} {w : World} {t : List Entry} (h : ∀ x ∈ t, Seen c w x.world) (hg : ∀ u, Agree w u) (u : Addr)
    (a : AssetInfo) : dueOver u a t = entitled u a t := by
  unfold dueOver entitled
  congr 1
  refine List.map_congr_left (fun x hx => ?_)
  rw [effective_sum (h x hx).ok.inv (fun v => (h x hx).agree v (hg v))]

theorem dueOver_le {c : Cfg} {w : World} (hg : AtLeast w) (u : Addr) (a : AssetInfo) : ∀ (t : List Entry),
    (∀ x ∈ t, Seen c w x.world) → dueOver u a t ≤ entitled u a t
  | [], _ => le_refl _
  | x :: t, h => by
    have ih := dueOver_le hg u a t (fun y hy => h y (List.mem_cons_of_mem _ hy))
    have hx := h x List.mem_cons_self
    have h1 := effective_sum_le hx.ok.inv (hx.covers hg)
    have h2 := stake_le x.world u
    refine add_le_add ?_ ih
    show (x.distributed a : ℚ) * stakeOf x.world u / (x.world.dist.effective.sum (fun _ w => w) : Nat) ≤
      (x.distributed a : ℚ) * stakeOf x.world u / allStakes x.world
    generalize x.world.dist.effective.sum (fun _ w => w) = n at *
    by_cases h0 : allStakes x.world = 0
    · have : stakeOf x.world u = 0 := by omega
      rw [this]
      simp
    · have hp : (0 : ℚ) < allStakes x.world := by exact_mod_cast Nat.pos_of_ne_zero h0
      have hq : ((allStakes x.world : Nat) : ℚ) ≤ n := by exact_mod_cast h1
      exact div_le_div_of_nonneg_left (by positivity) hp hq

end Verif.Dao
