import Verif.Dao.Rewards
import Verif.Dao.Sample

/-!
# The contracts of a DAO together: rewards are shared in proportion to the stakes (C125)
-/

set_option linter.unusedSimpArgs false

namespace Verif.Dao
open Verif

/-- C125: what the distributor divides by is what the members have staked, as the membership contract has it (those below
the minimum for rewards left out): with a minimum of zero, the total weight of the membership contract. -/
theorem C125_all_staked {c : Cfg} (hw : c.Wf) (ht : c.Tame) {w0 w : World} (h0 : Reachable c w0)
    (ha : ∀ u, (w0.dist.weights.get u).getD 0 = w0.mem.weight u) (h : Later c w0 w) :
    w.dist.total = allStakes w ∧ (w.dist.min = 0 → w.dist.total = w.mem.total .never) := by
  have hd := (h.reachable h0).dist hw ht
  have hg : ∀ u, Agree w u := fun u => h.dist hw ht h0 u (ha u)
  have h1 : w.dist.total = allStakes w := hd.inv.total.trans (effective_sum hd.inv hg)
  refine ⟨h1, fun hm => ?_⟩
  rw [h1, ((h.reachable h0).base hw ht).mem.total]
  unfold allStakes Members.wsum
  rw [hm]
  simp

/-- C125: nobody gets more than the part of the rewards that their stake gives them. Whatever happens in a DAO from its
creation, what a user has been paid of an asset and can still claim is at most the sum, over all distributions of that
asset, of the part of it that the user's stake in the membership contract was of all the stakes at that time. (The user
must start with the reward weight that is the user's voting weight, and nobody with less: a DAO with staking gives reward
weights to the members of its council, C70, which lowers the parts of the others.) -/
theorem C125_never_more {c : Cfg} (hw : c.Wf) (ht : c.Tame) {w0 w : World} {t : List Entry} (h0 : Genesis c w0)
    {u : Addr} (ha : (w0.dist.weights.get u).getD 0 = w0.mem.weight u)
    (hc : ∀ v, w0.mem.weight v ≤ (w0.dist.weights.get v).getD 0) (h : History c w0 w t) (a : AssetInfo) :
    ((paidOver u a t + Distributor.claimable w.dist u a : Nat) : ℚ) ≤ entitled u a t := by
  obtain ⟨_, _, hi⟩ := h0.dist
  have h1 := (h.fair hw ht (.init h0) ha a).most
  rw [Distributor.init_share hi, Nat.cast_zero, zero_add] at h1
  have h3 := dueOver_le hc u a t (fun x hx => (h.seen hw ht (.init h0) a x hx).1)
  have h2 : (ONE : ℚ) * Distributor.claimable w.dist u a ≤ Distributor.shareOf w.dist u a := by
    exact_mod_cast Distributor.claimable_le_share w.dist u a
  have hone : (0 : ℚ) < ONE := by norm_num [ONE]
  refine le_trans (le_of_mul_le_mul_left ?_ hone) h3
  rw [Nat.cast_add, mul_add]
  linarith

/-- C125: and everybody gets it but for rounding: less than one unit now, less than one unit for each claim of the user for
that asset, each change of the user's voting weight and each change of the minimum that makes the user eligible or not,
and the user's stake over 10^18 for each coin distributed. (Less than 2^128 units were distributed.) -/
theorem C125_within_rounding {c : Cfg} (hw : c.Wf) (ht : c.Tame) {w0 w : World} {t : List Entry} (h0 : Genesis c w0)
    (ha : ∀ u, (w0.dist.weights.get u).getD 0 = w0.mem.weight u) (h : History c w0 w t) (u : Addr) (a : AssetInfo)
    (hb : distributedOver a t < 2 ^ 128) :
    entitled u a t < ((paidOver u a t + Distributor.claimable w.dist u a : Nat) : ℚ) + 1 + lostOver c u a t := by
  obtain ⟨_, _, hi⟩ := h0.dist
  have hf := h.fair hw ht (.init h0) (ha u) a
  have ho : Distributor.owedOf w0.dist a = 0 := (Distributor.init_inv hi).2.2.2 a
  have hlt : Distributor.owedOf w0.dist a + ONE * distributedOver a t < ONE * M128 := by
    rw [ho, Nat.zero_add]
    exact Nat.mul_lt_mul_of_pos_left hb (by decide)
  have h1 := hf.least hlt
  rw [dueOver_eq (fun x hx => (h.seen hw ht (.init h0) a x hx).1) ha] at h1
  rw [Distributor.init_share hi, Nat.cast_zero, zero_add] at h1
  have h2 : (Distributor.shareOf w.dist u a : ℚ) < ONE * Distributor.claimable w.dist u a + ONE := by
    exact_mod_cast Distributor.share_lt_claimable hf.ok.inv.toCore u a (lt_of_le_of_lt hf.owed hlt)
  have hone : (0 : ℚ) < ONE := by norm_num [ONE]
  refine lt_of_mul_lt_mul_left ?_ hone.le
  rw [Nat.cast_add, mul_add, mul_add, mul_add, mul_one]
  linarith

/-- C125: the parts of all the members add up to what was distributed, so nothing is kept back or given to others. (`us`
has everybody who has had a stake.) -/
theorem C125_adds_up {c : Cfg} (hw : c.Wf) (ht : c.Tame) {w0 w : World} {t : List Entry} (h0 : Genesis c w0)
    (ha : ∀ u, (w0.dist.weights.get u).getD 0 = w0.mem.weight u) (h : History c w0 w t) (a : AssetInfo)
    (us : List Addr) (hn : us.Nodup) (hus : ∀ x ∈ t, ∀ u, x.world.mem.weight u ≠ 0 → u ∈ us) :
    (us.map (fun u => entitled u a t)).sum = distributedOver a t := by
  have hs : ∀ x ∈ t, x.distributed a = 0 ∨ allStakes x.world ≠ 0 := by
    intro x hx
    obtain ⟨h1, h2⟩ := h.seen hw ht (.init h0) a x hx
    rw [effective_sum h1.ok.inv (fun v => h1.agree v (ha v))] at h2
    exact h2
  clear h
  have hsum : ∀ (l : List Addr) (w : World) (k : ℚ), (l.map (fun u => k * (stakeOf w u : ℚ))).sum =
      k * ((l.map (stakeOf w)).sum : Nat) := by
    intro l w k
    induction l with
    | nil => simp
    | cons v l ihl => simp only [List.map_cons, List.sum_cons, ihl, Nat.cast_add, mul_add]
  have hadd : ∀ (l : List Addr) (f g : Addr → ℚ), (l.map (fun u => f u + g u)).sum = (l.map f).sum + (l.map g).sum := by
    intro l f g
    induction l with
    | nil => simp
    | cons v l ihl => simp only [List.map_cons, List.sum_cons, ihl]; ring
  induction t with
  | nil => simp [entitled, distributedOver]
  | cons x t ih =>
    have ih := ih (fun y hy => hus y (List.mem_cons_of_mem _ hy)) (fun y hy => hs y (List.mem_cons_of_mem _ hy))
    have e1 : distributedOver a (x :: t) = x.distributed a + distributedOver a t := rfl
    have e2 : ∀ u, entitled u a (x :: t) =
        ((x.distributed a : ℚ) / allStakes x.world) * stakeOf x.world u + entitled u a t := by
      intro u
      have : entitled u a (x :: t) = (x.distributed a : ℚ) * stakeOf x.world u / allStakes x.world + entitled u a t := rfl
      rw [this]
      ring
    simp only [e2]
    rw [hadd, ih, hsum, stakes_list us hn (hus x List.mem_cons_self), e1, Nat.cast_add]
    congr 1
    rcases hs x List.mem_cons_self with h1 | h1
    · rw [h1]; simp
    · have : ((allStakes x.world : Nat) : ℚ) ≠ 0 := by exact_mod_cast h1
      rw [div_mul_cancel₀ _ this]

/-! ### Example -/

/-- A history of transactions with no sub-messages to the modelled contracts. -/
def play (c : Cfg) : World → List Entry → List Step → Option (World × List Entry)
  | w, t, [] => some (w, t)
  | w, t, .tx e a m :: l =>
    match handle c e w a m with
    | .ok (w1, []) => if c.outsider a ∧ w.gov.pollCount + 1 < 2 ^ 64 then play c w1 (t ++ [⟨w, e, a, m⟩]) l else none
    | .ok (w1, [.other]) =>
      if c.outsider a ∧ w.gov.pollCount + 1 < 2 ^ 64 then play c w1 (t ++ [⟨w, e, a, m⟩]) l else none
    | _ => none
  | w, t, .block b :: l =>
    if w.block.height ≤ b.height ∧ w.block.time ≤ b.time then play c { w with block := b } t l else none

theorem play_history {c : Cfg} {w0 : World} : ∀ (l : List Step) {w : World} {t : List Entry} {r : World × List Entry},
    History c w0 w t → play c w t l = some r → History c w0 r.1 r.2
  | [], w, t, r, h, hr => by cases hr; exact h
  | .tx e a m :: l, w, t, r, h, hr => by
    have hnil : Calls c [] := fun i hi => by cases hi
    simp only [play] at hr
    split at hr
    · rename_i w1 hx
      split at hr
      · rename_i hk
        exact play_history l (.tx h hk.1 (.call e hk.2 hx (.nil _) (.nil _))) hr
      · cases hr
    · rename_i w1 hx
      split at hr
      · rename_i hk
        exact play_history l (.tx h hk.1 (.call e hk.2 hx (.other hnil (.nil _) (.nil _)) (.nil _))) hr
      · cases hr
    · cases hr
  | .block b :: l, w, t, r, h, hr => by
    simp only [play] at hr
    split at hr
    · rename_i hb
      exact play_history l (.block h hb.1 hb.2) hr
    · cases hr

/-- Coin 5 can be distributed. -/
def rewardExt : Ext := { sampleExt with global := [.native 5] }

/-- Members 10 and 11 stake 60 and 40, 101 coins are distributed, member 10 unstakes half, 7 coins are distributed, and
member 10 claims. -/
def rewardSteps : List Step :=
  [stake 10 60, stake 11 40, .tx rewardExt 12 (.dist (.distributeNative [(5, 101)])), unstake 10 30,
   .tx rewardExt 12 (.dist (.distributeNative [(5, 7)])), .tx rewardExt 10 (.dist (.claim 10 [5] []))]

/-- Hypotheses met: the exact parts are 101·60/100 + 7·30/70 = 63.6 for member 10, who was paid 63, and
101·40/100 + 7·40/70 = 44.4 for member 11, who can claim 44. -/
example : ∃ w t, Genesis sampleCfg sampleGenesis ∧ History sampleCfg sampleGenesis w t ∧
    (∀ u, (sampleGenesis.dist.weights.get u).getD 0 = sampleGenesis.mem.weight u) ∧
    distributedOver (.native 5) t = 108 ∧ w.dist.total = 70 ∧
    entitled 10 (.native 5) t = 636 / 10 ∧ entitled 11 (.native 5) t = 444 / 10 ∧
    paidOver 10 (.native 5) t = 63 ∧ Distributor.claimable w.dist 10 (.native 5) = 0 ∧
    paidOver 11 (.native 5) t = 0 ∧ Distributor.claimable w.dist 11 (.native 5) = 44 ∧
    lostOver sampleCfg 11 (.native 5) t = 1 + 80 / 10 ^ 18 ∧
    ∀ x ∈ t, ∀ u, x.world.mem.weight u ≠ 0 → u ∈ [10, 11] := by
  cases hp : play sampleCfg sampleGenesis [] rewardSteps with
  | none =>
    have : (play sampleCfg sampleGenesis [] rewardSteps).isSome = true := by decide +kernel
    rw [hp] at this
    cases this
  | some r =>
    have hr : r = ((play sampleCfg sampleGenesis [] rewardSteps).getD (sampleGenesis, [])) := by rw [hp]; rfl
    refine ⟨r.1, r.2, sample_genesis, play_history _ .start hp, ?_, ?_⟩
    · intro u
      have h1 : sampleGenesis.dist.weights = Map.empty := by decide +kernel
      rw [h1, Member.weight_eq]
      rfl
    · have hk : ∀ x ∈ r.2, ∀ u ∈ x.world.mem.mem.weights.keys, u ∈ [10, 11] := by
        rw [hr]
        decide +kernel
      have hu : ∀ x ∈ r.2, ∀ u, x.world.mem.weight u ≠ 0 → u ∈ [10, 11] := by
        intro x hx u hu
        rw [Member.weight_eq] at hu
        refine hk x hx u (Map.mem_keys.2 ?_)
        have hu : (x.world.mem.mem.weights.get u).getD 0 ≠ 0 := hu
        cases hg : x.world.mem.mem.weights.get u with
        | none => rw [hg] at hu; exact absurd rfl hu
        | some y => exact ⟨y, rfl⟩
      have hn : distributedOver (.native 5) r.2 = 108 ∧ r.1.dist.total = 70 ∧
          entitled 10 (.native 5) r.2 = 636 / 10 ∧ entitled 11 (.native 5) r.2 = 444 / 10 ∧
          paidOver 10 (.native 5) r.2 = 63 ∧ Distributor.claimable r.1.dist 10 (.native 5) = 0 ∧
          paidOver 11 (.native 5) r.2 = 0 ∧ Distributor.claimable r.1.dist 11 (.native 5) = 44 ∧
          lostOver sampleCfg 11 (.native 5) r.2 = 1 + 80 / 10 ^ 18 := by
        rw [hr]
        decide +kernel
      obtain ⟨h1, h2, h3, h4, h5, h6, h7, h8, h9⟩ := hn
      exact ⟨h1, h2, h3, h4, h5, h6, h7, h8, h9, hu⟩

end Verif.Dao
