import Verif.Dao.Props28
import Verif.Dao.Props17
import Verif.Distributor.Props8

/-!
# The contracts of a DAO together: anybody can make a change of the minimum weight for rewards as much work as wanted (C158)
-/

set_option linter.unusedSimpArgs false

namespace Verif.Dao
open Verif
open Verif.Distributor (turned weight)

/-! ### Lemmas -/

/-- One coin staked for somebody without weight. -/
theorem one_coin {c : Cfg} (hw : c.Wf) (ht : c.Tame) {w : World} (h : Reachable c w) {s : Staking.State}
    (hm : w.mem = .staking .denom s) {a u : Addr} (ho : c.outsider a) (e : Ext) (he : e.restricted u = false)
    (h0 : w.mem.weight u = 0) (h1 : w.mem.total .never + 1 < 2 ^ 128) (h2 : w.dist.total + 1 < 2 ^ 128) (hf : RewardsFit w)
    (room : w.gov.pollCount + 1 < 2 ^ 64) :
    ∃ w1 s1, Exec c w [.call a (.mem (.staking (.stakeDenom [⟨s.asset, 1⟩] (some u))))] w1 ∧ w1.mem = .staking .denom s1 ∧
      s1.asset = s.asset ∧ w1.block = w.block ∧ w1.gov.pollCount = w.gov.pollCount ∧ w1.dist.min = w.dist.min ∧
      RewardsFit w1 ∧ w1.mem.total .never = w.mem.total .never + 1 ∧ w1.dist.total ≤ w.dist.total + 1 ∧
      w1.mem.weight u = 1 ∧ (∀ v, v ≠ u → w1.mem.weight v = w.mem.weight v) ∧
      w1.dist.weights = w.dist.weights.set u 1 := by
  have hb := h.base hw ht
  have hd := h.dist hw ht
  have hwt : ∀ v, w.mem.weight v = s.mem.weight v := fun v => by rw [hm]; rfl
  have htt : w.mem.total .never = s.mem.total := by rw [hm]; rfl
  have hu0 : s.mem.weight u = 0 := by rw [← hwt]; exact h0
  obtain ⟨r, hr, hs⟩ : ∃ r, r = _ ∧ Staking.stakeFor s (c.menv e w a) u 1 = .ok r :=
    ⟨_, rfl, Staking.stakeFor_ok_iff.2 ⟨he, by rw [hu0]; decide, by rw [← htt]; unfold M128; exact h1, rfl⟩⟩
  have hr2 : r.2 = s.mem.report [⟨u, s.mem.weight u, s.mem.weight u + 1⟩] := by rw [hr]
  have hex : w.mem.exec ⟨c.menv e w a, e.proxy⟩ (.staking (.stakeDenom [⟨s.asset, 1⟩] (some u))) =
      .ok (.staking .denom r.1, w.mem.mem.report [⟨u, 0, 1⟩]) := by
    rw [hm]
    simp only [Member.exec]
    refine bind_ok_iff.2 ⟨r, ?_, ?_⟩
    · simp [Staking.exec, Staking.stakeDenom, Cfg.menv]
      exact hs
    · rw [hr2, hu0]; rfl
  -- the report
  obtain ⟨g, hg, _, _, _, hc⟩ := Gov.C10_update_votes hb.ctl.gov.reachable (now := w.block.time) (voter := u) (amount := 1)
    (by decide) (fun i p hp => hb.ctl.started i p (Controller.queryPoll_ok_iff.1 hp))
  obtain ⟨d, hd1⟩ := Distributor.raise_exists hd.inv hf (u := u) (n := 1) (by unfold M128; exact h2)
  have hadm : w.gov.admin = c.self := hb.ctl.gov.admin
  rw [hadm] at hg
  have hwc : Controller.weightsChanged (c.env e { w with mem := .staking .denom r.1 }) c.comps.membership w.gov [⟨u, 0, 1⟩] =
      .ok (g, [.distributor (.updateWeights [(u, 1)])]) := by
    refine Controller.weightsChanged_ok_iff.2 (Or.inr ⟨hw.both, rfl, ?_, rfl⟩)
    exact foldlM_cons_ok_iff.2 ⟨g, hg, rfl⟩
  have hdd : updateDist c e w.dist [.distributor (.updateWeights [(u, 1)])] = .ok d := by
    unfold updateDist
    refine bind_ok_iff.2 ⟨(d, []), ?_, rfl⟩
    simp only [Distributor.exec]
    refine bind_ok_iff.2 ⟨d, ?_, rfl⟩
    unfold Distributor.updateWeights
    exact ite_ok_iff.2 ⟨by simp [Ext.denv, hd.admin], foldlM_cons_ok_iff.2 ⟨d, hd1, rfl⟩⟩
  have hdel : deliver c e c.comps.membership { w with mem := .staking .denom r.1 } [.notify c.self [⟨u, 0, 1⟩]] =
      .ok ({ w with mem := .staking .denom r.1, gov := g, dist := d }, []) := by
    unfold deliver
    rw [if_pos rfl]
    exact bind_ok_iff.2 ⟨_, hwc, bind_ok_iff.2 ⟨_, hdd, rfl⟩⟩
  have hh : handle c e w a (.mem (.staking (.stakeDenom [⟨s.asset, 1⟩] (some u)))) =
      .ok ({ w with mem := .staking .denom r.1, gov := g, dist := d }, []) := by
    simp only [handle]
    refine bind_ok_iff.2 ⟨_, hex, ?_⟩
    rw [report_single hb.mem.hooks]
    exact hdel
  obtain ⟨_, q⟩ := Distributor.updateOne_ok hd.inv hd1
  unfold Distributor.updateOne at hd1
  obtain ⟨x, _, hd1⟩ := bind_ok_iff.1 hd1
  obtain ⟨t1, h3, hd1⟩ := bind_ok_iff.1 hd1
  obtain ⟨t2, h4, hd1⟩ := bind_ok_iff.1 hd1
  have hd1 := pure_ok_iff.1 hd1
  obtain ⟨_, h3⟩ := csub_ok.1 h3
  obtain ⟨_, h4⟩ := cadd128_ok.1 h4
  have hle : Distributor.effWeight 1 w.dist.min ≤ 1 := by unfold Distributor.effWeight; split <;> omega
  refine ⟨_, r.1, .call e room hh (.nil _) (.nil _), rfl, by rw [hr], rfl, hc, ?_, ?_, ?_, ?_, ?_, ?_, ?_⟩
  · show d.min = _
    rw [← hd1]
  · exact fun b => lt_of_le_of_lt (q.1.owed b) (hf b)
  · show r.1.mem.total = _
    rw [hr, htt]
    simp
  · show d.total ≤ _
    rw [← hd1]
    show t2 ≤ _
    simp only at h4
    omega
  · show r.1.mem.weight u = _
    rw [hr]
    simp [Members.saveTotal_weight, Members.weight_setWeight, hu0]
  · intro v hv
    show r.1.mem.weight v = _
    rw [hr, hwt]
    simp [Members.saveTotal_weight, Members.weight_setWeight, hv]
  · show d.weights = _
    rw [← hd1]

theorem coins {c : Cfg} (hw : c.Wf) (ht : c.Tame) {a : Addr} (ho : c.outsider a) (e : Ext) :
    ∀ (us : List Addr) {w : World} {s : Staking.State}, Reachable c w → w.mem = .staking .denom s → us.Nodup →
    (∀ u ∈ us, w.mem.weight u = 0) → (∀ u ∈ us, e.restricted u = false) → w.mem.total .never + us.length < 2 ^ 128 →
    w.dist.total + us.length < 2 ^ 128 → RewardsFit w → w.gov.pollCount + 1 < 2 ^ 64 →
    ∃ w', Acting c [a] w w' ∧ w'.block = w.block ∧ w'.dist.min = w.dist.min ∧ (∀ u ∈ us, w'.mem.weight u = 1) ∧
      (∀ v, v ∉ us → w'.mem.weight v = w.mem.weight v) ∧ (∀ u ∈ us, w'.dist.weights.get u = some 1) ∧
      ∀ v, v ∉ us → w'.dist.weights.get v = w.dist.weights.get v
  | [], w, s, _, _, _, _, _, _, _, _, _ => ⟨w, .refl, rfl, rfl, fun _ h => (by cases h), fun _ _ => rfl, fun _ h => (by cases h), fun _ _ => rfl⟩
  | u :: us, w, s, h, hm, hn, h0, he, h1, h2, hf, room => by
    rw [List.nodup_cons] at hn
    rw [List.length_cons] at h1 h2
    obtain ⟨w1, s1, hx, m1, _, b1, c1, n1, f1, t1, d1, u1, o1, k1⟩ := one_coin hw ht h hm (u := u) ho e (he u List.mem_cons_self)
      (h0 u List.mem_cons_self) (by omega) (by omega) hf room
    have hr1 : Reachable c w1 := h.tx ho hx
    obtain ⟨w', a2, b2, n2, u2, o2, k2, k3⟩ := coins hw ht ho e us hr1 m1 hn.2
      (fun v hv => by rw [o1 v (fun hh => hn.1 (hh ▸ hv))]; exact h0 v (List.mem_cons_of_mem _ hv))
      (fun v hv => he v (List.mem_cons_of_mem _ hv)) (by omega) (by omega) f1 (by omega)
    refine ⟨w', (Acting.tx .refl List.mem_cons_self hx).trans a2, b2.trans b1, n2.trans n1, ?_, ?_, ?_, ?_⟩
    · intro v hv
      rcases List.mem_cons.1 hv with rfl | hv
      · rw [o2 v hn.1, u1]
      · exact u2 v hv
    · intro v hv
      rw [o2 v (fun hh => hv (List.mem_cons_of_mem _ hh)), o1 v (fun hh => hv (hh ▸ List.mem_cons_self))]
    · intro v hv
      rcases List.mem_cons.1 hv with rfl | hv
      · rw [k3 v hn.1, k1, Map.get_set_self]
      · exact k2 v hv
    · intro v hv
      rw [k3 v (fun hh => hv (List.mem_cons_of_mem _ hh)), k1]
      exact Map.get_set_ne _ _ (fun hh => hv (by rw [← hh]; exact List.mem_cons_self))

/-! ## C158 -/

/-- **The work of a new minimum has no bound.** In a denom DAO anybody, alone and within a block, can bring about that a minimum
weight of two or more makes the distributor go through as many users as wanted, at the price of one coin for each. -/
theorem C158_crowd {c : Cfg} (hw : c.Wf) (ht : c.Tame) {w : World} (h : Reachable c w) {s : Staking.State}
    (hm : w.mem = .staking .denom s) {a : Addr} (ho : c.outsider a) (e : Ext) (us : List Addr) (hn : us.Nodup)
    (h0 : ∀ u ∈ us, w.mem.weight u = 0) (he : ∀ u ∈ us, e.restricted u = false) (hmin : w.dist.min ≤ 1)
    (h1 : w.mem.total .never + us.length < 2 ^ 128) (h2 : w.dist.total + us.length < 2 ^ 128) (hf : RewardsFit w)
    (room : w.gov.pollCount + 1 < 2 ^ 64) :
    ∃ w', Acting c [a] w w' ∧ w'.block = w.block ∧ w'.dist.min = w.dist.min ∧ (∀ u ∈ us, w'.mem.weight u = 1) ∧
      (∀ v, v ∉ us → w'.mem.weight v = w.mem.weight v) ∧ ∀ m, 2 ≤ m → us.length ≤ turned w'.dist m := by
  obtain ⟨w', a1, b1, n1, u1, o1, k1, _⟩ := coins hw ht ho e us h hm hn h0 he h1 h2 hf room
  refine ⟨w', a1, b1, n1, u1, o1, fun m hm2 => ?_⟩
  unfold turned
  refine List.Nodup.length_le_of_subset hn (fun u hu => ?_)
  refine List.mem_filter.2 ⟨Map.mem_keys.2 ⟨1, k1 u hu⟩, ?_⟩
  have hwu : weight w'.dist u = 1 := by
    unfold weight
    rw [k1 u hu]; rfl
  have e1 : w'.dist.min ≤ 1 := by rw [n1]; exact hmin
  have e2 : ¬ m ≤ 1 := by omega
  rw [hwu]
  simp [e1, e2]

/-! ### Examples -/

/-- Hypotheses met in the sample DAO, for fifty users. -/
example : ∃ w', Acting sampleCfg [10] (sampleRun [stake 10 60]) w' ∧ 50 ≤ turned w'.dist 2 := by
  obtain ⟨w', h1, _, _, _, _, h6⟩ := C158_crowd sampleCfg_wf sampleCfg_tame (sampleRun_reachable [stake 10 60]) (s := _) rfl (a := 10)
    (by decide +kernel) sampleExt (List.range' 1000 50) List.nodup_range' (by decide +kernel) (by decide +kernel)
    (by decide +kernel) (by decide +kernel) (by decide +kernel)
    (fun a => by rw [Distributor.owed_empty (by decide +kernel)]; decide) (by decide +kernel)
  exact ⟨w', h1, by have := h6 2 (le_refl _); rw [List.length_range'] at this; exact this⟩

end Verif.Dao
