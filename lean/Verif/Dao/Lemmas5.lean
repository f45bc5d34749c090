import Verif.Dao.Lemmas4
import Verif.Distributor.Lemmas2

/-!
# The contracts of a DAO together: configuration changes and reward weights
-/

set_option linter.unusedSimpArgs false

namespace Verif.Dao
open Verif
open Verif.Controller (DaoType Transfer Sub Info)
open Verif.Staking (Explains)

/-! ### Configuration -/

/-- What an execution does to the configuration: events only get added, and any change comes with the execution of the
actions of a proposal with such a change among them. -/
structure Ruled (w w' : World) (x : List Event) : Prop where
  log : w'.log = w.log ++ x
  config : w'.ctl.config = w.ctl.config ∨ ∃ id i ch, .ran id ∈ x ∧ w'.ctl.infos.get id = some i ∧
    Controller.Action.updateGovConfig ch ∈ i.actions
  council : w'.ctl.council = w.ctl.council ∨ ∃ id i sp, .ran id ∈ x ∧ w'.ctl.infos.get id = some i ∧
    Controller.Action.updateCouncil sp ∈ i.actions

theorem Ruled.trans {w w1 w2 : World} {x y : List Event} (h1 : Ruled w w1 x) (hm : Moved w1 w2)
    (h2 : Ruled w1 w2 y) : Ruled w w2 (x ++ y) := by
  have carry : ∀ {id : Nat} {i : Info}, w1.ctl.infos.get id = some i →
      ∃ i', w2.ctl.infos.get id = some i' ∧ i'.actions = i.actions := by
    intro id i hi
    obtain ⟨i', a1, _, _, a2, _⟩ := hm.step.infos id i hi
    exact ⟨i', a1, a2⟩
  refine ⟨by rw [h2.log, h1.log, List.append_assoc], ?_, ?_⟩
  · rcases h2.config with h | ⟨id, i, ch, a1, a2, a3⟩
    · rcases h1.config with h' | ⟨id, i, ch, a1, a2, a3⟩
      · exact Or.inl (h.trans h')
      · obtain ⟨i', b1, b2⟩ := carry a2
        exact Or.inr ⟨id, i', ch, List.mem_append_left _ a1, b1, by rw [b2]; exact a3⟩
    · exact Or.inr ⟨id, i, ch, List.mem_append_right _ a1, a2, a3⟩
  · rcases h2.council with h | ⟨id, i, ch, a1, a2, a3⟩
    · rcases h1.council with h' | ⟨id, i, ch, a1, a2, a3⟩
      · exact Or.inl (h.trans h')
      · obtain ⟨i', b1, b2⟩ := carry a2
        exact Or.inr ⟨id, i', ch, List.mem_append_left _ a1, b1, by rw [b2]; exact a3⟩
    · exact Or.inr ⟨id, i, ch, List.mem_append_right _ a1, a2, a3⟩

theorem ctl_ruled {e : Controller.Env} {u : Addr} {s : Controller.State} {g : Gov.State}
    {m : Controller.Msg} {r : Controller.State × Gov.State × List Sub} (h : Controller.exec e u s g m = .ok r) :
    (r.1.config = s.config ∧ r.1.council = s.council) ∨ ∃ id i, m = .executeActions id ∧ s.infos.get id = some i ∧
      r.1.infos = s.infos ∧ Controller.Configured e.daoType s r.1 i.actions := by
  have hcreate : m.isCreate = true → r.1.config = s.config ∧ r.1.council = s.council := by
    intro hm
    obtain ⟨i, cp, hc, _⟩ := Controller.created_exec hm h
    rw [hc.state]
    exact ⟨rfl, rfl⟩
  cases m with
  | createProposal p f => exact Or.inl (hcreate rfl)
  | createWithNft p l => exact Or.inl (hcreate rfl)
  | createCouncil p => exact Or.inl (hcreate rfl)
  | receive f a p => exact Or.inl (hcreate rfl)
  | castVote id o =>
    simp only [Controller.exec, bind_ok_iff, pure_ok_iff] at h
    obtain ⟨r1, h1, rfl⟩ := h
    obtain ⟨_, _, i, p, q, _, _, _, _, _, _, hs⟩ := Controller.castVote_ok_iff.1 h1
    left
    show r1.1.config = _ ∧ r1.1.council = _
    rw [hs]
    unfold Controller.voted
    split
    · unfold Controller.restartCooldown
      split <;> exact ⟨rfl, rfl⟩
    · exact ⟨rfl, rfl⟩
  | castCouncilVote id o =>
    simp only [Controller.exec, bind_ok_iff, pure_ok_iff] at h
    obtain ⟨r1, h1, rfl⟩ := h
    obtain ⟨_, _, _, i, hi, _, hadm, hg, hs⟩ := Controller.castCouncilVote_ok_iff.1 h1
    left
    show r1.1.config = _ ∧ r1.1.council = _
    rw [hs]
    exact ⟨rfl, rfl⟩
  | execute id =>
    simp only [Controller.exec] at h
    obtain ⟨_, inf, p, _, _, _, _, _, _, _, rfl⟩ := Controller.executeProposal_ok_iff.1 h
    exact Or.inl ⟨rfl, rfl⟩
  | weightsChanged l =>
    simp only [Controller.exec, bind_ok_iff, pure_ok_iff] at h
    obtain ⟨r1, h1, rfl⟩ := h
    exact Or.inl ⟨rfl, rfl⟩
  | executeActions id =>
    simp only [Controller.exec, bind_ok_iff, pure_ok_iff] at h
    obtain ⟨r1, h1, rfl⟩ := h
    obtain ⟨_, i, hi, h2⟩ := Controller.executeActions_ok_iff.1 h1
    have := (Controller.actAll_ok _ h2).1
    refine Or.inr ⟨id, i, rfl, hi, ?_, this⟩
    show r1.1.infos = _
    rw [this.same]
  | deployInitial =>
    simp only [Controller.exec, bind_ok_iff, pure_ok_iff] at h
    obtain ⟨r1, h1, rfl⟩ := h
    obtain ⟨_, _, rfl⟩ := Controller.deployInitial_ok_iff.1 h1
    exact Or.inl ⟨rfl, rfl⟩

theorem Handled.ruled {c : Cfg} {w w1 : World} {a : Addr} {m : Msg} {subs : List Item}
    (hh : Handled c w a m w1 subs) : ∃ x, Ruled w w1 x := by
  rcases hh.kind with ⟨e, m', r, rfl, hx⟩ | ⟨_, h1, h2, _⟩
  · have hw := hx.world
    refine ⟨ranOf m' ++ r.2.2.filterMap eventOf, ?_⟩
    rcases ctl_ruled hx.exec with ⟨h1, h2⟩ | ⟨id, i, rfl, hi, hinf, hc⟩
    · rw [hw]
      exact ⟨List.append_assoc _ _ _, Or.inl h1, Or.inl h2⟩
    · rw [hw]
      refine ⟨List.append_assoc _ _ _, ?_, ?_⟩
      · rcases hc.config with h | ⟨_, ch, h⟩
        · exact Or.inl h
        · exact Or.inr ⟨id, i, ch, List.mem_append_left _ List.mem_cons_self, by rw [hinf]; exact hi, h⟩
      · rcases hc.council with h | ⟨_, ch, h⟩
        · exact Or.inl h
        · exact Or.inr ⟨id, i, ch, List.mem_append_left _ List.mem_cons_self, by rw [hinf]; exact hi, h⟩
  · exact ⟨[], by rw [h2, List.append_nil], Or.inl (by rw [h1]), Or.inl (by rw [h1])⟩

theorem ruled_cases (c : Cfg) : Cases c (fun w _ w' => ∃ x, Ruled w w' x) := by
  have hcomp : ∀ {w w1 w2 : World}, (∃ x, Ruled w w1 x) → Moved w1 w2 → (∃ x, Ruled w1 w2 x) → ∃ x, Ruled w w2 x :=
    fun ⟨x, hx⟩ hm ⟨y, hy⟩ => ⟨x ++ y, hx.trans hm hy⟩
  refine ⟨fun w _ => ⟨[], by simp, Or.inl rfl, Or.inl rfl⟩, ?_, ?_, fun _ _ _ _ _ _ h => h, ?_, ?_⟩
  · intro w w1 w2 w3 a m subs rest e hb b2 b3 m2 m3 hk room hr hh p2 p3
    exact hcomp (hcomp hh.ruled m2 p2) m3 p3
  · intro w w1 w2 w3 id subs rest e hb b2 b3 m2 m3 room hr hh p2 p3
    exact hcomp (hcomp hh.ruled m2 p2) m3 p3
  · intro w w1 w2 id t calls rest hb b1 b2 hc m1 m2 p1 p2
    obtain ⟨x, hx⟩ := p1
    refine hcomp ⟨[.paid id t] ++ x, by rw [hx.log, List.append_assoc], ?_, ?_⟩ m2 p2
    · rcases hx.config with h | ⟨id, i, ch, h1, h2, h3⟩
      · exact Or.inl h
      · exact Or.inr ⟨id, i, ch, List.mem_append_right _ h1, h2, h3⟩
    · rcases hx.council with h | ⟨id, i, ch, h1, h2, h3⟩
      · exact Or.inl h
      · exact Or.inr ⟨id, i, ch, List.mem_append_right _ h1, h2, h3⟩
  · intro w w1 w2 calls rest hb b1 b2 hc m1 m2 p1 p2
    exact hcomp p1 m2 p2

/-! ### Reward weights -/

/-- Weight of a user in the funds distributor. -/
def rewardWeight (d : Distributor.State) (u : Addr) : Nat := (d.weights.get u).getD 0

/-- State of the distributor of a DAO. -/
structure DistOk (c : Cfg) (w : World) : Prop where
  admin : w.dist.admin = c.self
  inv : Distributor.Inv w.dist

theorem explained_weights (u : Addr) : ∀ (l : List WeightChange) (W : Map Addr Nat) (f f' : Addr → Nat), Explains f l f' →
    (W.get u).getD 0 = f u →
    (((l.map (fun ch => (ch.user, ch.new))).foldl (fun m p => m.set p.1 p.2) W).get u).getD 0 = f' u := by
  intro l
  induction l with
  | nil => intro W f f' h hu; rw [h u]; exact hu
  | cons ch t ih =>
    intro W f f' h hu
    rw [List.map_cons, List.foldl_cons]
    refine ih _ _ _ h.2 ?_
    simp only [Map.get_set]
    by_cases hc : u = ch.user
    · rw [if_pos hc, if_pos hc.symm]; rfl
    · rw [if_neg hc, if_neg (fun hh => hc hh.symm)]; exact hu

/-- Messages to the distributor other than `UpdateUserWeights`. -/
theorem dist_weights {d : Distributor.State} (hi : Distributor.Inv d) {e : Distributor.Env} {m : Distributor.Msg}
    {x : Distributor.State × List Distributor.Out} (hm : ∀ l, m ≠ .updateWeights l)
    (h : Distributor.exec d e m = .ok x) : x.1.weights = d.weights := by
  cases m with
  | updateWeights l => exact absurd rfl (hm l)
  | updateMin n =>
    simp only [Distributor.exec] at h
    obtain ⟨s', h1, h⟩ := bind_ok_iff.1 h
    cases pure_ok_iff.1 h
    obtain ⟨_, _, _, hw, _⟩ := Distributor.updateMin_ok hi h1
    exact hw
  | distributeNative l =>
    simp only [Distributor.exec] at h
    obtain ⟨s', h1, h⟩ := bind_ok_iff.1 h
    cases pure_ok_iff.1 h
    obtain ⟨_, _, n, h2, rfl⟩ := Distributor.distributeNative_ok_iff.1 h1
    rfl
  | claim u l t => exact (Distributor.claim_effect hi.toCore h).2.2.frame.2.2.1
  | receiveCw20 k n =>
    simp only [Distributor.exec] at h
    obtain ⟨s', h1, h⟩ := bind_ok_iff.1 h
    cases pure_ok_iff.1 h
    obtain ⟨_, _, _, c, h2, rfl⟩ := Distributor.receiveCw20_ok_iff.1 h1
    rfl

theorem Handled.dist {c : Cfg} (hw : c.Wf) {e : Ext} {w w1 : World} {a : Addr} {m : Msg} {subs : List Item}
    (hb : Base c w) (hk : Known c a m) (hr : handle c e w a m = .ok (w1, subs)) (hh : Handled c w a m w1 subs)
    (h : DistOk c w) : DistOk c w1 ∧ ∀ u, rewardWeight w.dist u = w.mem.weight u →
      rewardWeight w1.dist u = w1.mem.weight u := by
  cases m with
  | ctl m =>
    obtain ⟨r, hx⟩ := handle_ctl hr
    have hworld := hx.world
    simp only at hworld
    rw [hworld]
    exact ⟨⟨h.admin, h.inv⟩, fun u hu => hu⟩
  | gov m =>
    simp only [handle, bind_ok_iff, pure_ok_iff] at hr
    obtain ⟨g, _, hx⟩ := hr
    cases hx
    exact ⟨⟨h.admin, h.inv⟩, fun u hu => hu⟩
  | dist m =>
    simp only [handle, bind_ok_iff, pure_ok_iff] at hr
    obtain ⟨r, h1, h2⟩ := hr
    cases h2
    have hne : ∀ l, m ≠ .updateWeights l := by
      rintro l rfl
      rcases hk with hk | ⟨_, hk | ⟨id, hk⟩⟩
      · simp only [Distributor.exec] at h1
        obtain ⟨s', h3, _⟩ := bind_ok_iff.1 h1
        unfold Distributor.updateWeights at h3
        obtain ⟨h4, _⟩ := ite_ok_iff.1 h3
        have h4 : a = w.dist.admin := Classical.not_not.1 h4
        exact hk.1 (h4.trans h.admin)
      · cases hk
      · cases hk
    obtain ⟨i1, i2, _⟩ := Distributor.exec_ok h.inv h1
    refine ⟨⟨i2.trans h.admin, i1⟩, fun u hu => ?_⟩
    unfold rewardWeight
    show (r.1.weights.get u).getD 0 = _
    rw [dist_weights h.inv hne h1]
    exact hu
  | mem m =>
    have hm : a = c.self → m.tame = true := by
      intro ha
      rcases hk with hk | ⟨_, hk | ⟨id, hk⟩⟩
      · exact absurd ha hk.1
      · exact hk
      · cases hk
    have hs := handle_mem hw hb.mem hm hr
    simp only at hs
    rcases hs.gov with ⟨l, e', hex, _, _, d, hd, hd1⟩ | ⟨_, hd, hwt⟩
    · obtain ⟨i1, i2, _⟩ := Distributor.exec_ok h.inv hd
      refine ⟨⟨by rw [hd1]; exact i2.trans h.admin, by rw [hd1]; exact i1⟩, fun u hu => ?_⟩
      simp only [Distributor.exec] at hd
      obtain ⟨s', h3, h4⟩ := bind_ok_iff.1 hd
      cases pure_ok_iff.1 h4
      unfold Distributor.updateWeights at h3
      obtain ⟨_, h3⟩ := ite_ok_iff.1 h3
      obtain ⟨_, _, hwt⟩ := Distributor.updates_ok _ h.inv h3
      unfold rewardWeight
      rw [hd1, hwt]
      exact explained_weights u l _ _ _ hex hu
    · refine ⟨⟨by rw [hd]; exact h.admin, by rw [hd]; exact h.inv⟩, fun u hu => ?_⟩
      rw [hd, hwt]; exact hu
  | council m =>
    have hm : a = c.self → (Msg.council m).tame = true := by
      intro ha
      rcases hk with hk | ⟨_, hk | ⟨id, hk⟩⟩
      · exact absurd ha hk.1
      · exact hk
      · cases hk
    obtain ⟨_, h2, _⟩ := handle_council hb.council hm hr
    simp only at h2
    rw [h2]
    exact ⟨⟨h.admin, h.inv⟩, fun u hu => hu⟩

theorem dist_cases {c : Cfg} (hw : c.Wf) : Cases c (fun w _ w' => DistOk c w → DistOk c w' ∧
    ∀ u, rewardWeight w.dist u = w.mem.weight u → rewardWeight w'.dist u = w'.mem.weight u) := by
  refine ⟨fun _ _ h => ⟨h, fun _ hu => hu⟩, ?_, ?_, fun _ _ _ _ _ _ h => h, ?_, ?_⟩
  · intro w w1 w2 w3 a m subs rest e hb b2 b3 m2 m3 hk room hr hh p2 p3 h
    have hk : Known c a m := by
      rcases hk with hk | ⟨hk, hm⟩
      · exact Or.inl hk
      · exact Or.inr ⟨hk, Or.inl hm⟩
    obtain ⟨a1, a2⟩ := hh.dist hw hb hk hr h
    obtain ⟨b1, b2⟩ := p2 a1
    obtain ⟨c1, c2⟩ := p3 b1
    exact ⟨c1, fun u hu => c2 u (b2 u (a2 u hu))⟩
  · intro w w1 w2 w3 id subs rest e hb b2 b3 m2 m3 room hr hh p2 p3 h
    obtain ⟨a1, a2⟩ := hh.dist hw hb (Or.inr ⟨rfl, Or.inr ⟨id, rfl⟩⟩) hr h
    obtain ⟨b1, b2⟩ := p2 a1
    obtain ⟨c1, c2⟩ := p3 b1
    exact ⟨c1, fun u hu => c2 u (b2 u (a2 u hu))⟩
  · intro w w1 w2 id t calls rest hb b1 b2 hc m1 m2 p1 p2 h
    obtain ⟨b1, b2⟩ := p1 ⟨h.admin, h.inv⟩
    obtain ⟨c1, c2⟩ := p2 b1
    exact ⟨c1, fun u hu => c2 u (b2 u hu)⟩
  · intro w w1 w2 calls rest hb b1 b2 hc m1 m2 p1 p2 h
    obtain ⟨b1, b2⟩ := p1 h
    obtain ⟨c1, c2⟩ := p2 b1
    exact ⟨c1, fun u hu => c2 u (b2 u hu)⟩

theorem Reachable.dist {c : Cfg} (hw : c.Wf) (ht : c.Tame) {w : World} (h : Reachable c w) : DistOk c w := by
  induction h with
  | @init w h =>
    obtain ⟨m, l, hl⟩ := h.dist
    obtain ⟨h1, h2, _⟩ := Distributor.init_inv hl
    exact ⟨h2, h1⟩
  | @tx w w1 a m h ha hx ih =>
    obtain ⟨_, _, hl⟩ := hx.induct hw ht (dist_cases hw)
      (fun i hi => by rw [List.mem_singleton.1 hi]; exact Or.inl ha) (h.base hw ht)
    exact (hl ih).1
  | block h _ _ ih => exact ⟨ih.admin, ih.inv⟩

theorem Later.reachable {c : Cfg} {w w' : World} (h : Later c w w') (hr : Reachable c w) : Reachable c w' := by
  induction h with
  | refl => exact hr
  | tx _ ha hx ih => exact .tx ih ha hx
  | block _ hh ht ih => exact .block ih hh ht

theorem Later.moved {c : Cfg} (hw : c.Wf) (ht : c.Tame) {w w' : World} (h : Later c w w') (hr : Reachable c w) :
    CtlStep w.ctl w'.ctl w.gov w'.gov ∧ w'.mem.daoType = w.mem.daoType := by
  induction h with
  | refl => exact ⟨CtlStep.refl _ _, rfl⟩
  | tx h ha hx ih =>
    have hm := (hx.moved hw ht (fun i hi => by rw [List.mem_singleton.1 hi]; exact Or.inl ha)
      ((h.reachable hr).base hw ht)).2
    exact ⟨ih.1.trans hm.step, hm.type.trans ih.2⟩
  | block _ _ _ ih => exact ih

theorem Later.dist {c : Cfg} (hw : c.Wf) (ht : c.Tame) {w w' : World} (h : Later c w w') (hr : Reachable c w) :
    ∀ u, rewardWeight w.dist u = w.mem.weight u → rewardWeight w'.dist u = w'.mem.weight u := by
  induction h with
  | refl => exact fun _ hu => hu
  | tx h ha hx ih =>
    have hr1 := h.reachable hr
    obtain ⟨_, _, hl⟩ := hx.induct hw ht (dist_cases hw)
      (fun i hi => by rw [List.mem_singleton.1 hi]; exact Or.inl ha) (hr1.base hw ht)
    exact fun u hu => (hl (hr1.dist hw ht)).2 u (ih u hu)
  | block _ _ _ ih => exact ih

end Verif.Dao
