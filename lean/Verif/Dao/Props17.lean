import Verif.Dao.Props12
import Verif.Dao.Props16

/-!
# The contracts of a DAO together: a large enough group of members can act alone (C134)

From any state of a DAO, members with enough weight can have any proposal passed that can be made, and amend the rules,
without anybody else doing anything.
-/

set_option linter.unusedSimpArgs false

namespace Verif.Dao
open Verif
open Verif.Controller (Action GovConfig GovChange CouncilConfig CouncilSpec Info Changed ValidConfig ValidSpec Proposable)
open Verif.Staking (Duration)

/-! ### Specification -/

/-- `w'` comes after `w`, and only members of the group `l` acted in between. -/
inductive Acting (c : Cfg) (l : List Addr) (w : World) : World → Prop
  | refl : Acting c l w w
  | tx {w1 w2 : World} {a : Addr} {m : Msg} (h : Acting c l w w1) (ha : a ∈ l) (hx : Exec c w1 [.call a m] w2) :
      Acting c l w w2
  | block {w1 : World} {b : Block} (h : Acting c l w w1) (hh : w1.block.height ≤ b.height)
      (ht : w1.block.time ≤ b.time) : Acting c l w { w1 with block := b }

/-- The accounts of the list. -/
def among (l : List Addr) (u : Addr) : Bool := decide (u ∈ l)

/-- A group of members who are accounts outside of the DAO, and who together have more than half of the weight, the shares
that quorum and threshold ask for, and against whom the others lack the share for a veto. -/
structure Leads (c : Cfg) (w : World) (l : List Addr) : Prop where
  members : ∀ u ∈ l, c.outsider u ∧ 0 < w.mem.weight u
  half : weighing w (fun u => !among l u) < weighing w (among l)
  quorum : HasShare w (among l) w.ctl.config.quorum
  threshold : HasShare w (among l) w.ctl.config.threshold
  veto : OthersLack w (among l) (w.ctl.config.veto.getD w.ctl.config.threshold)

/-! ### Lemmas -/

theorem Acting.later {c : Cfg} {l : List Addr} {w w' : World} (hl : ∀ u ∈ l, c.outsider u) (h : Acting c l w w') :
    Later c w w' := by
  induction h with
  | refl => exact .refl
  | tx _ ha hx ih => exact .tx ih (hl _ ha) hx
  | block _ hh ht ih => exact .block ih hh ht

theorem Acting.trans {c : Cfg} {l : List Addr} {w w1 w2 : World} (h1 : Acting c l w w1) (h2 : Acting c l w1 w2) :
    Acting c l w w2 := by
  induction h2 with
  | refl => exact h1
  | tx _ ha hx ih => exact .tx ih ha hx
  | block _ hh ht ih => exact .block ih hh ht

/-- While a proposal is voted on, this stays as it is. -/
structure Voting (w0 w : World) (id : Nat) (l : List Action) (ends : Nat) : Prop where
  mem : w.mem = w0.mem
  council : w.council = w0.council
  dist : w.dist = w0.dist
  block : w.block = w0.block
  config : w.ctl.config = w0.ctl.config
  rules : w.ctl.council = w0.ctl.council
  count : w.gov.pollCount = w0.gov.pollCount + 1
  unresolved : outcome w id = none
  info : ∃ i, w.ctl.infos.get id = some i ∧ i.type = .general ∧ i.actions = l
  poll : ∃ p, w.gov.polls.get id = some p ∧ p.endsAt = ends ∧ p.quorum = w0.ctl.config.quorum ∧
    p.threshold = w0.ctl.config.threshold ∧ p.vetoThreshold = w0.ctl.config.veto

/-- The creation of a proposal by a member. -/
theorem created_alone {c : Cfg} (hw : c.Wf) (ht : c.Tame) {w : World} (h : Reachable c w) {a : Addr} (e : Ext)
    (hr : e.restricted a = false) (hm : 0 < w.mem.weight a) (hd : w.ctl.config.minDeposit = none ∨ w.mem.daoType = .denom)
    (hfit : w.block.time + w.ctl.config.voteDuration * 10 ^ 9 < 2 ^ 64) (room : w.gov.pollCount + 1 < 2 ^ 64)
    (t d : Nat) {l : List Action} (hten : l.length ≤ 10) (hl : ∀ x ∈ l, Proposable (c.env e w) w.ctl.config x) :
    ∃ f w1, handle c e w a (.ctl (.createProposal ⟨t, d, l, none⟩ f)) = .ok (w1, []) ∧
      Voting w w1 (w.gov.pollCount + 1) l (w.block.time + w.ctl.config.voteDuration * 10 ^ 9) := by
  have hb := h.base hw ht
  have hcfg := hb.ctl.config
  have hden : w.mem.daoType = .denom → ∃ x, w.mem.denom = some x := by
    cases w.mem with
    | staking k s => cases k <;> simp [Member.daoType, Member.denom]
    | nft s => simp [Member.daoType]
    | multisig s => simp [Member.daoType]
  have hsent : ∀ f, Controller.WellSent (c.env e w) a (.createProposal ⟨t, d, l, none⟩ f) := by
    intro f hk
    obtain ⟨x, hx⟩ := hden hk
    show w.mem.denom ≠ none
    rw [hx]
    exact fun hn => by cases hn
  obtain ⟨f, hf⟩ : ∃ f, (w.ctl.config.minDeposit = none ∧ (c.env e w).weight a ≠ 0) ∨
      ∃ x, w.ctl.config.minDeposit = some x ∧
        x ≤ ((Controller.depositOf (c.env e w) a (.createProposal ⟨t, d, l, none⟩ f) ⟨t, d, l, none⟩).map
          Controller.Deposit.amount).getD 0 := by
    cases hmin : w.ctl.config.minDeposit with
    | none => exact ⟨[], Or.inl ⟨rfl, Nat.pos_iff_ne_zero.1 hm⟩⟩
    | some x =>
      rw [hmin] at hd
      have hk : w.mem.daoType = .denom := by
        rcases hd with hd | hd
        · cases hd
        · exact hd
      obtain ⟨y, hy⟩ := hden hk
      refine ⟨[(y, x)], Or.inr ⟨x, rfl, ?_⟩⟩
      have h1 : Controller.attachedAsset (c.env e w) a (.createProposal ⟨t, d, l, none⟩ [(y, x)]) = some (.denom y x) := by
        unfold Controller.attachedAsset
        simp only
        rw [if_pos (show (c.env e w).daoType = .denom from hk), show (c.env e w).denom = some y from hy]
        simp
      unfold Controller.depositOf
      rw [h1]
      exact le_refl _
  have hx := (Controller.general_ok_iff (e := c.env e w) (u := a) (s := w.ctl) (g := w.gov)
    (m := .createProposal ⟨t, d, l, none⟩ f) rfl (r := (w.ctl.added _ _, _, []))).2
    ⟨_, rfl, hsent f, Controller.createProposal_ok_iff.2 ⟨hr, hf, hten,
      fun x hx => Controller.proposable_iff.2 (hl x hx), hb.ctl.gov.admin.symm,
      (Controller.newPoll_ok_iff hfit).2 ⟨hcfg.threshold.2, hcfg.duration, rfl⟩, rfl⟩, rfl⟩
  have ht := Controller.C89_general_terms rfl rfl hx hfit room
  obtain ⟨h1, h2, _, _, h5, _, h7, h8, _⟩ := ht
  have h1 := Controller.queryPoll_ok_iff.1 h1
  refine ⟨f, _, bind_ok_iff.2 ⟨_, hx, rfl⟩, ⟨rfl, rfl, rfl, rfl, h7, h8, h5, ?_, ⟨_, h2, rfl, rfl⟩, ⟨_, h1, rfl, rfl, rfl, rfl⟩⟩⟩
  unfold outcome
  simp only
  rw [h1, h2]
  rfl

/-- The vote of a member. -/
theorem voted_alone {c : Cfg} (hw : c.Wf) (ht : c.Tame) {w0 w : World} (h : Reachable c w) {id : Nat} {l : List Action}
    {ends : Nat} (hv : Voting w0 w id l ends) {a : Addr} (e : Ext) (hr : e.restricted a = false)
    (hm : 0 < w0.mem.weight a) (hends : w0.block.time < ends) :
    ∃ w1, handle c e w a (.ctl (.castVote id .yes)) = .ok (w1, []) ∧ Voting w0 w1 id l ends ∧
      choice w1 id a = some .yes ∧ ∀ u, choice w id u = some .yes → choice w1 id u = some .yes := by
  obtain ⟨i, hi, hg, hact⟩ := hv.info
  obtain ⟨p, hp, hpe, hpq, hpt, hpv⟩ := hv.poll
  obtain ⟨⟨w1, subs⟩, hx⟩ := (C118_vote_accepted_iff hw ht h e a id .yes).2
    ⟨hr, by rw [hv.mem]; exact hm, i, p, hi, hg, Controller.queryPoll_ok_iff.2 hp, hv.unresolved,
      by rw [hv.block, hpe]; exact hends⟩
  obtain ⟨rfl, h1, h2, h3, h4, h5, h6⟩ := C118_vote_effect hx
  have hch : choice w1 id a = some .yes := by
    unfold choice
    rw [h1]
    rfl
  refine ⟨w1, hx, ?_, hch, fun u hu => ?_⟩
  · obtain ⟨x, hx⟩ := handle_ctl hx
    have he := hx.exec
    simp only [Controller.exec, bind_ok_iff, pure_ok_iff] at he
    obtain ⟨y, hy, rfl⟩ := he
    obtain ⟨_, _, i', p', q, k3, _, k5, _, k6, k7, k8⟩ := Controller.castVote_ok_iff.1 hy
    obtain ⟨_, _, p'', k9, _, _, _, k10⟩ := Gov.castVote_ok_iff.1 k6
    have k3 : w.ctl.infos.get id = some i' := k3
    rw [hi] at k3; cases k3
    rw [hp] at k5; cases k5
    rw [hp] at k9; cases k9
    have hw1 := hx.world
    simp only at hw1
    have hinf : y.1.config = w.ctl.config ∧ y.1.council = w.ctl.council ∧
        ∃ f, y.1.infos.get id = some { i with earliest := f } := by
      rw [k8]
      unfold Controller.voted Controller.restartCooldown
      split
      · split
        · exact ⟨rfl, rfl, _, Map.get_set_self _ _ _⟩
        · exact ⟨rfl, rfl, i.earliest, hi⟩
      · exact ⟨rfl, rfl, i.earliest, hi⟩
    obtain ⟨f1, f2, f, f3⟩ := hinf
    refine ⟨by rw [h3]; exact hv.mem, by rw [h4]; exact hv.council, by rw [h5]; exact hv.dist, by rw [hw1]; exact hv.block,
      by rw [hw1]; exact f1.trans hv.config, by rw [hw1]; exact f2.trans hv.rules, ?_, by rw [h6]; exact hv.unresolved,
      ⟨{ i with earliest := f }, by rw [hw1]; exact f3, hg, hact⟩, ?_⟩
    · rw [hw1]
      simp only
      rw [k10]
      exact hv.count
    · rw [hw1]
      simp only
      rw [k10]
      have ht := Gov.terms_recount p (w.gov.votes.get (Gov.vkey a id)) .yes ((c.env e w).weight a)
      exact ⟨_, Map.get_set_self _ _ _, (Gov.terms_endsAt ht).trans hpe, (congrArg Gov.Terms.quorum ht).trans hpq,
        (congrArg Gov.Terms.threshold ht).trans hpt, (congrArg Gov.Terms.vetoThreshold ht).trans hpv⟩
  · by_cases hua : u = a
    · rw [hua]; exact hch
    · unfold choice
      rw [h2 id u (fun hk => hua hk.2)]
      exact hu

/-- The votes of a group. -/
theorem group_votes {c : Cfg} (hw : c.Wf) (ht : c.Tame) {G : List Addr} (e : Ext) {w0 : World} {id : Nat}
    {l : List Action} {ends : Nat} (hends : w0.block.time < ends) (room : w0.gov.pollCount + 2 < 2 ^ 64)
    (hG : ∀ u ∈ G, c.outsider u ∧ 0 < w0.mem.weight u) (he : ∀ u ∈ G, e.restricted u = false) :
    ∀ (k : List Addr) {w : World}, (∀ u ∈ k, u ∈ G) → Reachable c w → Voting w0 w id l ends →
    ∃ w1, Acting c G w w1 ∧ Reachable c w1 ∧ Voting w0 w1 id l ends ∧ (∀ u ∈ k, choice w1 id u = some .yes) ∧
      ∀ u, choice w id u = some .yes → choice w1 id u = some .yes := by
  intro k
  induction k with
  | nil => intro w _ hr hv; exact ⟨w, .refl, hr, hv, fun u hu => (List.not_mem_nil hu).elim, fun u hu => hu⟩
  | cons a k ih =>
    intro w hk hr hv
    have ha := hk a List.mem_cons_self
    obtain ⟨w1, h1, h2, h3, h4⟩ := voted_alone hw ht hr hv e (he a ha) (hG a ha).2 hends
    have hx : Exec c w [.call a (.ctl (.castVote id .yes))] w1 :=
      .call e (by rw [hv.count]; omega) h1 (.nil _) (.nil _)
    obtain ⟨w2, k1, k2, k3, k4, k5⟩ := @ih w1 (fun u hu => hk u (List.mem_cons_of_mem _ hu)) (hr.tx (hG a ha).1 hx) h2
    refine ⟨w2, Acting.trans (.tx .refl ha hx) k1, k2, k3, fun u hu => ?_, fun u hu => k5 u (h4 u hu)⟩
    rcases List.mem_cons.1 hu with rfl | hu
    · exact k5 u h3
    · exact k4 u hu

theorem weighing_congr {w w' : World} (h : w'.mem = w.mem) (P : Addr → Bool) : weighing w' P = weighing w P := by
  unfold weighing
  rw [h]

/-- An accepted execution can be completed, and has the same outcome. -/
theorem executed_run {c : Cfg} (hw : c.Wf) (ht : c.Tame) {w w1 : World} (h : Reachable c w) {e : Ext} {a : Addr}
    {id : Nat} {subs : List Item} (hx : handle c e w a (.ctl (.execute id)) = .ok (w1, subs))
    (room : w.gov.pollCount + 1 < 2 ^ 64) :
    ∃ w' st, Exec c w [.call a (.ctl (.execute id))] w' ∧ outcome w' id = some st ∧ outcome w1 id = some st ∧
      (isPassed st = true → Event.sent id ∈ w'.log) ∧ w'.block = w.block ∧
      ∀ i, w.ctl.infos.get id = some i → ∃ i', w'.ctl.infos.get id = some i' ∧ i'.type = i.type ∧
        i'.actions = i.actions := by
  obtain ⟨i, p, st, hi, hp, _, hw1, hs⟩ := execute_effect hw ht h hx
  have hdep : ∀ (l : List Controller.Transfer) (v : World),
      Exec c v (l.map (.deposit id)) { v with log := v.log ++ l.map (.paid id) } := by
    intro l
    induction l with
    | nil => intro v; simp only [List.map_nil, List.append_nil]; exact .nil v
    | cons t l ih =>
      intro v
      have := ih { v with log := v.log ++ [.paid id t] }
      simp only [List.append_assoc, List.singleton_append] at this
      exact .deposit (calls := []) (fun j hj => by cases hj) (.nil _) this
  refine ⟨{ w1 with log := w1.log ++ (owed c.comps.treasury i st).map (.paid id) }, st, ?_, ?_, ?_, fun hps => ?_, ?_,
    fun i' hi' => ?_⟩
  · refine .call e room hx ?_ (.nil _)
    rw [hs]
    cases isPassed st with
    | false => exact hdep _ w1
    | true => exact .failed (hdep _ w1)
  · rw [hw1, outcome_of (i := { i with executedAt := some w.block }) (p := { p with status := st })]
    · rfl
    · simp only [Map.get_set, if_true]
    · simp only [Map.get_set, if_true]
  · rw [hw1, outcome_of (i := { i with executedAt := some w.block }) (p := { p with status := st })]
    · rfl
    · simp only [Map.get_set, if_true]
    · simp only [Map.get_set, if_true]
  · refine List.mem_append_left _ ?_
    rw [hw1, hps]
    exact List.mem_append_right _ (List.mem_singleton.2 rfl)
  · rw [hw1]
  · rw [hi] at hi'
    cases hi'
    rw [hw1]
    exact ⟨_, Map.get_set_self _ _ _, rfl, rfl⟩

/-- A group that leads brings its proposal to the end of voting; whoever then executes it has it passed. -/
theorem brought {c : Cfg} (hw : c.Wf) (ht : c.Tame) {w : World} (h : Reachable c w) {G : List Addr} (hG : Leads c w G)
    (e : Ext) (he : ∀ u ∈ G, e.restricted u = false) (hd : w.ctl.config.minDeposit = none ∨ w.mem.daoType = .denom)
    (hfit : w.block.time + w.ctl.config.voteDuration * 10 ^ 9 < 2 ^ 64) (room : w.gov.pollCount + 2 < 2 ^ 64)
    (t d : Nat) {l : List Action} (hten : l.length ≤ 10) (hl : ∀ x ∈ l, Proposable (c.env e w) w.ctl.config x) :
    ∃ a ∈ G, ∃ w1 b, Acting c G w { w1 with block := b } ∧ Reachable c { w1 with block := b } ∧
      Voting w w1 (w.gov.pollCount + 1) l (w.block.time + w.ctl.config.voteDuration * 10 ^ 9) ∧
      b.time = w.block.time + w.ctl.config.voteDuration * 10 ^ 9 ∧
      ∃ w2 subs o n, handle c e { w1 with block := b } a (.ctl (.execute (w.gov.pollCount + 1))) = .ok (w2, subs) ∧
        outcome w2 (w.gov.pollCount + 1) = some (.passed o n) := by
  have hb := h.base hw ht
  have hdur := hb.ctl.config.duration
  obtain ⟨a, ha⟩ : ∃ a, a ∈ G := by
    by_contra hno
    have hempty : ∀ u, among G u = false := fun u => decide_eq_false (fun hu => hno ⟨u, hu⟩)
    have hz : weighing w (among G) = 0 := by
      have : weighing w (among G) = weighing w (fun _ => false) := by
        congr 1
        funext u
        exact hempty u
      rw [this]
      unfold weighing
      exact Map.sum_zero _
    have := hG.half
    omega
  obtain ⟨f, w1, h1, hv1⟩ := created_alone hw ht h e (he a ha) (hG.members a ha).2 hd hfit (by omega) t d hten hl
  have hx1 : Exec c w [.call a (.ctl (.createProposal ⟨t, d, l, none⟩ f))] w1 :=
    .call e (by omega) h1 (.nil _) (.nil _)
  obtain ⟨w2, k1, k2, k3, k4, _⟩ := group_votes hw ht e (by omega) room hG.members he G (fun u hu => hu)
    (h.tx (hG.members a ha).1 hx1) hv1
  obtain ⟨i, hi, hg, hact⟩ := k3.info
  obtain ⟨p, hp, hpe, hpq, hpt, hpv⟩ := k3.poll
  have hend : Ending c w2 (w.gov.pollCount + 1) i p ⟨w.block.height, w.block.time + w.ctl.config.voteDuration * 10 ^ 9⟩ := by
    refine ⟨k2, hi, hg, Controller.queryPoll_ok_iff.2 hp, k3.unresolved, ?_, ?_, ?_⟩
    · rw [k3.block, hpe, Nat.add_mul_div_right _ _ (by norm_num)]
      omega
    · rw [hpe]
    · rw [k3.block]
  have hcong := weighing_congr k3.mem
  have hblk : Acting c G w { w2 with block := ⟨w.block.height, w.block.time + w.ctl.config.voteDuration * 10 ^ 9⟩ } :=
    .block (Acting.trans (.tx .refl ha hx1) k1) (by rw [k3.block]) (by rw [k3.block]; exact Nat.le_add_right _ _)
  have hpass := C122_group_passes hw ht hend (among G) (fun u hu => k4 u (of_decide_eq_true hu))
    (by rw [hcong, hcong]; exact hG.half)
    (by unfold HasShare; rw [hcong, hcong, hpq]; exact hG.quorum)
    (by unfold HasShare; rw [hcong, hcong, hpt]; exact hG.threshold)
    (by unfold OthersLack; rw [hcong, hcong, hpv, hpt]; exact hG.veto) .refl
  have hunres : outcome { w2 with block := ⟨w.block.height, w.block.time + w.ctl.config.voteDuration * 10 ^ 9⟩ }
      (w.gov.pollCount + 1) = none := k3.unresolved
  have hrb := (hblk.later (fun u hu => (hG.members u hu).1)).reachable h
  have hroom : w2.gov.pollCount + 1 < 2 ^ 64 := by rw [k3.count]; omega
  obtain ⟨⟨⟨r, subs⟩, hr⟩, _⟩ := hpass.2 hunres hroom a (hG.members a ha).1 e (he a ha)
  obtain ⟨w3, st, m1, m2, m3, _⟩ := executed_run hw ht hrb hr hroom
  have hps := (C122_group_passes hw ht hend (among G) (fun u hu => k4 u (of_decide_eq_true hu))
    (by rw [hcong, hcong]; exact hG.half)
    (by unfold HasShare; rw [hcong, hcong, hpq]; exact hG.quorum)
    (by unfold HasShare; rw [hcong, hcong, hpt]; exact hG.threshold)
    (by unfold OthersLack; rw [hcong, hcong, hpv, hpt]; exact hG.veto) (.tx .refl (hG.members a ha).1 m1)).1 st m2
  obtain ⟨o, n, rfl⟩ : ∃ o n, st = .passed o n := by
    cases st with
    | passed o n => exact ⟨o, n, rfl⟩
    | inProgress z => cases hps
    | rejected z => cases hps
  exact ⟨a, ha, w2, _, hblk, hrb, k3, rfl, r, subs, o, n, hr, m3⟩

theorem amendable_proposable {e : Controller.Env} {cfg g g' : GovConfig} {l : List Action} (h : Amendable e.daoType g l g') :
    (∀ ch, .updateGovConfig ch ∈ l → ∃ x, Changed cfg ch x ∧ ValidConfig e.daoType x) →
    ∀ x ∈ l, Proposable e cfg x := by
  induction h with
  | nil g => intro _ x hx; cases hx
  | config _ _ _ _ ih =>
    intro hc x hx
    rcases List.mem_cons.1 hx with rfl | hx
    · exact hc _ List.mem_cons_self
    · exact ih (fun ch hch => hc ch (List.mem_cons_of_mem _ hch)) x hx
  | council h _ ih =>
    intro hc x hx
    rcases List.mem_cons.1 hx with rfl | hx
    · exact h
    · exact ih (fun ch hch => hc ch (List.mem_cons_of_mem _ hch)) x hx
  | members ht h _ ih =>
    intro hc x hx
    rcases List.mem_cons.1 hx with rfl | hx
    · exact ⟨ht, h⟩
    · exact ih (fun ch hch => hc ch (List.mem_cons_of_mem _ hch)) x hx
  | minimum _ ih =>
    intro hc x hx
    rcases List.mem_cons.1 hx with rfl | hx
    · trivial
    · exact ih (fun ch hch => hc ch (List.mem_cons_of_mem _ hch)) x hx

/-! ## C134 -/

/-- Whatever the state of the DAO: if members lead, nobody of them is restricted, no deposit is asked for (or one in coins, which
they attach), and the voting period ends before the clock does, then they can have any proposal of at most ten actions passed that can be made. Nobody
else has to act, and it takes no longer than the voting period. -/
theorem C134_passes {c : Cfg} (hw : c.Wf) (ht : c.Tame) {w : World} (h : Reachable c w) {G : List Addr}
    (hG : Leads c w G) (e : Ext) (he : ∀ u ∈ G, e.restricted u = false) (hd : w.ctl.config.minDeposit = none ∨ w.mem.daoType = .denom)
    (hfit : w.block.time + w.ctl.config.voteDuration * 10 ^ 9 < 2 ^ 64) (room : w.gov.pollCount + 2 < 2 ^ 64)
    {l : List Action} (hten : l.length ≤ 10) (hl : ∀ x ∈ l, Proposable (c.env e w) w.ctl.config x) :
    ∃ w' i o n, Acting c G w w' ∧ w'.block.time = w.block.time + w.ctl.config.voteDuration * 10 ^ 9 ∧
      w'.ctl.infos.get (w.gov.pollCount + 1) = some i ∧ i.actions = l ∧
      outcome w' (w.gov.pollCount + 1) = some (.passed o n) ∧ sentCount w' (w.gov.pollCount + 1) = 1 := by
  obtain ⟨a, ha, w1, b, h1, h2, h3, h4, w2, subs, o, n, h5, h6⟩ := brought hw ht h hG e he hd hfit room 0 0 hten hl
  have hroom : w1.gov.pollCount + 1 < 2 ^ 64 := by rw [h3.count]; omega
  obtain ⟨w3, st, m1, m2, m3, m4, m5, m6⟩ := executed_run hw ht h2 h5 hroom
  rw [h6] at m3
  cases m3
  obtain ⟨i, hi, _, hact⟩ := h3.info
  obtain ⟨i', hi', _, hact'⟩ := m6 i hi
  have hx := h2.tx (hG.members a ha).1 m1
  refine ⟨w3, i', o, n, .tx h1 ha m1, by rw [m5]; exact h4, hi', hact'.trans hact, m2, ?_⟩
  have hle := (C44_at_most_once hw ht hx (w.gov.pollCount + 1)).2
  have hge : 1 ≤ sentCount w3 (w.gov.pollCount + 1) := List.count_pos_iff.2 (m4 rfl)
  omega

/-- If the actions amend the rules, the group can bring it about that the rules are as it wants them. -/
theorem C134_amends {c : Cfg} (hw : c.Wf) (ht : c.Tame) {w : World} (h : Reachable c w) {G : List Addr}
    (hG : Leads c w G) (e : Ext) (he : ∀ u ∈ G, e.restricted u = false) (hd : w.ctl.config.minDeposit = none ∨ w.mem.daoType = .denom)
    (hfit : w.block.time + w.ctl.config.voteDuration * 10 ^ 9 < 2 ^ 64) (room : w.gov.pollCount + 2 < 2 ^ 64)
    {l : List Action} (hten : l.length ≤ 10) {g : GovConfig} (ha : Amendable w.mem.daoType w.ctl.config l g)
    (hc : ∀ ch, .updateGovConfig ch ∈ l → ∃ x, Changed w.ctl.config ch x ∧ ValidConfig w.mem.daoType x)
    (hr : Room w l) :
    ∃ w', Acting c G w w' ∧ w'.block.time = w.block.time + w.ctl.config.voteDuration * 10 ^ 9 ∧
      w'.ctl.config = g ∧ w'.ctl.council = l.foldl councilAfter w.ctl.council ∧ Amends w w' l := by
  obtain ⟨a, hin, w1, b, h1, h2, h3, h4, w2, subs, o, n, h5, h6⟩ := brought hw ht h hG e he hd hfit room 0 0 hten
    (amendable_proposable (e := c.env e w) ha hc)
  obtain ⟨i, hi, _, hact⟩ := h3.info
  obtain ⟨w3, m1, _, m3, m4, m5⟩ := C132_takes_effect hw ht h2 h5 (hG.members a hin).1 h6 (i := i) hi (g := g)
    (by rw [hact]; show Amendable w1.mem.daoType w1.ctl.config l g; rw [h3.mem, h3.config]; exact ha)
    (by
      rw [hact]
      refine ⟨?_, ?_, ?_, hr.council, ?_⟩
      · intro u
        show Distributor.owedOf w1.dist u < _
        rw [h3.dist]; exact hr.rewards u
      · show 2 * (w1.dist.weights.sum _ + _) < _
        rw [h3.dist]; exact hr.weights
      · show w1.mem.total .never + _ < _
        rw [h3.mem]; exact hr.members
      · show w1.gov.pollCount + 1 < _
        rw [h3.count]; omega)
  rw [hact] at m4 m5
  have hblk : w3.block = b := (m1.moved hw ht (fun j hj => by
    rw [List.mem_singleton.1 hj]; exact Or.inl (hG.members a hin).1) (h2.base hw ht)).2.block
  refine ⟨w3, .tx h1 hin m1, by rw [hblk]; exact h4, m3, ?_, ⟨?_, ?_, ?_, ?_⟩⟩
  · rw [m4]
    show l.foldl councilAfter w1.ctl.council = _
    rw [h3.rules]
  · rw [← h3.mem]; exact m5.period
  · rw [← h3.dist]; exact m5.minimum
  · rw [← h3.council]; exact m5.seats
  · rw [← h3.mem]; exact m5.shares

/-! ### Examples -/

/-- Users 10, 11 and 12 stake 60, 25 and 15 coins. -/
def samplePower : List Step := [stake 10 60, stake 11 25, stake 12 15, at_ 2]

theorem samplePower_leads : Leads sampleCfg (sampleRun samplePower) [10, 11] :=
  ⟨by decide +kernel, by decide +kernel, by decide +kernel, by decide +kernel, by decide +kernel⟩

/-- Users 10 and 11 can change the quorum, the unlocking period, the minimum weight for rewards and the council within 100
seconds. -/
example : ∃ w', Acting sampleCfg [10, 11] (sampleRun samplePower) w' ∧
    w'.block.time = (sampleRun samplePower).block.time + 100 * 10 ^ 9 ∧
    w'.ctl.config = { sampleConfig with quorum := ONE / 5 } ∧ w'.mem.unlocking = some (.time 2000) ∧ w'.dist.min = 5 ∧
    Multisig.queryWeight w'.council 43 = 1 ∧ Multisig.queryWeight w'.council 41 = 0 := by
  have hcfg : (sampleRun samplePower).ctl.config = sampleConfig := by decide +kernel
  have hty : (sampleRun samplePower).mem.daoType = .denom := by decide +kernel
  obtain ⟨w', h1, h2, h3, _, h5⟩ := C134_amends sampleCfg_wf sampleCfg_tame (sampleRun_reachable _) samplePower_leads
    sampleExt (by decide) (Or.inr hty) (by decide +kernel) (by decide +kernel) (l := sampleReform) (by decide)
    (g := { sampleConfig with quorum := ONE / 5 }) (by rw [hty, hcfg]; exact reform_amendable)
    (fun ch hch => by
      rw [hty, hcfg]
      simp only [sampleReform, List.mem_cons, List.not_mem_nil, or_false] at hch
      rcases hch with hch | hch | hch <;> cases hch
      exact ⟨{ sampleConfig with quorum := ONE / 5 },
        ⟨Or.inr rfl, Or.inl ⟨rfl, rfl⟩, Or.inl ⟨rfl, rfl⟩, Or.inl ⟨rfl, rfl⟩, Or.inl ⟨rfl, rfl⟩, Or.inl ⟨rfl, rfl⟩⟩,
        ⟨by decide +kernel, by decide +kernel, fun v hv => (by cases hv), by decide, fun h => (by cases h)⟩⟩)
    (by
      refine ⟨fun a => ?_, by decide +kernel, by decide +kernel, ?_, by decide +kernel⟩
      · rw [Distributor.owed_empty (by decide +kernel)]
        decide
      · intro sp hsp
        simp only [sampleReform, List.mem_cons, List.not_mem_nil, or_false] at hsp
        rcases hsp with hsp | hsp | hsp <;> cases hsp
        decide)
  exact ⟨w', h1, by rw [h2, hcfg]; rfl, h3, h5.period (by decide +kernel), h5.minimum, h5.seats 43, h5.seats 41⟩

/-- They can also have funds of the treasury paid out. -/
example : ∃ w' i o n, Acting sampleCfg [10, 11] (sampleRun samplePower) w' ∧
    w'.ctl.infos.get 1 = some i ∧ i.actions = [.requestFunding none 10 [⟨.native 20, 500⟩]] ∧
    outcome w' 1 = some (.passed o n) ∧ sentCount w' 1 = 1 := by
  have hty : (sampleRun samplePower).mem.daoType = .denom := by decide +kernel
  obtain ⟨w', i, o, n, h1, _, h3, h4, h5, h6⟩ := C134_passes sampleCfg_wf sampleCfg_tame (sampleRun_reachable _)
    samplePower_leads sampleExt (by decide) (Or.inr hty) (by decide +kernel) (by decide +kernel)
    (l := [.requestFunding none 10 [⟨.native 20, 500⟩]]) (by decide)
    (fun x hx => by
      rw [List.mem_singleton.1 hx]
      intro _ a ha
      rw [List.mem_singleton.1 ha]
      exact fun _ _ hn => by cases hn)
  have hid : (sampleRun samplePower).gov.pollCount + 1 = 1 := by decide +kernel
  rw [hid] at h3 h5 h6
  exact ⟨w', i, o, n, h1, h3, h4, h5, h6⟩

end Verif.Dao
