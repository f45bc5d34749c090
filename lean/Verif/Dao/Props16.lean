import Verif.Dao.Effect
import Verif.Dao.Props3

/-!
# The contracts of a DAO together: a passed proposal to amend the rules takes effect (C132)

The counterpart of C130. The vocabulary (`Amendable`, `Amends`, `Carried`, `newShares`) is in `Effect`.
-/

set_option linter.unusedSimpArgs false

namespace Verif.Dao
open Verif
open Verif.Controller (Action GovConfig GovChange CouncilConfig CouncilSpec Info Changed ValidConfig ValidSpec)
open Verif.Staking (Duration)

/-! ### Specification -/

/-- The sums of weights that come about stay below 2^128. -/
structure Room (w : World) (l : List Action) : Prop where
  rewards : RewardsFit w
  weights : 2 * (w.dist.weights.sum (fun _ n => n) + newShares l) < 2 ^ 128
  members : w.mem.total .never + newShares l < 2 ^ 128
  council : ∀ sp, .updateCouncil (some sp) ∈ l → sp.members.length < 2 ^ 128
  polls : w.gov.pollCount + 1 < 2 ^ 64

/-! ### Lemmas -/

theorem orders_quiet (t : Controller.DaoType) (l : List Action) : (l.flatMap (orders t)).filterMap eventOf = [] := by
  rw [List.filterMap_eq_nil_iff]
  intro y hy
  obtain ⟨a, _, ha⟩ := List.mem_flatMap.1 hy
  cases a with
  | updateGovConfig ch =>
    rw [orders] at ha
    split at ha
    · cases ha
    · obtain ⟨d, _, rfl⟩ := List.mem_map.1 ha; rfl
  | updateCouncil sp => cases sp <;> (rw [orders, List.mem_singleton] at ha; rw [ha]; rfl)
  | modifyMultisig ms => rw [orders, List.mem_singleton] at ha; rw [ha]; rfl
  | updateMinWeight n => rw [orders, List.mem_singleton] at ha; rw [ha]; rfl
  | _ => cases ha

/-- The actions of a proposal, run in a world that has room for them. -/
theorem actions_accepted {c : Cfg} (hw : c.Wf) (ht : c.Tame) (e : Ext) {w : World} {id : Nat} {i : Info} {g : GovConfig}
    (hi : w.ctl.infos.get id = some i) (ha : Amendable w.mem.daoType w.ctl.config i.actions g)
    (hs : Sound c w (newShares i.actions))
    (hc : ∀ sp, .updateCouncil (some sp) ∈ i.actions → sp.members.length < 2 ^ 128) :
    ∃ w1 items w', handle c e w c.self (.ctl (.executeActions id)) = .ok (w1, items) ∧ Carried c e w1 items w' ∧
      Exec c w1 items w' ∧ w'.ctl.config = g ∧ w'.ctl.council = i.actions.foldl councilAfter w.ctl.council ∧
      Amends w w' i.actions ∧ w'.log = w.log ++ [.ran id] := by
  obtain ⟨s', hd, hg⟩ := orders_done (e := c.env e w) ha rfl
  have hx := (Controller.C91_actions (e := c.env e w) (u := c.self) (s := w.ctl) (g := w.gov) (id := id)
    (r := (s', w.gov, i.actions.flatMap (orders w.mem.daoType)))).2 ⟨rfl, rfl, i, hi, hd⟩
  have hr : handle c e w c.self (.ctl (.executeActions id)) =
      .ok ({ w with ctl := s', log := w.log ++ [.ran id] }, (i.actions.flatMap (orders w.mem.daoType)).map (toItem c w.mem)) := by
    simp only [handle]
    refine bind_ok_iff.2 ⟨_, hx, ?_⟩
    simp only [orders_quiet, List.append_nil]
    rfl
  have hk : Known c c.self (.ctl (.executeActions id)) := Or.inr ⟨rfl, Or.inr ⟨id, rfl⟩⟩
  have hh := handled hw ht hs.base hk hs.room hr
  have hs1 : Sound c { w with ctl := s', log := w.log ++ [.ran id] } (newShares i.actions) :=
    ⟨hh.base, (hh.dist hw hs.base hk hr hs.dist).1, hs.owed, hs.load, hs.total, hs.room⟩
  obtain ⟨w', h1, h2, h3, _, h5, h6⟩ := carried hw ht e w.mem rfl ha hc
    (w := { w with ctl := s', log := w.log ++ [.ran id] }) rfl hs1
  refine ⟨_, _, w', hr, h1, h2, by rw [h5]; exact hg, by rw [h5]; exact (doesAll_rules hd).2,
    ⟨h3.period, h3.minimum, h3.seats, h3.shares⟩, h6⟩

/-- The world in which the actions of a passed proposal are run. -/
theorem passed_ready {c : Cfg} (hw : c.Wf) (ht : c.Tame) {w w1 : World} (h : Reachable c w) {e : Ext} {a : Addr}
    {id : Nat} {subs : List Item} (hx : handle c e w a (.ctl (.execute id)) = .ok (w1, subs)) (ho : c.outsider a)
    {o n : Nat} (hp : outcome w1 id = some (.passed o n)) {i : Info} (hi : w.ctl.infos.get id = some i)
    (hr : Room w i.actions) :
    (∃ i1, w1.ctl.infos.get id = some i1 ∧ i1.actions = i.actions) ∧ Sound c w1 (newShares i.actions) ∧
    w1.ctl.config = w.ctl.config ∧ w1.ctl.council = w.ctl.council ∧ w1.mem = w.mem ∧ w1.dist = w.dist ∧
    w1.council = w.council ∧ w1.log = w.log ++ [.sent id] ∧
    ∃ l : List Controller.Transfer, subs = .actions id :: l.map (.deposit id) := by
  obtain ⟨i', p, st, hi', _, _, hw1, hs⟩ := execute_effect hw ht h hx
  rw [hi] at hi'
  cases hi'
  have hst : st = .passed o n := by
    rw [hw1, outcome_of (i := { i with executedAt := some w.block }) (p := { p with status := st })] at hp
    · simpa using hp
    · simp only [Map.get_set, if_true]
    · simp only [Map.get_set, if_true]
  have hps : isPassed st = true := by rw [hst]; rfl
  have hk : Known c a (.ctl (.execute id)) := Or.inl ho
  have hb := h.base hw ht
  have hh := handled hw ht hb hk hr.polls hx
  have hd := (hh.dist hw hb hk hx (h.dist hw ht)).1
  rw [hps] at hw1 hs
  refine ⟨⟨{ i with executedAt := some w.block }, ?_, rfl⟩, ⟨hh.base, hd, ?_, ?_, ?_, ?_⟩, ?_⟩
  · rw [hw1]; simp only [Map.get_set, if_true]
  · rw [hw1]; exact hr.rewards
  · rw [hw1]; exact hr.weights
  · have h1 := hr.members
    rw [hb.mem.total] at h1
    rw [hw1]; exact h1
  · rw [hw1]; exact hr.polls
  · rw [hw1]
    exact ⟨rfl, rfl, rfl, rfl, rfl, rfl, _, hs⟩

/-! ## C132 -/

/-- When the execution of a proposal is accepted, the proposal passed, and its actions amend the rules, then the controller
carries out all of them, and every message that it sends for them is accepted, whatever other contracts answer. The rules
are then as the proposal says. -/
theorem C132_accepted {c : Cfg} (hw : c.Wf) (ht : c.Tame) {w w1 : World} (h : Reachable c w) {e : Ext} {a : Addr}
    {id : Nat} {subs : List Item} (hx : handle c e w a (.ctl (.execute id)) = .ok (w1, subs)) (ho : c.outsider a)
    {o n : Nat} (hp : outcome w1 id = some (.passed o n)) {i : Info} (hi : w.ctl.infos.get id = some i) {g : GovConfig}
    (ha : Amendable w.mem.daoType w.ctl.config i.actions g) (hr : Room w i.actions) (e' : Ext) :
    subs.head? = some (.actions id) ∧
    ∃ w2 items w', handle c e' w1 c.self (.ctl (.executeActions id)) = .ok (w2, items) ∧
      Carried c e' w2 items w' ∧ w'.ctl.config = g ∧ w'.ctl.council = i.actions.foldl councilAfter w.ctl.council ∧
      Amends w w' i.actions := by
  obtain ⟨⟨i1, hi1, hact⟩, hs, h1, h2, h3, h4, h5, _, l, hl⟩ := passed_ready hw ht h hx ho hp hi hr
  refine ⟨by rw [hl]; rfl, ?_⟩
  obtain ⟨w2, items, w', k1, k2, _, k3, k4, k5, _⟩ := actions_accepted hw ht e' (g := g) hi1
    (by rw [hact, h1, h3]; exact ha) (by rw [hact]; exact hs) (by rw [hact]; exact hr.council)
  rw [hact] at k4 k5
  refine ⟨w2, items, w', k1, k2, k3, by rw [k4, h2], ⟨?_, ?_, ?_, ?_⟩⟩
  · rw [← h3]; exact k5.period
  · rw [← h4]; exact k5.minimum
  · rw [← h5]; exact k5.seats
  · rw [← h3]; exact k5.shares

/-- So anyone who executes a passed proposal to amend the rules can bring this about in one transaction: it runs the actions
once, and afterwards the rules are as the proposal says. -/
theorem C132_takes_effect {c : Cfg} (hw : c.Wf) (ht : c.Tame) {w w1 : World} (h : Reachable c w) {e : Ext} {a : Addr}
    {id : Nat} {subs : List Item} (hx : handle c e w a (.ctl (.execute id)) = .ok (w1, subs)) (ho : c.outsider a)
    {o n : Nat} (hp : outcome w1 id = some (.passed o n)) {i : Info} (hi : w.ctl.infos.get id = some i) {g : GovConfig}
    (ha : Amendable w.mem.daoType w.ctl.config i.actions g) (hr : Room w i.actions) :
    ∃ w', Exec c w [.call a (.ctl (.execute id))] w' ∧ ranCount w' id = 1 ∧ w'.ctl.config = g ∧
      w'.ctl.council = i.actions.foldl councilAfter w.ctl.council ∧ Amends w w' i.actions := by
  obtain ⟨⟨i1, hi1, hact⟩, hs, h1, h2, h3, h4, h5, hlog, l, hl⟩ := passed_ready hw ht h hx ho hp hi hr
  obtain ⟨w2, items, v, k1, _, k2, k3, k4, k5, k6⟩ := actions_accepted hw ht e (g := g) hi1
    (by rw [hact, h1, h3]; exact ha) (by rw [hact]; exact hs) (by rw [hact]; exact hr.council)
  rw [hact] at k4 k5
  have hdep : ∀ (l : List Controller.Transfer) (v : World),
      Exec c v (l.map (.deposit id)) { v with log := v.log ++ l.map (.paid id) } := by
    intro l
    induction l with
    | nil => intro v; simp only [List.map_nil, List.append_nil]; exact .nil v
    | cons t l ih =>
      intro v
      have := ih { v with log := v.log ++ [.paid id t] }
      simp only [List.append_assoc, List.singleton_append] at this
      exact .deposit (calls := []) (fun j hj => by cases hj) (.nil _) this
  have hex : Exec c w [.call a (.ctl (.execute id))] { v with log := v.log ++ l.map (.paid id) } := by
    refine .call e hr.polls hx ?_ (.nil _)
    rw [hl]
    exact .actions e hs.room k1 k2 (hdep l v)
  refine ⟨_, hex, ?_, k3, by rw [← h2]; exact k4, ⟨?_, ?_, ?_, ?_⟩⟩
  · have hle := (C44_at_most_once hw ht (h.tx ho hex) id).1
    have hge : 1 ≤ ranCount { v with log := v.log ++ l.map (.paid id) } id := by
      refine List.count_pos_iff.2 (List.mem_append_left _ ?_)
      rw [k6]
      exact List.mem_append_right _ (List.mem_singleton.2 rfl)
    have h6 := (C44_at_most_once hw ht (h.tx ho hex) id).2
    omega
  · rw [← h3]; exact k5.period
  · rw [← h4]; exact k5.minimum
  · rw [← h5]; exact k5.seats
  · rw [← h3]; exact k5.shares

/-! ### Examples -/

/-- A proposal to change quorum and unlocking period, to set a minimum weight for rewards of 5 and to make 40 and 43 the
council. -/
def sampleReform : List Action :=
  [.updateGovConfig ⟨some (ONE / 5), none, none, none, some (.time 2000), none, none⟩, .updateMinWeight 5,
    .updateCouncil (some ⟨[40, 43], ONE / 2, ONE / 2, none⟩)]

/-- Members vote for it. -/
def sampleReformed : List Step :=
  [stake 10 60, stake 11 40, at_ 2, propose 12 sampleReform, at_ 3, vote 10 1 .yes, at_ 5, vote 11 1 .no, at_ 20]

theorem reform_amendable : Amendable .denom sampleConfig sampleReform { sampleConfig with quorum := ONE / 5 } :=
  .config (g1 := { sampleConfig with quorum := ONE / 5 })
    ⟨Or.inr rfl, Or.inl ⟨rfl, rfl⟩, Or.inl ⟨rfl, rfl⟩, Or.inl ⟨rfl, rfl⟩, Or.inl ⟨rfl, rfl⟩, Or.inl ⟨rfl, rfl⟩⟩
    ⟨by decide +kernel, by decide +kernel, fun v hv => (by cases hv), by decide, fun h => (by cases h)⟩
    (fun n hn => by cases hn; decide)
    (.minimum (.council (fun x hx => by
      cases hx
      exact ⟨by decide, by decide +kernel, by decide +kernel, fun l hl => (by cases hl)⟩) (.nil _)))

/-- All hypotheses are met, and by the theorem the rules can be as proposed. -/
example : ∃ w', Exec sampleCfg (sampleRun sampleReformed) [.call 13 (.ctl (.execute 1))] w' ∧ ranCount w' 1 = 1 ∧
    w'.ctl.config = { sampleConfig with quorum := ONE / 5 } ∧ w'.mem.unlocking = some (.time 2000) ∧ w'.dist.min = 5 ∧
    Multisig.queryWeight w'.council 43 = 1 ∧ Multisig.queryWeight w'.council 41 = 0 := by
  cases hx : handle sampleCfg sampleExt (sampleRun sampleReformed) 13 (.ctl (.execute 1)) with
  | error =>
    have : (handle sampleCfg sampleExt (sampleRun sampleReformed) 13 (.ctl (.execute 1))).isOk = true := by decide +kernel
    rw [hx] at this
    cases this
  | ok r =>
    have hp : (handle sampleCfg sampleExt (sampleRun sampleReformed) 13 (.ctl (.execute 1))).toOption.map
        (fun r => outcome r.1 1) = some (some (.passed 0 60)) := by decide +kernel
    rw [hx] at hp
    have hp : outcome r.1 1 = some (.passed 0 60) := Option.some.inj hp
    have hi : ((sampleRun sampleReformed).ctl.infos.get 1).map (·.actions) = some sampleReform := by decide +kernel
    obtain ⟨i, hi, hact⟩ : ∃ i, (sampleRun sampleReformed).ctl.infos.get 1 = some i ∧ i.actions = sampleReform := by
      cases hg : (sampleRun sampleReformed).ctl.infos.get 1 with
      | none => rw [hg] at hi; cases hi
      | some i => rw [hg] at hi; exact ⟨i, rfl, Option.some.inj hi⟩
    have hroom : Room (sampleRun sampleReformed) i.actions := by
      rw [hact]
      refine ⟨fun a => ?_, by decide +kernel, by decide +kernel, ?_, by decide +kernel⟩
      · rw [Distributor.owed_empty (by decide +kernel)]
        decide
      · intro sp hsp
        simp only [sampleReform, List.mem_cons, List.not_mem_nil, or_false] at hsp
        rcases hsp with hsp | hsp | hsp <;> cases hsp
        decide
    have ham : Amendable (sampleRun sampleReformed).mem.daoType (sampleRun sampleReformed).ctl.config i.actions
        { sampleConfig with quorum := ONE / 5 } := by
      rw [hact, show (sampleRun sampleReformed).mem.daoType = .denom by decide +kernel,
        show (sampleRun sampleReformed).ctl.config = sampleConfig by decide +kernel]
      exact reform_amendable
    obtain ⟨w', h1, h2, h3, _, h5⟩ := C132_takes_effect sampleCfg_wf sampleCfg_tame (sampleRun_reachable _) hx
      (by decide) hp hi ham hroom
    rw [hact] at h5
    exact ⟨w', h1, h2, h3, h5.period (by decide +kernel), h5.minimum, h5.seats 43, h5.seats 41⟩

/-- The run itself. -/
example : (sampleRun (sampleReformed ++ [execute 13 1])).mem.unlocking = some (.time 2000) ∧
    (sampleRun (sampleReformed ++ [execute 13 1])).dist.min = 5 ∧
    Multisig.queryWeight (sampleRun (sampleReformed ++ [execute 13 1])).council 43 = 1 := by decide +kernel

/-- A new multisig DAO of the users 10, 11 and 12, with weights 2, 1 and 1. -/
def multisigGenesis : World :=
  { sampleGenesis with
    ctl := (Controller.init ⟨1, 10 ^ 9⟩ sampleCfg.enterprise .multisig { sampleConfig with minDeposit := none } none [] []).toOption.getD
      sampleCtl
    mem := .multisig ((Multisig.init ⟨1, 10 ^ 9⟩ (some [(10, 2), (11, 1), (12, 1)]) [1] [] []).toOption.getD Members.empty)
    dist := (Distributor.init 1 none [(10, 2), (11, 1), (12, 1)]).toOption.getD sampleDist }

theorem multisig_genesis : Genesis sampleCfg multisigGenesis :=
  ⟨⟨{ sampleConfig with minDeposit := none }, none, [], by decide +kernel⟩, rfl,
    ⟨none, [(10, 2), (11, 1), (12, 1)], by decide +kernel⟩, ⟨[(10, 2), (11, 1), (12, 1)], by decide +kernel⟩,
    ⟨[(40, 1), (41, 1), (42, 1)], by decide +kernel⟩, rfl⟩

/-- Its members vote to replace 12 by 13. -/
def multisigVoted : List Step :=
  [at_ 2, .tx sampleExt 10 (.ctl (.createProposal ⟨0, 0, [.modifyMultisig [(12, 0), (13, 3)]], none⟩ [])), at_ 3,
    vote 10 1 .yes, vote 11 1 .yes, at_ 20]

/-- The actions can be carried out, there is room, and the run replaces the member. -/
example : Amendable .multisig { sampleConfig with minDeposit := none } [.modifyMultisig [(12, 0), (13, 3)]]
      { sampleConfig with minDeposit := none } ∧
    (∀ w, runAll sampleCfg multisigGenesis multisigVoted = some w → Room w [.modifyMultisig [(12, 0), (13, 3)]]) ∧
    ((runAll sampleCfg multisigGenesis (multisigVoted ++ [execute 11 1])).map
      (fun w => (w.mem.weight 10, w.mem.weight 12, w.mem.weight 13, ranCount w 1))) = some (2, 0, 3, 1) := by
  refine ⟨.members rfl (by decide) (.nil _), fun w hw => ?_, by decide +kernel⟩
  have hw' : w = (runAll sampleCfg multisigGenesis multisigVoted).getD multisigGenesis := by rw [hw]; rfl
  refine ⟨fun a => ?_, ?_, ?_, fun sp hsp => ?_, ?_⟩
  · rw [Distributor.owed_empty (by rw [hw']; decide +kernel)]
    decide
  · rw [hw']; decide +kernel
  · rw [hw']; decide +kernel
  · cases List.mem_singleton.1 hsp
  · rw [hw']; decide +kernel

end Verif.Dao
