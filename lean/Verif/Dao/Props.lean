import Verif.Dao.Lemmas5
import Verif.Dao.Sample
import Verif.Controller.Props

/-!
# The contracts of a DAO together: property theorems (C44, C45, C46, C47, C51, C54)

All are about the histories of `Verif/Dao/Model.lean`: any transactions by anyone outside of the DAO's voting
contracts, at any times, with any behaviour of the other contracts, for a DAO as the factory creates it. `Wf` says that
its addresses are distinct. `Tame` excludes custom messages of passed proposals by which the controller forges the
messages that the DAO's contracts send one another.
Vocabulary: `Verif/Dao/Spec.lean`, `Verif/Controller/Spec.lean`, `Verif/Gov/Spec.lean`.
-/

set_option linter.unusedSimpArgs false

namespace Verif.Dao
open Verif
open Verif.Staking (At)

/-! ### Consequences of the invariants -/

theorem outcome_some {w : World} {id : Nat} {st : Gov.Status} (h : outcome w id = some st) :
    ∃ i p, w.ctl.infos.get id = some i ∧ w.gov.polls.get id = some p ∧ i.executedAt.isSome = true ∧ p.status = st := by
  unfold outcome at h
  split at h
  · rename_i i p hi hp
    split at h
    · rename_i hx
      exact ⟨i, p, hi, hp, hx, Option.some.inj h⟩
    · cases h
  · cases h

theorem outcome_of {w : World} {id : Nat} {i : Controller.Info} {p : Gov.Poll} (hi : w.ctl.infos.get id = some i)
    (hp : w.gov.polls.get id = some p) : outcome w id = if i.executedAt.isSome then some p.status else none := by
  unfold outcome
  rw [hi, hp]

theorem batches_eq (w : World) (id : Nat) :
    batches w id = match outcome w id with | some st => if isPassed st then 1 else 0 | none => 0 := by
  unfold batches outcome
  cases w.ctl.infos.get id with
  | none => rfl
  | some i =>
    cases w.gov.polls.get id with
    | none => rfl
    | some p => cases h : i.executedAt.isSome <;> simp [h]

theorem due_eq (c : Cfg) (w : World) (id : Nat) :
    due c w id = match w.ctl.infos.get id, outcome w id with
      | some i, some st => owed c.comps.treasury i st
      | _, _ => [] := by
  unfold due outcome
  cases w.ctl.infos.get id with
  | none => rfl
  | some i =>
    cases w.gov.polls.get id with
    | none => rfl
    | some p => cases h : i.executedAt.isSome <;> simp [h]

theorem isPassed_iff (st : Gov.Status) : isPassed st = true ↔ ∃ o n, st = .passed o n := by
  cases st <;> simp [isPassed]

/-- A result stays. -/
theorem outcome_later {c : Cfg} (hw : c.Wf) (ht : c.Tame) {w w' : World} (h : Reachable c w) (hl : Later c w w')
    {id : Nat} {st : Gov.Status} (ho : outcome w id = some st) : outcome w' id = some st := by
  obtain ⟨i, p, hi, hp, hx, rfl⟩ := outcome_some ho
  have hm := (hl.moved hw ht h).1
  obtain ⟨i', h1, _, _, _, h2⟩ := hm.infos id i hi
  obtain ⟨p', h3, _, h4⟩ := hm.polls id p hp
  have hne : i.executedAt ≠ none := by
    intro hn; rw [hn] at hx; cases hx
  have hlive : ¬ p.live := fun hlv => hne (((h.base hw ht).ctl.ended id i p hi hp).2 hlv)
  have e1 := h2 hne
  have e2 := h4 hlive
  subst e1 e2
  rw [outcome_of h1 h3, if_pos hx]

/-! ## C44 -/

/-- The actions of a proposal are dispatched at most once, and they run at most as often as they are dispatched. -/
theorem C44_at_most_once {c : Cfg} (hw : c.Wf) (ht : c.Tame) {w : World} (h : Reachable c w) (id : Nat) :
    ranCount w id ≤ sentCount w id ∧ sentCount w id ≤ 1 := by
  obtain ⟨_, h2, h3⟩ := h.ledger hw ht id
  refine ⟨h3, ?_⟩
  rw [h2]
  unfold batches
  split
  · split <;> omega
  · omega

/-- The actions were dispatched exactly if the proposal is resolved as passed. -/
theorem C44_dispatched_iff_passed {c : Cfg} (hw : c.Wf) (ht : c.Tame) {w : World} (h : Reachable c w) (id : Nat) :
    sentCount w id = 1 ↔ ∃ o n, outcome w id = some (.passed o n) := by
  rw [(h.ledger hw ht id).2.1, batches_eq]
  cases ho : outcome w id with
  | none => simp
  | some st =>
    simp only [Option.some.injEq]
    rw [← isPassed_iff]
    cases isPassed st <;> simp

/-- After a proposal was resolved as rejected, its actions are never dispatched, nor run. -/
theorem C44_never_after_rejection {c : Cfg} (hw : c.Wf) (ht : c.Tame) {w w' : World} (h : Reachable c w) {id : Nat}
    {r : Gov.Reason} (ho : outcome w id = some (.rejected r)) (hl : Later c w w') :
    sentCount w' id = 0 ∧ ranCount w' id = 0 := by
  have ho' := outcome_later hw ht h hl ho
  obtain ⟨_, h2, h3⟩ := (hl.reachable h).ledger hw ht id
  rw [batches_eq, ho'] at h2
  simp only [isPassed, Bool.false_eq_true, if_false] at h2
  omega

/-- In the sample the actions run once; the second attempt fails. -/
example : sentCount (sampleRun sampleDone) 1 = 1 ∧ ranCount (sampleRun sampleDone) 1 = 1 ∧
    outcome (sampleRun sampleDone) 1 = some (.passed 0 60) ∧
    runAll sampleCfg sampleGenesis (sampleDone ++ [at_ 300, execute 13 1]) = none := by decide +kernel

example : outcome (sampleRun sampleLost) 1 = some (.rejected .quorumNotReached) ∧
    sentCount (sampleRun sampleLost) 1 = 0 := by decide +kernel

/-! ## C45 -/

/-- Before its resolution, nothing of the deposit of a proposal is transferred. -/
theorem C45_not_before_resolution {c : Cfg} (hw : c.Wf) (ht : c.Tame) {w : World} (h : Reachable c w) {id : Nat}
    (ho : outcome w id = none) : paidOut w id = [] := by
  rw [(h.ledger hw ht id).1, due_eq, ho]
  cases w.ctl.infos.get id <;> rfl

/-- After its resolution, the deposit was transferred once: to the treasury if the proposal was rejected for lack of
quorum or by veto, back to the depositor otherwise. This remains so ever after. -/
theorem C45_paid_once {c : Cfg} (hw : c.Wf) (ht : c.Tame) {w w' : World} (h : Reachable c w) {id : Nat}
    {i : Controller.Info} {st : Gov.Status} (hi : w.ctl.infos.get id = some i) (ho : outcome w id = some st)
    (hl : Later c w w') :
    paidOut w' id = match i.deposit with
      | none => []
      | some d =>
        entire (if st = .rejected .quorumNotReached ∨ st = .rejected .isVetoOutcome then c.comps.treasury
          else d.depositor) d.asset := by
  have ho' := outcome_later hw ht h hl ho
  obtain ⟨i', h1, _, h2, _⟩ := (hl.moved hw ht h).1.infos id i hi
  rw [((hl.reachable h).ledger hw ht id).1, due_eq, h1, ho']
  simp only [owed, h2]
  cases i.deposit with
  | none => rfl
  | some d =>
    simp only
    congr 1
    cases st with
    | inProgress _ => rfl
    | passed _ _ => rfl
    | rejected r => cases r <;> simp [forfeits]

/-- The deposit recorded for a proposal never changes. -/
theorem C45_deposit_fixed {c : Cfg} (hw : c.Wf) (ht : c.Tame) {w w' : World} (h : Reachable c w) {id : Nat}
    {i : Controller.Info} (hi : w.ctl.infos.get id = some i) (hl : Later c w w') :
    ∃ i', w'.ctl.infos.get id = some i' ∧ i'.deposit = i.deposit := by
  obtain ⟨i', h1, _, h2, _⟩ := (hl.moved hw ht h).1.infos id i hi
  exact ⟨i', h1, h2⟩

/-- A deposit of 30 coins goes back to user 12, or to the treasury (4) when the quorum was missed. -/
example : paidOut (sampleRun sampleVoted) 1 = [] ∧
    paidOut (sampleRun sampleDone) 1 = [.asset (.native 20) 30 12] ∧
    paidOut (sampleRun sampleLost) 1 = [.asset (.native 20) 30 4] := by decide +kernel

/-! ## C46 -/

/-- For a general proposal of a DAO, whose votes are known to fit, `ExecuteProposal` is accepted exactly when the
sender is not restricted, the proposal exists and is not executed yet, its earliest execution time has come, and either
voting is over, or early execution is enabled, quorum is met and some option other than abstain reaches its threshold. -/
theorem C46_general_execute_iff {c : Cfg} (hw : c.Wf) (ht : c.Tame) {w : World} (h : Reachable c w) {e : Ext} {a : Addr}
    {id : Nat} {i : Controller.Info} (hi : w.ctl.infos.get id = some i) (hg : i.type = .general) :
    (∃ r, handle c e w a (.ctl (.execute id)) = .ok r) ↔
      e.restricted a = false ∧ ∃ p, Gov.queryPoll w.gov id = .ok p ∧ i.executedAt = none ∧
        (∀ t, i.earliest = some t → t ≤ w.block.time) ∧
        ((p.endsAt ≤ w.block.time ∧ w.mem.total (.time p.endsAt) ≠ 0) ∨
         (w.block.time < p.endsAt ∧ w.ctl.config.early = true ∧ w.mem.total .never ≠ 0 ∧
          Gov.quorumMet (Gov.votedTotal w.gov id) (w.mem.total .never) p.quorum ∧
          Gov.someOptionReaches w.gov id p)) := by
  have hb := h.base hw ht
  have hiff := Controller.C46_execute_iff (e := c.env e w) (u := a) (s := w.ctl) (id := id) hb.ctl.gov.reachable
    hb.ctl.gov.admin ((h.tally hw ht).fits id i hi hg)
  have h1 : (∃ r, handle c e w a (.ctl (.execute id)) = .ok r) ↔
      ∃ r, Controller.exec (c.env e w) a w.ctl w.gov (.execute id) = .ok r := by
    constructor
    · rintro ⟨r, hr⟩
      obtain ⟨x, hx⟩ := handle_ctl hr
      exact ⟨x, hx.exec⟩
    · rintro ⟨r, hr⟩
      simp only [handle, hr]
      exact ⟨_, rfl⟩
  rw [h1, hiff]
  constructor
  · rintro ⟨a1, i', p, a2, a3, a4, a5, a6⟩
    rw [hi] at a2; cases a2
    refine ⟨a1, p, a3, a4, a5, ?_⟩
    rcases a6 with ⟨b1, b2⟩ | ⟨b1, b2, b3, b4, b5⟩
    · refine Or.inl ⟨b1, ?_⟩
      simpa [Controller.Env.bodyTotal, hg, Cfg.env] using b2
    · refine Or.inr ⟨b1, b2 hg, ?_, ?_, b5⟩
      · simpa [Controller.Env.bodyTotal, hg, Cfg.env] using b3
      · simpa [Controller.Env.bodyTotal, hg, Cfg.env] using b4
  · rintro ⟨a1, p, a3, a4, a5, a6⟩
    refine ⟨a1, i, p, hi, a3, a4, a5, ?_⟩
    rcases a6 with ⟨b1, b2⟩ | ⟨b1, b2, b3, b4, b5⟩
    · refine Or.inl ⟨b1, ?_⟩
      simpa [Controller.Env.bodyTotal, hg, Cfg.env] using b2
    · refine Or.inr ⟨b1, fun _ => b2, ?_, ?_, b5⟩
      · simpa [Controller.Env.bodyTotal, hg, Cfg.env] using b3
      · simpa [Controller.Env.bodyTotal, hg, Cfg.env] using b4

/-- In the sample the proposal is executable ten seconds after the last vote that changed its expected outcome (at 3
seconds), and not before. -/
example : (handle sampleCfg sampleExt (sampleRun (sampleVoted ++ [at_ 13])) 13 (.ctl (.execute 1))).isOk = true ∧
    (handle sampleCfg sampleExt (sampleRun (sampleVoted ++ [at_ 12])) 13 (.ctl (.execute 1))).isOk = false ∧
    (handle sampleCfg sampleExt (sampleRun (sampleVoted ++ [at_ 13])) 66 (.ctl (.execute 1))).isOk = false := by
  decide +kernel

/-! ## C47 -/

/-- If the actions of a proposal were dispatched or run, the proposal exists and its poll ended as passed. -/
theorem C47_only_passed {c : Cfg} (hw : c.Wf) (ht : c.Tame) {w : World} (h : Reachable c w) {id : Nat}
    (hx : sentCount w id ≠ 0 ∨ ranCount w id ≠ 0) :
    ∃ i p o n, w.ctl.infos.get id = some i ∧ Gov.queryPoll w.gov id = .ok p ∧ p.status = .passed o n := by
  obtain ⟨h1, h2⟩ := C44_at_most_once hw ht h id
  obtain ⟨o, n, ho⟩ := (C44_dispatched_iff_passed hw ht h id).1 (by omega)
  obtain ⟨i, p, hi, hp, _, hs⟩ := outcome_some ho
  exact ⟨i, p, o, n, hi, Controller.queryPoll_ok_iff.2 hp, hs⟩

/-- When `ExecuteProposal` is accepted, the proposal is resolved with the status of the published rule, applied to the
recorded votes and to the total weight at the end of voting (or now, before it); its actions are dispatched exactly if
that status is passed. (For council proposals, the sum of the votes is supposed to fit.) -/
theorem C47_dispatched_by_rule {c : Cfg} (hw : c.Wf) (ht : c.Tame) {w w1 : World} (h : Reachable c w) {e : Ext}
    {a : Addr} {id : Nat} {subs : List Item} (hx : handle c e w a (.ctl (.execute id)) = .ok (w1, subs)) {i : Controller.Info}
    (hi : w.ctl.infos.get id = some i) (hfit : i.type = .council → Gov.votedTotal w.gov id < 2 ^ 128) :
    ∃ p, Gov.queryPoll w.gov id = .ok p ∧
      let total := fun t => if i.type = .council then Multisig.queryTotal w.council t else w.mem.total t
      let st := Gov.ruleStatus (Gov.votedSum w.gov id .yes) (Gov.votedSum w.gov id .no)
        (Gov.votedSum w.gov id .abstain) (Gov.votedSum w.gov id .veto) p.quorum p.threshold p.vetoThreshold
        (if p.endsAt ≤ w.block.time then total (.time p.endsAt) else total .never)
      outcome w1 id = some st ∧ (Item.actions id ∈ subs ↔ ∃ n, st = .passed 0 n) := by
  have hb := h.base hw ht
  obtain ⟨r, hr⟩ := handle_ctl hx
  have he := hr.exec
  simp only [Controller.exec] at he
  obtain ⟨_, i', p, hi', hp, _, _, _, _, _, rfl⟩ := Controller.executeProposal_ok_iff.1 he
  rw [hi] at hi'; cases hi'
  have hfit' : Gov.votedTotal w.gov id < M128 := by
    cases ht' : i.type with
    | general => exact (h.tally hw ht).fits id i hi ht'
    | council => exact hfit ht'
  have hrule := Gov.finalStatus_rule_of_inv hb.ctl.inv hp hfit' (Controller.endTotal (c.env e w) p i.type)
  have htot : Controller.endTotal (c.env e w) p i.type =
      (if p.endsAt ≤ w.block.time then
        (fun t => if i.type = .council then Multisig.queryTotal w.council t else w.mem.total t) (.time p.endsAt)
      else (fun t => if i.type = .council then Multisig.queryTotal w.council t else w.mem.total t) .never) := by
    unfold Controller.endTotal Controller.totalVotes Cfg.env
    cases i.type <;> rfl
  refine ⟨p, Controller.queryPoll_ok_iff.2 hp, ?_⟩
  intro total st
  have hst : p.finalStatus (Controller.endTotal (c.env e w) p i.type) = st := by
    rw [hrule, htot]
  refine ⟨?_, ?_⟩
  · have hw1 := hr.world
    simp only at hw1
    rw [hw1]
    rw [outcome_of (i := { i with executedAt := some w.block }) (p := { p with status := st })]
    · rfl
    · simp only [Controller.State.resolved, Map.get_set, if_true]
      rfl
    · simp only [Controller.endedPoll, Map.get_set, if_true, hst]
  · have hsub := hr.subs
    simp only at hsub
    rw [hsub, hst]
    have hret : ∀ {l : List Controller.Sub}, (∀ s ∈ l, ∃ t, s = .deposit id t) →
        Item.actions id ∉ l.map (toItem c w.mem) := by
      intro l hl hm
      obtain ⟨s, hs, hs'⟩ := List.mem_map.1 hm
      obtain ⟨t, rfl⟩ := hl s hs
      cases hs'
    have hsend : ∀ (x : Controller.DepositAsset) (to : Addr), ∀ s ∈ Controller.sendDeposit id x to,
        ∃ t, s = .deposit id t := by
      intro x to s hs
      unfold Controller.sendDeposit at hs
      obtain ⟨t, _, rfl⟩ := List.mem_map.1 hs
      exact ⟨t, rfl⟩
    cases hs : st with
    | inProgress x => exact absurd (hst.trans hs) (Gov.finalStatus_not_inProgress _ _ _)
    | passed o n =>
      have ho := Controller.finalStatus_passed (hst.trans hs)
      subst ho
      exact ⟨fun _ => ⟨n, rfl⟩, fun _ => List.mem_cons_self⟩
    | rejected q =>
      refine ⟨fun hm => absurd hm (hret ?_), fun ⟨n, hn⟩ => by cases hn⟩
      intro s hs
      change s ∈ Controller.rejectedDeposit (c.env e w) id i q at hs
      unfold Controller.rejectedDeposit Controller.returnDeposit at hs
      split at hs
      · cases hs
      · split at hs <;> split at hs <;> first | exact hsend _ _ s hs | cases hs

example : (sampleRun (sampleVoted ++ [at_ 20])).ctl.infos.get 1 ≠ none ∧
    (handle sampleCfg sampleExt (sampleRun (sampleVoted ++ [at_ 20])) 13 (.ctl (.execute 1))).isOk = true := by
  decide +kernel

/-! ## C51 -/

/-- A transaction that changes the governance configuration runs, for the first and only time, the actions of a passed
proposal, among them a change of the configuration. -/
theorem C51_changed_by_passed_proposal {c : Cfg} (hw : c.Wf) (ht : c.Tame) {w w1 : World} (h : Reachable c w) {a : Addr}
    {m : Msg} (ha : c.outsider a) (hx : Exec c w [.call a m] w1) (hne : w1.ctl.config ≠ w.ctl.config) :
    ∃ id i ch o n, w1.ctl.infos.get id = some i ∧ Controller.Action.updateGovConfig ch ∈ i.actions ∧
      outcome w1 id = some (.passed o n) ∧ ranCount w id = 0 ∧ ranCount w1 id = 1 := by
  obtain ⟨_, _, x, hr⟩ := hx.induct hw ht (ruled_cases c)
    (fun i hi => by rw [List.mem_singleton.1 hi]; exact Or.inl ha) (h.base hw ht)
  rcases hr.config with hh | ⟨id, i, ch, h1, h2, h3⟩
  · exact absurd hh hne
  · have h4 := C44_at_most_once hw ht (h.tx ha hx) id
    have h5 : ranCount w1 id = ranCount w id + x.count (.ran id) := by
      unfold ranCount
      rw [hr.log, List.count_append]
    have h6 : 0 < x.count (.ran id) := List.count_pos_iff.2 h1
    obtain ⟨o, n, ho⟩ := (C44_dispatched_iff_passed hw ht (h.tx ha hx) id).1 (by omega)
    exact ⟨id, i, ch, o, n, h2, h3, ho, by omega, by omega⟩

/-- The same for the configuration of the council. -/
theorem C51_council_changed_by_passed_proposal {c : Cfg} (hw : c.Wf) (ht : c.Tame) {w w1 : World} (h : Reachable c w)
    {a : Addr} {m : Msg} (ha : c.outsider a) (hx : Exec c w [.call a m] w1) (hne : w1.ctl.council ≠ w.ctl.council) :
    ∃ id i sp o n, w1.ctl.infos.get id = some i ∧ Controller.Action.updateCouncil sp ∈ i.actions ∧
      outcome w1 id = some (.passed o n) ∧ ranCount w id = 0 ∧ ranCount w1 id = 1 := by
  obtain ⟨_, _, x, hr⟩ := hx.induct hw ht (ruled_cases c)
    (fun i hi => by rw [List.mem_singleton.1 hi]; exact Or.inl ha) (h.base hw ht)
  rcases hr.council with hh | ⟨id, i, ch, h1, h2, h3⟩
  · exact absurd hh hne
  · have h4 := C44_at_most_once hw ht (h.tx ha hx) id
    have h5 : ranCount w1 id = ranCount w id + x.count (.ran id) := by
      unfold ranCount
      rw [hr.log, List.count_append]
    have h6 : 0 < x.count (.ran id) := List.count_pos_iff.2 h1
    obtain ⟨o, n, ho⟩ := (C44_dispatched_iff_passed hw ht (h.tx ha hx) id).1 (by omega)
    exact ⟨id, i, ch, o, n, h2, h3, ho, by omega, by omega⟩

/-- The terms of every poll are valid: they were taken from a valid configuration. -/
theorem C51_poll_terms_valid {c : Cfg} (hw : c.Wf) (ht : c.Tame) {w : World} (h : Reachable c w) {id : Nat}
    {p : Gov.Poll} (hp : Gov.queryPoll w.gov id = .ok p) :
    Controller.Fraction p.quorum ∧ Controller.Fraction p.threshold ∧
      ∀ v, p.vetoThreshold = some v → Controller.Fraction v :=
  (h.base hw ht).ctl.fair id p (Controller.queryPoll_ok_iff.1 hp)

example : (sampleRun sampleVoted).ctl.config.quorum = ONE / 10 ∧ (sampleRun sampleDone).ctl.config.quorum = ONE / 5 ∧
    (Gov.queryPoll (sampleRun sampleDone).gov 1).toOption.map (·.quorum) = some (ONE / 10) := by decide +kernel

/-- A run in which the council is given up. -/
def sampleNoCouncil : List Step :=
  [stake 10 60, stake 11 40, at_ 2, propose 12 [.updateCouncil none], at_ 3, vote 10 1 .yes, at_ 20, execute 13 1]

example : (sampleRun sampleNoCouncil).ctl.council = none ∧ sampleGenesis.ctl.council ≠ none := by decide +kernel

/-! ## C54 -/

/-- While voting on a general proposal is open, every recorded vote counts with the current weight of the voter. -/
theorem C54_votes_track_weight {c : Cfg} (hw : c.Wf) (ht : c.Tame) {w : World} (h : Reachable c w) {id : Nat}
    {i : Controller.Info} (hi : w.ctl.infos.get id = some i) (hg : i.type = .general) {p : Gov.Poll}
    (hp : Gov.queryPoll w.gov id = .ok p) (hl : p.live) (ho : w.block.time < p.endsAt) {u : Addr} {v : Gov.Vote}
    (hv : Gov.queryPollVoter w.gov id u = some v) : v.amount = w.mem.weight u :=
  (h.tally hw ht).track id i hi hg ⟨p, Controller.queryPoll_ok_iff.1 hp, hl, ho⟩ u v hv

/-- So the votes cast never exceed the total weight. -/
theorem C54_votes_bounded {c : Cfg} (hw : c.Wf) (ht : c.Tame) {w : World} (h : Reachable c w) {id : Nat}
    {i : Controller.Info} (hi : w.ctl.infos.get id = some i) (hg : i.type = .general) {p : Gov.Poll}
    (hp : Gov.queryPoll w.gov id = .ok p) (hl : p.live) (ho : w.block.time < p.endsAt) :
    Gov.votedTotal w.gov id ≤ w.mem.total .never := by
  have hb := h.base hw ht
  rw [hb.mem.total]
  exact votedTotal_le hb.ctl.inv (fun u v hv => by rw [← Member.weight_eq]; exact C54_votes_track_weight hw ht h hi hg hp hl ho hv)

/-- And the sum of the votes on a general proposal always fits, so the tallies are exact, also after the end. -/
theorem C54_tallies_exact {c : Cfg} (hw : c.Wf) (ht : c.Tame) {w : World} (h : Reachable c w) {id : Nat}
    {i : Controller.Info} (hi : w.ctl.infos.get id = some i) (hg : i.type = .general) {p : Gov.Poll}
    (hp : Gov.queryPoll w.gov id = .ok p) (o : Gov.Outcome) : p.votesFor o = Gov.votedSum w.gov id o :=
  (Gov.totalVotes_of_inv (h.base hw ht).ctl.inv (Controller.queryPoll_ok_iff.1 hp) ((h.tally hw ht).fits id i hi hg)).1 o

/-- User 10 voted with 60 and unstakes 25 of them: the vote counts 35. -/
example : ((Gov.queryPollVoter (sampleRun (sampleVoted ++ [unstake 10 25])).gov 1 10).map (·.amount),
    (sampleRun (sampleVoted ++ [unstake 10 25])).mem.weight 10,
    (sampleRun (sampleVoted ++ [unstake 10 25])).mem.total .never,
    Gov.votedTotal (sampleRun (sampleVoted ++ [unstake 10 25])).gov 1) = (some 35, 35, 75, 75) := by decide +kernel

end Verif.Dao
