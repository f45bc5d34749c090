import Verif.Dao.Rules

/-!
# The contracts of a DAO together: new rules and running proposals (C175)

The specification is in `Dao/Rules`: `World.ruling` (the same DAO with other rules in force), `Matching` (the rules agree in
whether execution may be early, in the voting period and in whether there is a council), `touches` (the message opens a
proposal or runs the actions of one that changes the rules).
-/

set_option linter.unusedSimpArgs false

namespace Verif.Dao
open Verif
open Verif.Controller (GovConfig CouncilConfig Matching)

/-- Every message that neither opens a proposal nor changes the rules is answered in the same way whatever quorum, threshold,
veto threshold, minimum deposit and rules of the council are in force: with the same error, or with the same change of the
state and the same messages. -/
theorem C175_message {c : Cfg} {e : Ext} {w : World} {a : Addr} {m : Msg} {k : GovConfig} {q : Option CouncilConfig}
    (h : Matching w.ctl k q) (hm : touches w m = false) :
    (∀ x, handle c e (w.ruling k q) a m = .error x ↔ handle c e w a m = .error x) ∧
    ∀ w1 l, handle c e w a m = .ok (w1, l) → handle c e (w.ruling k q) a m = .ok (w1.ruling k q, l) := by
  rw [(handle_ruling h hm).1]
  cases handle c e w a m with
  | error y => exact ⟨fun x => Iff.rfl, fun w1 l hl => (by cases hl)⟩
  | ok r => exact ⟨fun x => ⟨fun hx => (by cases hx), fun hx => (by cases hx)⟩, fun w1 l hl => by cases hl; rfl⟩

/-- **New rules do not change running proposals.** Take a history in which no proposal is opened and none that changes the rules
is executed. Had another quorum, threshold, veto threshold, minimum deposit or other rules of the council been in force, it
would have gone in the same way: the same messages, and in the end the same state but for the rules themselves. -/
theorem C175_running {c : Cfg} {w w' : World} {t : List Entry} (h : History c w w' t) {k : GovConfig}
    {q : Option CouncilConfig} (hm : Matching w.ctl k q) (ht : ∀ x ∈ t, touches x.world x.msg = false) :
    ∃ t', History c (w.ruling k q) (w'.ruling k q) t' ∧ t'.map Entry.label = t.map Entry.label := by
  obtain ⟨t', h1, h2, _⟩ := h.ruling hm ht
  exact ⟨t', h1, h2⟩

/-- What is answered about proposals is the same, too. -/
theorem C175_query {c : Cfg} {e : Ext} {w : World} {k : GovConfig} {q : Option CouncilConfig} (h : Matching w.ctl k q)
    (id : Nat) : Controller.queryProposal (c.env e (w.ruling k q)) (w.ruling k q).ctl (w.ruling k q).gov id =
      Controller.queryProposal (c.env e w) w.ctl w.gov id := by
  have ha : ∀ t, Controller.allowsEarly (w.ruling k q).ctl t = Controller.allowsEarly w.ctl t := by
    intro t
    cases t <;> simp [Controller.allowsEarly, World.ruling, Controller.State.ruling, h.early]
  unfold Controller.queryProposal Controller.toResponse Controller.fixStatus
  simp only [ha]
  rfl

/-- Whether execution may be early. -/
def earlyChange (b : Bool) : Controller.GovChange := ⟨none, none, none, none, none, none, some b⟩

/-- Early execution is switched off by the first proposal. The second one is to switch it on again; while it runs, the third
is opened and gets the votes of user 10. The voting on the second one is over, that on the third one is not. -/
def sampleSwitch : List Step :=
  [stake 10 60, stake 11 40, at_ 2, propose 12 [.updateGovConfig (earlyChange false)], at_ 3, vote 10 1 .yes, at_ 20, execute 13 1,
   at_ 30, propose 12 [.updateGovConfig (earlyChange true)], vote 10 2 .yes, at_ 100, propose 12 [.updateMetadata 7],
   vote 10 3 .yes, at_ 135]

/-- Rules with another quorum and threshold, for proposals that need no deposit, and another council. -/
def otherRules : GovConfig := ⟨ONE / 3, ONE / 4 * 3, some (ONE / 5), 100, none, false⟩

/-- Hypotheses of `C175_running`: a change of the stake of a voter, another vote, and the execution of the proposal. -/
example : ∃ w' t, Reachable sampleCfg (sampleRun sampleSwitch) ∧
    Matching (sampleRun sampleSwitch).ctl otherRules (some ⟨[], ONE, ONE⟩) ∧
    History sampleCfg (sampleRun sampleSwitch) w' t ∧ (∀ x ∈ t, touches x.world x.msg = false) ∧
    outcome w' 3 = some (.passed 0 80) := by
  have hs : ((traceAll sampleCfg (sampleRun sampleSwitch) [stake 10 20, vote 11 3 .no, at_ 205, execute 13 3]).map (fun r =>
      (r.2.all (fun x => ! touches x.world x.msg), outcome r.1 3))) = some (true, some (.passed 0 80)) := by decide +kernel
  obtain ⟨⟨w', t⟩, h1, h2⟩ := Option.map_eq_some_iff.1 hs
  simp only [Prod.mk.injEq] at h2
  refine ⟨w', t, sampleRun_reachable _, ⟨by decide +kernel, by decide +kernel, by decide +kernel⟩,
    traceAll_history _ .start h1, fun x hx => ?_, h2.2⟩
  have := List.all_eq_true.1 h2.1 x hx
  simpa using this

/-- Whether execution may be early applies to running proposals at once. Before the second proposal is executed, the third cannot
be executed, since its voting is not over. In the same block, after the execution of the second, it can, and there is no
cooldown. -/
theorem C175_early_witness : ∃ w1 w2 : World, Reachable sampleCfg (sampleRun sampleSwitch) ∧
    handle sampleCfg sampleExt (sampleRun sampleSwitch) 13 (.ctl (.execute 3)) = .error .withinVotingPeriod ∧
    Later sampleCfg (sampleRun sampleSwitch) w1 ∧ w1.block = (sampleRun sampleSwitch).block ∧
    Later sampleCfg w1 w2 ∧ w2.block = w1.block ∧ outcome w2 3 = some (.passed 0 60) := by
  have hs : ((traceAll sampleCfg (sampleRun sampleSwitch) [execute 13 2]).bind (fun r =>
      (traceAll sampleCfg r.1 [execute 13 3]).map (fun r2 =>
        decide (r.1.block = (sampleRun sampleSwitch).block ∧ r2.1.block = r.1.block ∧ outcome r2.1 3 = some (.passed 0 60))))) =
      some true := by decide +kernel
  obtain ⟨r, h1, h2⟩ := Option.bind_eq_some_iff.1 hs
  obtain ⟨r2, h3, h4⟩ := Option.map_eq_some_iff.1 h2
  have h5 := of_decide_eq_true h4
  have h6 : ∀ x : Except Err (World × List Item), (match x with | .error .withinVotingPeriod => true | _ => false) = true →
      x = .error .withinVotingPeriod := by
    intro x hx
    split at hx
    · rfl
    · cases hx
  exact ⟨r.1, r2.1, sampleRun_reachable _, h6 _ (by decide +kernel), (traceAll_history _ .start h1).later, h5.1,
    (traceAll_history _ .start h3).later, h5.2.1, h5.2.2⟩

/-- The voting period in force matters to running proposals as well: their cooldown is a tenth of it. The same vote on the
same proposal holds up its execution for 10 or for 5 seconds. -/
theorem C175_duration_witness : ∃ w : World, Reachable sampleCfg w ∧
    ((handle sampleCfg sampleExt w 10 (.ctl (.castVote 1 .yes))).toOption.bind
      (fun r => (r.1.ctl.infos.get 1).bind (·.earliest))) = some (13 * 10 ^ 9) ∧
    ((handle sampleCfg sampleExt (w.ruling { w.ctl.config with voteDuration := 50 } w.ctl.council) 10
      (.ctl (.castVote 1 .yes))).toOption.bind (fun r => (r.1.ctl.infos.get 1).bind (·.earliest))) = some (8 * 10 ^ 9) :=
  ⟨sampleRun (sampleVoted.take 5), sampleRun_reachable _, by decide +kernel, by decide +kernel⟩

end Verif.Dao
