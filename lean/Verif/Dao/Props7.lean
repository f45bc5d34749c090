import Verif.Controller.Props2
import Verif.Dao.Props2
import Verif.Dao.Props4
import Verif.Dao.Totals

/-!
# The contracts of a DAO together: what the query of a proposal reports, and what is settled when voting ends
(C108, C109, C110)
-/

set_option linter.unusedSimpArgs false

namespace Verif.Dao
open Verif
open Verif.Controller (queryProposal Response PType Info)
open Verif.Staking (At)

/-! ### Specification -/

/-- The kind of proposal that a message creates, and what it says. -/
def asked : Controller.Msg → Option (PType × Controller.Proposal)
  | .createProposal p _ | .createWithNft p _ | .receive _ _ (some p) => some (.general, p)
  | .createCouncil p => some (.council, p)
  | _ => none

/-- The votes reported for an option. -/
def shownVotes (x : Response) (o : Gov.Outcome) : Nat := (x.results.get o.idx).getD 0

/-- All votes reported. -/
def shownCast (x : Response) : Nat :=
  shownVotes x .yes + shownVotes x .no + shownVotes x .abstain + shownVotes x .veto

/-- The same answer, apart from the status. -/
def SameBut (x y : Response) : Prop :=
  y.type = x.type ∧ y.id = x.id ∧ y.proposer = x.proposer ∧ y.title = x.title ∧ y.description = x.description ∧
    y.startedAt = x.startedAt ∧ y.expires = x.expires ∧ y.actions = x.actions ∧ y.results = x.results ∧
    y.totalVotes = x.totalVotes

/-! ### Lemmas -/

/-- What a proposal is measured against. -/
def moment (i : Info) (p : Gov.Poll) (now : Nat) : At :=
  match i.executedAt with
  | some b => .time (min p.endsAt b.time)
  | none => if p.endsAt ≤ now then .time p.endsAt else .never

theorem query_cases {c : Cfg} {w : World} (hb : Base c w) {e : Ext} {id : Nat} {x : Response}
    (h : queryProposal (c.env e w) w.ctl w.gov id = .ok x) :
    ∃ i p, w.ctl.infos.get id = some i ∧ w.gov.polls.get id = some p ∧
      Controller.queryStatus (c.env e w) w.ctl w.gov id = .ok x.status ∧
      x = { type := i.type, id := id, proposer := p.proposer, title := p.label, description := p.description,
            status := x.status, startedAt := p.startedAt, expires := p.endsAt, actions := i.actions, results := p.results,
            totalVotes := bodyTotal w i.type (moment i p w.block.time) } := by
  unfold queryProposal at h
  rw [bind_ok_iff] at h
  obtain ⟨p, hp, h⟩ := h
  have hg := Controller.queryPoll_ok_iff.1 hp
  have hid := (hb.ctl.inv.pid id p hg).1
  unfold Controller.toResponse at h
  rw [hid] at h
  cases hi : w.ctl.infos.get id with
  | none => rw [hi] at h; cases h
  | some i =>
    rw [hi] at h
    simp only [bind_ok_iff, pure_ok_iff] at h
    obtain ⟨st, hst, rfl⟩ := h
    refine ⟨i, p, rfl, hg, ?_, ?_⟩
    · unfold Controller.queryStatus
      rw [bind_ok_iff]
      exact ⟨p, hp, by rw [hi]; exact hst⟩
    · simp only [totalVotes_eq, Response.mk.injEq, true_and]
      unfold moment
      cases i.executedAt with
      | none =>
        simp only
        by_cases he : p.endsAt ≤ w.block.time
        · rw [if_pos he, if_pos (show p.endsAt ≤ (c.env e w).block.time from he)]
        · rw [if_neg he, if_neg (show ¬ p.endsAt ≤ (c.env e w).block.time from he)]
      | some b => rfl

theorem query_status {c : Cfg} (hw : c.Wf) (ht : c.Tame) {w : World} (hr : Reachable c w) {e : Ext} {id : Nat}
    {x : Response} (h : queryProposal (c.env e w) w.ctl w.gov id = .ok x) {i : Info}
    (hi : w.ctl.infos.get id = some i) : x.status = .executed ↔ i.executedAt ≠ none := by
  obtain ⟨i', _, hi', _, hs, _⟩ := query_cases (hr.base hw ht) h
  rw [hi] at hi'; cases hi'
  unfold Controller.queryStatus at hs
  rw [bind_ok_iff] at hs
  obtain ⟨p, _, hs⟩ := hs
  rw [hi] at hs
  rw [fixStatus_executed hs]
  cases i.executedAt <;> simp

/-- Every stored proposal has an answer. -/
theorem query_total {c : Cfg} {w : World} (hb : Base c w) (e : Ext) {id : Nat} {p : Gov.Poll}
    (hp : w.gov.polls.get id = some p) : ∃ x, queryProposal (c.env e w) w.ctl w.gov id = .ok x :=
  ⟨_, (answer_ok hb _ hp).2.2⟩

/-- A creation, followed to any later state. -/
theorem creation_cases {c : Cfg} (hw : c.Wf) (ht : c.Tame) {w w1 w' : World} (hr : Reachable c w) {a : Addr}
    {m : Controller.Msg} (ha : c.outsider a) (hx : Exec c w [.call a (.ctl m)] w1) (hl : Later c w1 w') {t : PType}
    {p : Controller.Proposal} (hm : asked m = some (t, p))
    (hfit : w.block.time + w.ctl.config.voteDuration * 10 ^ 9 < 2 ^ 64) :
    ∃ i q, w'.ctl.infos.get (w.gov.pollCount + 1) = some i ∧ w'.gov.polls.get (w.gov.pollCount + 1) = some q ∧
      i.type = t ∧ i.actions = p.actions ∧ q.proposer = Controller.proposerOf a m ∧ q.label = p.title ∧
      q.description = p.description ∧ q.startedAt = w.block.time ∧
      q.endsAt = w.block.time + w.ctl.config.voteDuration * 10 ^ 9 := by
  cases hx with
  | @call _ u v _ _ _ subs _ e room h h1 h2 =>
    cases h2
    have hb := hr.base hw ht
    have hh := handled hw ht hb (Or.inl ha) room h
    have hm1 := (h1.moved hw ht hh.allowed hh.base).2.step
    have hr1 : Reachable c w1 := .tx hr ha (.call e room h h1 (.nil _))
    have hm2 := hm1.trans (hl.moved hw ht hr1).1
    obtain ⟨r, hc⟩ := handle_ctl h
    have hworld := hc.world
    simp only at hworld
    subst hworld
    have key : ∃ i q, r.1.infos.get (w.gov.pollCount + 1) = some i ∧ r.2.1.polls.get (w.gov.pollCount + 1) = some q ∧
        i.type = t ∧ i.actions = p.actions ∧ q.proposer = Controller.proposerOf a m ∧ q.label = p.title ∧
        q.description = p.description ∧ q.startedAt = w.block.time ∧
        q.endsAt = w.block.time + w.ctl.config.voteDuration * 10 ^ 9 := by
      have hgen : m.isGeneral = true → Controller.proposalOf m = some p → t = .general → ∃ i q,
          r.1.infos.get (w.gov.pollCount + 1) = some i ∧ r.2.1.polls.get (w.gov.pollCount + 1) = some q ∧
          i.type = t ∧ i.actions = p.actions ∧ q.proposer = Controller.proposerOf a m ∧ q.label = p.title ∧
          q.description = p.description ∧ q.startedAt = w.block.time ∧
          q.endsAt = w.block.time + w.ctl.config.voteDuration * 10 ^ 9 := by
        intro k1 k2 k3
        obtain ⟨h3, h4, _⟩ := Controller.C89_general_terms k1 k2 hc.exec hfit room
        exact ⟨_, _, h4, Controller.queryPoll_ok_iff.1 h3, k3.symm, rfl, rfl, rfl, rfl, rfl, rfl⟩
      cases m with
      | createProposal p' f => cases hm; exact hgen rfl rfl rfl
      | createWithNft p' f => cases hm; exact hgen rfl rfl rfl
      | receive f n p' =>
        cases p' with
        | none => cases hm
        | some p' => cases hm; exact hgen rfl rfl rfl
      | createCouncil p' =>
        cases hm
        obtain ⟨_, _, h3, h4, _⟩ := Controller.C89_council_terms hc.exec hfit room
        exact ⟨_, _, h4, Controller.queryPoll_ok_iff.1 h3, rfl, rfl, rfl, rfl, rfl, rfl, rfl⟩
      | _ => cases hm
    obtain ⟨i, q, k1, k2, k3, k4, k5, k6, k7, k8, k9⟩ := key
    obtain ⟨i', a1, a2, _, a3, _⟩ := hm2.infos _ i k1
    obtain ⟨q', b1, b2, _⟩ := hm2.polls _ q k2
    have b3 : q'.proposer = q.proposer ∧ q'.label = q.label ∧ q'.description = q.description ∧
        q'.startedAt = q.startedAt ∧ q'.endsAt = q.endsAt := by
      simp only [Gov.Poll.terms, Gov.Terms.mk.injEq] at b2
      obtain ⟨_, b3, _, b4, b5, b6, b7, _⟩ := b2
      exact ⟨b3, b4, b5, b6, b7⟩
    obtain ⟨c1, c2, c3, c4, c5⟩ := b3
    exact ⟨i', q', a1, b1, a2.trans k3, a3.trans k4, c1.trans k5, c2.trans k6, c3.trans k7, c4.trans k8, c5.trans k9⟩

/-- The answer for proposal 1 of the sample: proposer, start, end, status, all votes and total weight. -/
def sampleShown (l : List Step) : Option (Addr × Nat × Nat × Controller.PStatus × Nat × Nat) :=
  match queryProposal (sampleCfg.env sampleExt (sampleRun l)) (sampleRun l).ctl (sampleRun l).gov 1 with
  | .ok x => some (x.proposer, x.startedAt, x.expires, x.status, shownCast x, x.totalVotes)
  | .error _ => none

/-! ## C108 -/

/-- From the moment a proposal is created on, the query of the proposal answers, and shows what was proposed: kind,
proposer, title, description and actions, and the start and end of voting by the configuration at that moment. -/
theorem C108_shown {c : Cfg} (hw : c.Wf) (ht : c.Tame) {w w1 w' : World} (hr : Reachable c w) {a : Addr}
    {m : Controller.Msg} (ha : c.outsider a) (hx : Exec c w [.call a (.ctl m)] w1) (hl : Later c w1 w') {t : PType}
    {p : Controller.Proposal} (hm : asked m = some (t, p))
    (hfit : w.block.time + w.ctl.config.voteDuration * 10 ^ 9 < 2 ^ 64) (e : Ext) :
    ∃ x, queryProposal (c.env e w') w'.ctl w'.gov (w.gov.pollCount + 1) = .ok x ∧ x.id = w.gov.pollCount + 1 ∧
      x.type = t ∧ x.proposer = Controller.proposerOf a m ∧ x.title = p.title ∧ x.description = p.description ∧
      x.actions = p.actions ∧ x.startedAt = w.block.time ∧
      x.expires = w.block.time + w.ctl.config.voteDuration * 10 ^ 9 := by
  have hb' := (hl.reachable (.tx hr ha hx)).base hw ht
  obtain ⟨i, q, k1, k2, k3, k4, k5, k6, k7, k8, k9⟩ := creation_cases hw ht hr ha hx hl hm hfit
  obtain ⟨x, hq⟩ := query_total hb' e k2
  obtain ⟨i', q', a1, a2, _, hxe⟩ := query_cases hb' hq
  rw [k1] at a1; cases a1
  rw [k2] at a2; cases a2
  refine ⟨x, hq, ?_⟩
  rw [hxe]
  exact ⟨rfl, k3, k5, k6, k7, k4, k8, k9⟩

/-- User 12 proposes at second 2, a vote takes 100 seconds: this is shown at once, while users vote, and after the end. -/
example : asked (.createProposal ⟨0, 0, [.executeMsgs [1]], none⟩ [(20, 30)]) = some (.general, ⟨0, 0, [.executeMsgs [1]], none⟩) ∧
    sampleShown [stake 10 60, stake 11 40, at_ 2, propose 12 []] =
      some (12, 2 * 10 ^ 9, 102 * 10 ^ 9, .inProgress, 0, 100) ∧
    sampleShown sampleVoted = some (12, 2 * 10 ^ 9, 102 * 10 ^ 9, .inProgress, 100, 100) ∧
    sampleShown (sampleVoted ++ [at_ 200]) = some (12, 2 * 10 ^ 9, 102 * 10 ^ 9, .passed, 100, 100) := by
  refine ⟨rfl, ?_, ?_, ?_⟩ <;> decide +kernel

/-- The votes shown for a proposal are the sums of the votes recorded on it. (The sum of the votes on a general proposal
always fits 128 bits; the votes of a council fit unless it has more than 2^127 members or so.) -/
theorem C108_tallies {c : Cfg} (hw : c.Wf) (ht : c.Tame) {w : World} (hr : Reachable c w) {e : Ext} {id : Nat}
    {x : Response} (h : queryProposal (c.env e w) w.ctl w.gov id = .ok x)
    (hg : x.type = .general ∨ Gov.votedTotal w.gov id < 2 ^ 128) (o : Gov.Outcome) :
    shownVotes x o = Gov.votedSum w.gov id o := by
  obtain ⟨i, p, hi, hp, _, hx⟩ := query_cases (hr.base hw ht) h
  rw [hx] at hg ⊢
  rcases hg with hg | hf
  · exact C54_tallies_exact hw ht hr hi hg (Controller.queryPoll_ok_iff.2 hp) o
  · exact (Gov.totalVotes_of_inv (hr.base hw ht).ctl.inv hp hf).1 o

/-- The total weight shown next to the votes: the current one of the body that decides while voting goes on, and the one
at the end of voting afterwards. -/
theorem C108_total {c : Cfg} (hw : c.Wf) (ht : c.Tame) {w : World} (hr : Reachable c w) {e : Ext} {id : Nat}
    {x : Response} (h : queryProposal (c.env e w) w.ctl w.gov id = .ok x) (hs : x.status ≠ .executed) :
    (w.block.time < x.expires → x.totalVotes = bodyTotal w x.type .never) ∧
    (x.expires ≤ w.block.time → x.totalVotes = bodyTotal w x.type (.time x.expires)) := by
  obtain ⟨i, p, hi, hp, _, hx⟩ := query_cases (hr.base hw ht) h
  have hno : i.executedAt = none := by
    by_contra hne
    exact hs ((query_status hw ht hr h hi).2 hne)
  have hmom : x.totalVotes = bodyTotal w i.type (if p.endsAt ≤ w.block.time then .time p.endsAt else .never) := by
    rw [hx]
    unfold moment
    rw [hno]
  rw [hmom, hx]
  refine ⟨fun hlt => ?_, fun hle => ?_⟩
  · rw [if_neg (by simpa using hlt)]
  · rw [if_pos hle]

/-- User 12 stakes 50 during the vote, and 500 after it: the total shown is 150 during the vote and stays at that. -/
example : sampleShown (sampleVoted ++ [at_ 9, stake 12 50]) =
      some (12, 2 * 10 ^ 9, 102 * 10 ^ 9, .inProgress, 100, 150) ∧
    sampleShown (sampleVoted ++ [at_ 9, stake 12 50, at_ 102, stake 12 500]) =
      some (12, 2 * 10 ^ 9, 102 * 10 ^ 9, .passed, 100, 150) := by
  constructor <;> decide +kernel

/-- After a proposal is executed, the query shows it as executed for good, next to the total weight at the time of
execution or at the end of voting, whichever was first. -/
theorem C108_executed {c : Cfg} (hw : c.Wf) (ht : c.Tame) {w w1 w' : World} (hr : Reachable c w) {a : Addr} {id : Nat}
    (ha : c.outsider a) (hx : Exec c w [.call a (.ctl (.execute id))] w1) (hl : Later c w1 w') (e : Ext) :
    ∃ x, queryProposal (c.env e w') w'.ctl w'.gov id = .ok x ∧ x.status = .executed ∧
      x.totalVotes = bodyTotal w x.type (.time (min x.expires w.block.time)) := by
  have hb := hr.base hw ht
  have hr1 : Reachable c w1 := .tx hr ha hx
  have hr' := hl.reachable hr1
  have hset : Settles w w' := by
    obtain ⟨_, _, h1⟩ := hx.induct hw ht settles_cases
      (fun i hi => by rw [List.mem_singleton.1 hi]; exact Or.inl ha) hb
    exact (h1 (hr.timely hw ht)).trans (hl.settles hw ht hr1)
  cases hx with
  | @call _ u v _ _ _ subs _ e0 room h h1 h2 =>
    cases h2
    have hh := handled hw ht hb (Or.inl ha) room h
    have hm2 := ((h1.moved hw ht hh.allowed hh.base).2.step).trans (hl.moved hw ht hr1).1
    obtain ⟨r, hc⟩ := handle_ctl h
    have hworld := hc.world
    have hexec := hc.exec
    simp only at hworld
    subst hworld
    simp only [Controller.exec] at hexec
    obtain ⟨_, i, p, hi, hp, hno, _, _, _, _, rfl⟩ := Controller.executeProposal_ok_iff.1 hexec
    obtain ⟨i', a1, a2, _, _, a3⟩ := hm2.infos id { i with executedAt := some w.block } (Map.get_set_self _ _ _)
    obtain ⟨p', b1, b2, _⟩ := hm2.polls id _ (Map.get_set_self _ _ _)
    have hi' : i' = { i with executedAt := some w.block } := a3 (by simp)
    obtain ⟨x, hq⟩ := query_total (hr'.base hw ht) e b1
    obtain ⟨i2, p2, c1, c2, _, hxe⟩ := query_cases (hr'.base hw ht) hq
    rw [a1] at c1; cases c1
    rw [b1] at c2; cases c2
    refine ⟨x, hq, (query_status hw ht hr' hq a1).2 (by rw [hi']; simp), ?_⟩
    rw [hxe]
    simp only
    unfold moment
    rw [hi']
    simp only
    exact hset.total _ _ (Nat.div_le_div_right (min_le_right _ _))

/-- Executed early at second 20: stakes and votes of later on do not show. -/
example : sampleShown (sampleDone ++ [at_ 21, stake 12 50, at_ 300, stake 11 7]) =
    some (12, 2 * 10 ^ 9, 102 * 10 ^ 9, .executed, 100, 100) := by decide +kernel

/-! ## C109 -/

/-- The total weight at a time is the weight at the last block of an earlier second, whatever happens later. -/
theorem C109_total_at {c : Cfg} (hw : c.Wf) (ht : c.Tame) {w w' : World} (hr : Reachable c w) {b : Block} {T : Nat}
    (hlt : w.block.time / 10 ^ 9 < T / 10 ^ 9) (hle : T / 10 ^ 9 ≤ b.time / 10 ^ 9) (hh : w.block.height ≤ b.height)
    (hl : Later c { w with block := b } w') (t : PType) : bodyTotal w' t (.time T) = bodyTotal w t .never := by
  have htm : w.block.time ≤ b.time := by omega
  have hr1 : Reachable c { w with block := b } := .block hr hh htm
  rw [(hl.settles hw ht hr1).total t T hle]
  exact bodyTotal_ahead (hr.base hw ht) (hr.timely hw ht) hlt t

/-- The weight at second 101 is 125, since the last block before is that of second 50. -/
example : bodyTotal (sampleRun (sampleVoted ++ [at_ 50, stake 12 25, at_ 101, stake 12 75, at_ 130, unstake 10 60])) .general
    (.time (101 * 10 ^ 9)) = 125 ∧ bodyTotal (sampleRun (sampleVoted ++ [at_ 50, stake 12 25])) .general .never = 125 := by
  decide +kernel

/-- Once voting has ended, the answer for a proposal changes no more, except that the status becomes `Executed` when
the proposal is executed. -/
theorem C109_settled {c : Cfg} (hw : c.Wf) (ht : c.Tame) {w w' : World} (hr : Reachable c w) (hl : Later c w w')
    {e : Ext} {id : Nat} {x : Response} (h : queryProposal (c.env e w) w.ctl w.gov id = .ok x)
    (he : x.expires ≤ w.block.time) (e' : Ext) :
    ∃ x', queryProposal (c.env e' w') w'.ctl w'.gov id = .ok x' ∧ SameBut x x' ∧
      (x'.status = x.status ∨ x'.status = .executed) := by
  have hb := hr.base hw ht
  have hr' := hl.reachable hr
  have hb' := hr'.base hw ht
  have hset := hl.settles hw ht hr
  have hmv := (hl.moved hw ht hr).1
  obtain ⟨i, p, hi, hp, hst, hx⟩ := query_cases hb h
  have he : p.endsAt ≤ w.block.time := by rw [hx] at he; exact he
  obtain ⟨i', p', hi', hp', a3, a4, a5, a6⟩ := hset.closed id i p hi hp he
  have hend : p'.endsAt = p.endsAt := Gov.terms_endsAt a3
  have he' : p'.endsAt ≤ w'.block.time := by rw [hend]; exact le_trans he hset.clock
  obtain ⟨i2, c1, _, _, c2, _⟩ := hmv.infos id i hi
  rw [hi'] at c1; cases c1
  obtain ⟨x', hq⟩ := query_total hb' e' hp'
  obtain ⟨i3, p3, d1, d2, hst', hx'⟩ := query_cases hb' hq
  rw [hi'] at d1; cases d1
  rw [hp'] at d2; cases d2
  have htot : bodyTotal w' i'.type (moment i' p' w'.block.time) = bodyTotal w i.type (moment i p w.block.time) := by
    have hle : ∀ T, T ≤ w.block.time → bodyTotal w' i.type (.time T) = bodyTotal w i.type (.time T) :=
      fun T hT => hset.total _ _ (Nat.div_le_div_right hT)
    rw [a5]
    unfold moment
    rcases a6 with ⟨a6, _⟩ | ⟨a6, ⟨b, a7, a8⟩, _⟩
    · rw [a6, hend]
      cases i.executedAt with
      | none =>
        simp only
        rw [if_pos he, if_pos (le_trans he hset.clock)]
        exact hle _ he
      | some b => exact hle _ (le_trans (min_le_left _ _) he)
    · rw [a6, a7, hend]
      simp only
      rw [if_pos he, min_eq_left (le_trans he a8.1)]
      exact hle _ he
  refine ⟨x', hq, ?_, ?_⟩
  · rw [hx, hx']
    unfold SameBut
    simp only [htot, a4, a5, c2, hend, true_and, and_true]
    simp only [Gov.Poll.terms, Gov.Terms.mk.injEq] at a3
    obtain ⟨_, b3, _, b4, b5, b6, _⟩ := a3
    exact ⟨b3, b4, b5, b6, a5 ▸ htot⟩
  · obtain ⟨i4, p4, d3, d4, hc⟩ := status_cases hw ht hr hst
    rw [hi] at d3; cases d3
    rw [hp] at d4; cases d4
    obtain ⟨i5, p5, d5, d6, hc'⟩ := status_cases hw ht hr' hst'
    rw [hi'] at d5; cases d5
    rw [hp'] at d6; cases d6
    rcases hc' with ⟨_, h1⟩ | ⟨h1, h2⟩
    · exact Or.inr h1
    · rcases h2 with ⟨_, _, h2⟩ | ⟨h2, _⟩ | ⟨h2, _⟩
      · rcases a6 with ⟨a6, _⟩ | ⟨_, ⟨b, a7, _⟩, _⟩
        · rcases hc with ⟨h3, _⟩ | ⟨_, ⟨_, _, h4⟩ | ⟨h4, _⟩ | ⟨h4, _⟩⟩
          · exact absurd (a6.symm.trans h1) h3
          · left
            rw [h2, h4]
            have : p'.finalStatus (Controller.endTotal (c.env e' w') p' i'.type) =
                p.finalStatus (Controller.endTotal (c.env e w) p i.type) := by
              rw [finalStatus_congr a3 a4]
              unfold Controller.endTotal
              rw [if_pos (show p'.endsAt ≤ (c.env e' w').block.time from he'),
                if_pos (show p.endsAt ≤ (c.env e w).block.time from he), totalVotes_eq, totalVotes_eq, hend, a5,
                hset.total _ _ (Nat.div_le_div_right he)]
            rw [this]
          · omega
          · omega
        · rw [h1] at a7; cases a7
      · omega
      · omega

/-- Lost for lack of quorum (5 of 100): stakes after the end do not change that, nor does the execution. -/
example : sampleShown [stake 10 95, stake 11 5, at_ 2, propose 12 [], at_ 3, vote 11 1 .yes, at_ 102] =
      some (12, 2 * 10 ^ 9, 102 * 10 ^ 9, .rejected, 5, 100) ∧
    sampleShown [stake 10 95, stake 11 5, at_ 2, propose 12 [], at_ 3, vote 11 1 .yes, at_ 102, stake 11 70, unstake 10 90,
      at_ 104] = some (12, 2 * 10 ^ 9, 102 * 10 ^ 9, .rejected, 5, 100) ∧
    sampleShown [stake 10 95, stake 11 5, at_ 2, propose 12 [], at_ 3, vote 11 1 .yes, at_ 102, stake 11 70, unstake 10 90,
      at_ 104, execute 13 1] = some (12, 2 * 10 ^ 9, 102 * 10 ^ 9, .executed, 5, 100) := by
  refine ⟨?_, ?_, ?_⟩ <;> decide +kernel

/-- The result that a proposal gets when it is executed after the end of voting is the one shown when voting ended:
what the rule gives for the votes recorded at that moment, if they fit 128 bits, and the total weight then shown. -/
theorem C109_outcome {c : Cfg} (hw : c.Wf) (ht : c.Tame) {w w' : World} (hr : Reachable c w) (hl : Later c w w')
    {e : Ext} {id : Nat} {x : Response} (h : queryProposal (c.env e w) w.ctl w.gov id = .ok x)
    (he : x.expires ≤ w.block.time) (hs : x.status ≠ .executed) {st : Gov.Status} (ho : outcome w' id = some st) :
    (x.status = .passed ∧ isPassed st = true ∨ x.status = .rejected ∧ isPassed st = false) ∧
    (x.type = .general ∨ Gov.votedTotal w.gov id < 2 ^ 128 → ∀ p, Gov.queryPoll w.gov id = .ok p → st =
      Gov.ruleStatus (Gov.votedSum w.gov id .yes) (Gov.votedSum w.gov id .no) (Gov.votedSum w.gov id .abstain)
        (Gov.votedSum w.gov id .veto) p.quorum p.threshold p.vetoThreshold x.totalVotes) := by
  have hb := hr.base hw ht
  have hset := hl.settles hw ht hr
  obtain ⟨htot1, htot2⟩ := C108_total hw ht hr h hs
  have htot := htot2 he
  obtain ⟨i, p, hi, hp, hst, hx⟩ := query_cases hb h
  have hexp : x.expires = p.endsAt := by rw [hx]
  have htype : x.type = i.type := by rw [hx]
  rw [hexp] at he htot
  rw [htype] at htot
  have hno : i.executedAt = none := by
    by_contra hne
    exact hs ((query_status hw ht hr h hi).2 hne)
  obtain ⟨i', p', hi', hp', a3, a4, a5, a6⟩ := hset.closed id i p hi hp he
  unfold outcome at ho
  rw [hi', hp'] at ho
  simp only at ho
  have hfin : st = p.finalStatus x.totalVotes := by
    rw [htot]
    rcases a6 with ⟨a6, _⟩ | ⟨_, ⟨b, a7, _⟩, a8⟩
    · rw [a6, hno] at ho; cases ho
    · rw [a7] at ho
      cases ho
      exact a8
  refine ⟨?_, ?_⟩
  · obtain ⟨i4, p4, d3, d4, hc⟩ := status_cases hw ht hr hst
    rw [hi] at d3; cases d3
    rw [hp] at d4; cases d4
    have hend : Controller.endTotal (c.env e w) p i.type = x.totalVotes := by
      unfold Controller.endTotal
      rw [if_pos (show p.endsAt ≤ (c.env e w).block.time from he), totalVotes_eq, htot]
    rw [hend, ← hfin] at hc
    rcases hc with ⟨h3, _⟩ | ⟨_, ⟨_, _, h4⟩ | ⟨h4, _⟩ | ⟨h4, _⟩⟩
    · exact absurd hno h3
    · cases hpass : isPassed st with
      | true => rw [hpass] at h4; exact Or.inl ⟨h4, rfl⟩
      | false => rw [hpass] at h4; exact Or.inr ⟨h4, rfl⟩
    · omega
    · omega
  · intro hg q hq
    rw [Controller.queryPoll_ok_iff, hp] at hq; cases hq
    rw [hfin]
    rcases hg with hg | hf
    · exact Gov.finalStatus_rule_of_inv hb.ctl.inv hp ((hr.tally hw ht).fits id i hi (htype ▸ hg)) _
    · exact Gov.finalStatus_rule_of_inv hb.ctl.inv hp hf _

/-- The result of that proposal. -/
example : outcome (sampleRun [stake 10 95, stake 11 5, at_ 2, propose 12 [], at_ 3, vote 11 1 .yes, at_ 102, stake 11 70,
    unstake 10 90, at_ 104, execute 13 1]) 1 = some (.rejected .quorumNotReached) := by decide +kernel

/-! ## C110 -/

theorem shownCast_eq {c : Cfg} (hw : c.Wf) (ht : c.Tame) {w : World} (hr : Reachable c w) {e : Ext} {id : Nat}
    {x : Response} (h : queryProposal (c.env e w) w.ctl w.gov id = .ok x) {p : Gov.Poll}
    (hp : w.gov.polls.get id = some p) : shownCast x = castOf p := by
  obtain ⟨_, p', _, hp', _, hx⟩ := query_cases (hr.base hw ht) h
  rw [hp] at hp'; cases hp'
  rw [hx]
  rfl

theorem SameBut.cast {x y : Response} (h : SameBut x y) : shownCast y = shownCast x := by
  obtain ⟨_, _, _, _, _, _, _, _, h, _⟩ := h
  unfold shownCast shownVotes
  rw [h]

/-- While voting on a general proposal goes on, the votes shown are at most the total weight shown.
Missing from C110: the time after the end of voting, see `C110_exceeds_witness`. -/
theorem C110_open_partial {c : Cfg} (hw : c.Wf) (ht : c.Tame) {w : World} (hr : Reachable c w) {e : Ext} {id : Nat}
    {x : Response} (h : queryProposal (c.env e w) w.ctl w.gov id = .ok x) (hg : x.type = .general)
    (hs : x.status ≠ .executed) (he : w.block.time < x.expires) : shownCast x ≤ x.totalVotes := by
  rw [(C108_total hw ht hr h hs).1 he, hg]
  obtain ⟨i, p, hi, hp, _, hx⟩ := query_cases (hr.base hw ht) h
  have hty : i.type = .general := by rw [hx] at hg; exact hg
  rw [shownCast_eq hw ht hr h hp, castOf_eq hw ht hr hi hty hp]
  have hno : i.executedAt = none := by
    by_contra hne
    exact hs ((query_status hw ht hr h hi).2 hne)
  exact C54_votes_bounded hw ht hr hi hty (Controller.queryPoll_ok_iff.2 hp)
    (((hr.base hw ht).ctl.ended id i p hi hp).1 hno) (by rw [hx] at he; exact he)

/-- The votes are at most the total also after the end of voting, and for good, if voting ends on a whole second.
Missing from C110: other ends of voting, see `C110_exceeds_witness`. -/
theorem C110_whole_second_partial {c : Cfg} (hw : c.Wf) (ht : c.Tame) {w w' : World} (hr : Reachable c w)
    (hl : Later c w w') {e e' : Ext} {id : Nat} {x x' : Response}
    (h : queryProposal (c.env e w) w.ctl w.gov id = .ok x) (hg : x.type = .general) (hs : x.status ≠ .executed)
    (he : x.expires ≤ w.block.time) (hd : 10 ^ 9 ∣ x.expires)
    (h' : queryProposal (c.env e' w') w'.ctl w'.gov id = .ok x') : shownCast x' ≤ x'.totalVotes := by
  have hnow : shownCast x ≤ x.totalVotes := by
    rw [(C108_total hw ht hr h hs).2 he, hg]
    obtain ⟨i, p, hi, hp, _, hx⟩ := query_cases (hr.base hw ht) h
    have hno : i.executedAt = none := by
      by_contra hne
      exact hs ((query_status hw ht hr h hi).2 hne)
    rw [shownCast_eq hw ht hr h hp]
    rw [hx] at hg he hd ⊢
    exact hr.cap hw ht id i p hi hp hg hd he (fun b hb => by rw [hno] at hb; cases hb)
  obtain ⟨y, hy, hsame, _⟩ := C109_settled hw ht hr hl h he e'
  rw [h'] at hy; cases hy
  rw [hsame.cast, hsame.2.2.2.2.2.2.2.2.2]
  exact hnow

/-- The same holds if no block falls into the part of the second in which voting ends that comes before the end; the
total then is the weight at the last block before the end.
Missing from C110: other blocks, see `C110_exceeds_witness`. -/
theorem C110_quiet_second_partial {c : Cfg} (hw : c.Wf) (ht : c.Tame) {w w' : World} (hr : Reachable c w) {b : Block}
    {e e' : Ext} {id : Nat} {x x' : Response} (h : queryProposal (c.env e w) w.ctl w.gov id = .ok x)
    (hg : x.type = .general) (hs : x.status ≠ .executed) (hlt : w.block.time / 10 ^ 9 < x.expires / 10 ^ 9)
    (hle : x.expires ≤ b.time) (hh : w.block.height ≤ b.height) (hl : Later c { w with block := b } w')
    (h' : queryProposal (c.env e' w') w'.ctl w'.gov id = .ok x') :
    x'.totalVotes = w.mem.total .never ∧ shownCast x' = shownCast x ∧ shownCast x' ≤ x'.totalVotes := by
  have htm : w.block.time ≤ b.time := by
    have := Nat.div_le_div_right (c := 10 ^ 9) hle
    omega
  have hr1 : Reachable c { w with block := b } := .block hr hh htm
  obtain ⟨i, p, hi, hp, _, hx⟩ := query_cases (hr.base hw ht) h
  obtain ⟨y, hy⟩ := query_total (hr1.base hw ht) e hp
  obtain ⟨j, q, hj, hq, _, hyx⟩ := query_cases (hr1.base hw ht) hy
  have hj : w.ctl.infos.get id = some j := hj
  have hq : w.gov.polls.get id = some q := hq
  rw [hi] at hj; cases hj
  rw [hp] at hq; cases hq
  have hexp : y.expires = x.expires := by rw [hx, hyx]
  have hty : y.type = .general := by rw [← hg, hx, hyx]
  have hno : i.executedAt = none := by
    by_contra hne
    exact hs ((query_status hw ht hr h hi).2 hne)
  have hys : y.status ≠ .executed := fun hh => (query_status hw ht hr1 hy hi).1 hh hno
  obtain ⟨z, hz, hsame, _⟩ := C109_settled hw ht hr1 hl hy (by rw [hexp]; exact hle) e'
  rw [h'] at hz; cases hz
  have htot : x'.totalVotes = w.mem.total .never := by
    rw [hsame.2.2.2.2.2.2.2.2.2, (C108_total hw ht hr1 hy hys).2 (by rw [hexp]; exact hle), hty, hexp]
    exact C109_total_at hw ht hr hlt (Nat.div_le_div_right hle) hh .refl .general
  have hcast : shownCast x' = shownCast x := by
    rw [hsame.cast, shownCast_eq hw ht hr h hp]
    exact shownCast_eq hw ht hr1 hy hp
  have hopen : w.block.time < x.expires := by
    by_contra hge
    push Not at hge
    have := Nat.div_le_div_right (c := 10 ^ 9) hge
    omega
  refine ⟨htot, hcast, ?_⟩
  rw [hcast, htot]
  have := C110_open_partial hw ht hr h hg hs hopen
  rw [(C108_total hw ht hr h hs).1 hopen, hg] at this
  exact this

/-- Both hold for proposals that are created and end on whole seconds, with blocks at whole seconds. -/
example : 10 ^ 9 ∣ 102 * 10 ^ 9 ∧ (101 * 10 ^ 9) / 10 ^ 9 < (102 * 10 ^ 9) / 10 ^ 9 ∧
    sampleShown (sampleVoted ++ [at_ 101, stake 11 70]) = some (12, 2 * 10 ^ 9, 102 * 10 ^ 9, .canExecuteEarly, 170, 170) ∧
    sampleShown (sampleVoted ++ [at_ 101, stake 11 70, at_ 102, unstake 10 50]) =
      some (12, 2 * 10 ^ 9, 102 * 10 ^ 9, .rejected, 170, 170) := by
  refine ⟨?_, ?_, ?_, ?_⟩ <;> decide +kernel

/-- A block half a second later than `at_`. -/
def half (t : Nat) : Step := .block ⟨t, t * 10 ^ 9 + 5 * 10 ^ 8⟩

/-- A proposal on which only coins vote that are staked half a second before the end. -/
def sampleLate (n : Nat) : List Step :=
  [stake 10 1000, half 2, propose 12 [], at_ 102, stake 11 n, vote 11 1 .yes, at_ 103]

/-- Votes can exceed the total weight that they are measured against: weight that is staked in the second in which
voting ends counts in votes, but not in the total. Here 5000 of 6000 coins are staked and vote half a second before
the end; the votes are measured against 1000. -/
theorem C110_exceeds_witness :
    ∃ c w e x, Cfg.Wf c ∧ Cfg.Tame c ∧ Reachable c w ∧ queryProposal (c.env e w) w.ctl w.gov 1 = .ok x ∧
      x.type = .general ∧ x.status = .passed ∧ x.expires ≤ w.block.time ∧ shownCast x = 5000 ∧ x.totalVotes = 1000 ∧
      w.mem.total .never = 6000 := by
  refine ⟨sampleCfg, sampleRun (sampleLate 5000), sampleExt,
    ⟨.general, 1, 12, 0, 0, .passed, 25 * 10 ^ 8, 1025 * 10 ^ 8, [], Map.empty.set 0 5000, 1000⟩,
    sampleCfg_wf, sampleCfg_tame, sampleRun_reachable _, ?_, rfl, rfl, ?_, ?_, rfl, ?_⟩ <;> decide +kernel

/-- So a quorum can be reached that is not reached by any total weight at which all votes count: 105 of 1105 coins vote,
which is less than the quorum of 10 % that the proposal asks for, and the proposal passes. -/
theorem C110_quorum_witness :
    ∃ c w e x p, Cfg.Wf c ∧ Cfg.Tame c ∧ Reachable c w ∧ queryProposal (c.env e w) w.ctl w.gov 1 = .ok x ∧
      Gov.queryPoll w.gov 1 = .ok p ∧ p.quorum = 10 ^ 17 ∧ x.type = .general ∧ x.status = .passed ∧
      x.expires ≤ w.block.time ∧ shownCast x = 105 ∧ w.mem.total .never = 1105 := by
  refine ⟨sampleCfg, sampleRun (sampleLate 105), sampleExt,
    ⟨.general, 1, 12, 0, 0, .passed, 25 * 10 ^ 8, 1025 * 10 ^ 8, [], Map.empty.set 0 105, 1000⟩,
    { id := 1, proposer := 12, deposit := 0, label := 0, description := 0, status := .inProgress (1025 * 10 ^ 8),
      startedAt := 25 * 10 ^ 8, endsAt := 1025 * 10 ^ 8, quorum := 10 ^ 17, threshold := 5 * 10 ^ 17,
      vetoThreshold := none, results := Map.empty.set 0 105 },
    sampleCfg_wf, sampleCfg_tame, sampleRun_reachable _, ?_, ?_, rfl, rfl, rfl, ?_, ?_, ?_⟩ <;> decide +kernel

/-- A proposal that is executed early, in the second in which user 11 stakes and votes. -/
def sampleHasty : List Step :=
  [stake 10 60, at_ 2, propose 12 [], at_ 3, vote 10 1 .yes, at_ 20, stake 11 400, vote 11 1 .yes, execute 13 1]

/-- Early execution measures the votes against the current total, but the query later shows another total: that before
the second of the execution. Here 460 votes were counted against 460 and are shown next to 60. -/
theorem C110_early_witness :
    ∃ c w e x, Cfg.Wf c ∧ Cfg.Tame c ∧ Reachable c w ∧ queryProposal (c.env e w) w.ctl w.gov 1 = .ok x ∧
      x.type = .general ∧ x.status = .executed ∧ shownCast x = 460 ∧ x.totalVotes = 60 ∧ w.mem.total .never = 460 := by
  refine ⟨sampleCfg, sampleRun sampleHasty, sampleExt,
    ⟨.general, 1, 12, 0, 0, .executed, 2 * 10 ^ 9, 102 * 10 ^ 9, [], Map.empty.set 0 460, 60⟩,
    sampleCfg_wf, sampleCfg_tame, sampleRun_reachable _, ?_, rfl, rfl, ?_, rfl, ?_⟩ <;> decide +kernel

end Verif.Dao
