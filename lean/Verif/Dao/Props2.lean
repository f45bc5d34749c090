import Verif.Dao.Props

/-!
# The contracts of a DAO together: property theorems (C55, C56, C57, C58, C73)

Vocabulary: `Verif/Dao/Spec.lean`, `Verif/Controller/Spec.lean`, `Verif/Gov/Spec.lean`.
-/

set_option linter.unusedSimpArgs false

namespace Verif.Dao
open Verif
open Verif.Staking (At)
open Verif.Gov (vkey)

/-! ## C55 -/

/-- A vote on a council proposal is recorded with the council weight of the voter.
Missing from C55: the recorded amount does not stay so, see `C55_minority_witness` and `C55_former_member_witness`. -/
theorem C55_cast_with_council_weight_partial {c : Cfg} {e : Ext} {w : World} {a : Addr} {id : Nat} {o : Gov.Outcome}
    {r : World × List Item} (h : handle c e w a (.ctl (.castCouncilVote id o)) = .ok r) :
    Gov.queryPollVoter r.1.gov id a = some ⟨id, a, o, Multisig.queryWeight w.council a⟩ := by
  obtain ⟨x, hx⟩ := handle_ctl h
  have he := hx.exec
  simp only [Controller.exec, bind_ok_iff, pure_ok_iff] at he
  obtain ⟨r1, h1, rfl⟩ := he
  obtain ⟨_, _, _, i, _, _, _, hg, _⟩ := Controller.castCouncilVote_ok_iff.1 h1
  obtain ⟨_, _, p, _, _, _, _, hg'⟩ := Gov.castVote_ok_iff.1 hg
  rw [hx.world]
  unfold Gov.queryPollVoter
  simp only [hg', Map.get_set, if_true]
  rfl

/-- A recorded vote on a council proposal only changes by another vote of the same user, or by a message to the
membership contract. -/
theorem C55_vote_kept_partial {c : Cfg} (hw : c.Wf) (ht : c.Tame) {e : Ext} {w : World} (h : Reachable c w) {a u : Addr}
    {m : Msg} {r : World × List Item} {id : Nat} {i : Controller.Info} (hi : w.ctl.infos.get id = some i)
    (hc : i.type = .council) (ha : c.outsider a ∨ (a = c.self ∧ m.tame = true))
    (hown : ∀ o, m = .ctl (.castCouncilVote id o) → a ≠ u) (hmem : ∀ mm, m ≠ .mem mm)
    (hr : handle c e w a m = .ok r) :
    Gov.queryPollVoter r.1.gov id u = Gov.queryPollVoter w.gov id u := by
  have hb := h.base hw ht
  unfold Gov.queryPollVoter
  have hset : ∀ {g : Gov.State} {j : Nat} {o : Gov.Outcome} {v : Addr} {n : Nat},
      Gov.castVote w.gov w.block.time j o v n = .ok g → (j ≠ id ∨ v ≠ u) →
      g.votes.get (vkey u id) = w.gov.votes.get (vkey u id) := by
    intro g j o v n hg hne
    obtain ⟨_, _, p, _, _, _, _, rfl⟩ := Gov.castVote_ok_iff.1 hg
    simp only [Map.get_set]
    rw [if_neg]
    intro hk
    obtain ⟨h1, h2⟩ := Gov.vkey_inj.1 hk
    rcases hne with hne | hne
    · exact hne h2
    · exact hne h1
  cases m with
  | mem mm => exact absurd rfl (hmem mm)
  | gov m =>
    exfalso
    simp only [handle, bind_ok_iff] at hr
    obtain ⟨g, hg, _⟩ := hr
    unfold Gov.exec at hg
    rw [ite_ok_iff] at hg
    have hadm : a = w.gov.admin := Classical.not_not.1 hg.1
    rw [hb.ctl.gov.admin] at hadm
    rcases ha with ha | ⟨_, ha⟩
    · exact ha.1 hadm
    · cases ha
  | dist m =>
    simp only [handle, bind_ok_iff, pure_ok_iff] at hr
    obtain ⟨x, _, rfl⟩ := hr
    rfl
  | council m =>
    have hm : a = c.self → (Msg.council m).tame = true := by
      intro hs
      rcases ha with ha | ⟨_, ha⟩
      · exact absurd hs ha.1
      · exact ha
    rw [(handle_council hb.council hm hr).2.1]
  | ctl m =>
    obtain ⟨x, hx⟩ := handle_ctl hr
    have he := hx.exec
    rw [hx.world]
    simp only
    have hcreate : m.isCreate = true → x.2.1.votes.get (vkey u id) = w.gov.votes.get (vkey u id) := by
      intro hm
      obtain ⟨_, cp, h1, _⟩ := Controller.created_exec hm he
      obtain ⟨_, _, h6⟩ := Gov.createPoll_ok_iff.1 h1.poll
      rw [h6]
    cases m with
    | createProposal p f => exact hcreate rfl
    | createWithNft p l => exact hcreate rfl
    | createCouncil p => exact hcreate rfl
    | receive f a p => exact hcreate rfl
    | castVote j o =>
      simp only [Controller.exec, bind_ok_iff, pure_ok_iff] at he
      obtain ⟨r1, h1, rfl⟩ := he
      obtain ⟨_, _, i', p, q, hi', hty, _, _, hg, _⟩ := Controller.castVote_ok_iff.1 h1
      refine hset hg (Or.inl ?_)
      rintro rfl
      rw [hi] at hi'; cases hi'
      rw [hc] at hty; cases hty
    | castCouncilVote j o =>
      simp only [Controller.exec, bind_ok_iff, pure_ok_iff] at he
      obtain ⟨r1, h1, rfl⟩ := he
      obtain ⟨_, _, _, i', _, _, _, hg, _⟩ := Controller.castCouncilVote_ok_iff.1 h1
      refine hset hg ?_
      by_cases hj : j = id
      · subst hj; exact Or.inr (hown o rfl)
      · exact Or.inl hj
    | execute j =>
      simp only [Controller.exec] at he
      obtain ⟨_, i', p, _, _, _, _, _, _, _, rfl⟩ := Controller.executeProposal_ok_iff.1 he
      rfl
    | weightsChanged l =>
      simp only [Controller.exec, bind_ok_iff, pure_ok_iff] at he
      obtain ⟨r1, h1, rfl⟩ := he
      rcases Controller.weightsChanged_ok_iff.1 h1 with ⟨_, h2⟩ | ⟨_, h2, _⟩
      · rw [h2]
      · exfalso
        rcases ha with ha | ⟨ha, _⟩
        · exact ha.2.1 h2
        · exact hw.membership (h2.symm.trans ha)
    | executeActions j =>
      simp only [Controller.exec, bind_ok_iff, pure_ok_iff] at he
      obtain ⟨r1, _, rfl⟩ := he
      rfl
    | deployInitial =>
      simp only [Controller.exec, bind_ok_iff, pure_ok_iff] at he
      obtain ⟨r1, _, rfl⟩ := he
      rfl

/-- A council proposal with one vote for it and two against. -/
def sampleCouncilVote : List Step :=
  [stake 10 60, at_ 2, proposeCouncil 40 [.updateMetadata 7], at_ 3, voteCouncil 40 1 .yes, voteCouncil 41 1 .no,
   voteCouncil 42 1 .no]

example : ∃ i, (sampleRun sampleCouncilVote).ctl.infos.get 1 = some i ∧ i.type = .council ∧
    Gov.queryPollVoter (sampleRun sampleCouncilVote).gov 1 40 = some ⟨1, 40, .yes, 1⟩ ∧
    (handle sampleCfg sampleExt (sampleRun sampleCouncilVote) 41 (.ctl (.castCouncilVote 1 .veto))).isOk = true :=
  ⟨⟨.council, none, none, none, [.updateMetadata 7]⟩, by decide +kernel⟩

/-- The code violates C55: three council members have weight 1 each, one votes for a proposal and two against it. Then
100 coins are staked in the DAO for the first one (by anyone): that vote now counts 100, and the proposal passes with
its actions run. -/
theorem C55_minority_witness :
    Multisig.queryWeight (sampleRun (sampleCouncilVote ++ [stake 40 100])).council 40 = 1 ∧
    Gov.queryPollVoter (sampleRun (sampleCouncilVote ++ [stake 40 100])).gov 1 40 = some ⟨1, 40, .yes, 100⟩ ∧
    outcome (sampleRun (sampleCouncilVote ++ [execute 13 1])) 1 = some (.rejected .isRejectingOutcome) ∧
    outcome (sampleRun (sampleCouncilVote ++ [stake 40 100, execute 13 1])) 1 = some (.passed 0 100) ∧
    ranCount (sampleRun (sampleCouncilVote ++ [stake 40 100, execute 13 1])) 1 = 1 := by decide +kernel

/-- Votes of former council members also stay: here the council is replaced by user 43 while its proposal is open. -/
theorem C55_former_member_witness :
    let w := sampleRun [stake 10 60, propose 12 [.updateCouncil (some ⟨[43], ONE / 2, ONE / 2, none⟩)], vote 10 1 .yes,
      at_ 8, proposeCouncil 40 [.updateMetadata 7], voteCouncil 40 2 .yes, at_ 20, execute 13 1]
    Multisig.queryWeight w.council 40 = 0 ∧ Gov.queryPollVoter w.gov 2 40 = some ⟨2, 40, .yes, 1⟩ ∧
      outcome w 2 = none := by decide +kernel

/-! ## C56 -/

/-- A proposal that is going to be rejected. -/
def sampleAgainst : List Step :=
  [stake 10 60, stake 11 100, at_ 2, propose 12 [.updateGovConfig sampleChange], at_ 3, vote 10 1 .yes, vote 11 1 .no,
   at_ 60]

/-- The code violates C56: user 10 stakes 1000 more coins just before executing the proposal. The expected outcome
changes from rejected to passed, the earliest execution time does not move, and the proposal is executed at once. -/
theorem C56_weights_changed_witness :
    let w := sampleRun sampleAgainst
    let w1 := sampleRun (sampleAgainst ++ [stake 10 1000])
    Gov.simulateEnd w.gov 1 (w.mem.total .never) = .ok (.rejected .isRejectingOutcome) ∧
    Gov.simulateEnd w1.gov 1 (w1.mem.total .never) = .ok (.passed 0 1060) ∧
    w1.ctl.infos.get 1 = w.ctl.infos.get 1 ∧ w1.block = w.block ∧
    outcome (sampleRun (sampleAgainst ++ [stake 10 1000, execute 10 1])) 1 = some (.passed 0 1060) := by decide +kernel

/-! ## C57 -/

theorem earlyOk_status {p : Gov.Poll} {m : Nat} : Gov.earlyOk m p ↔
    p.finalStatus m ≠ .rejected .quorumNotReached ∧ p.finalStatus m ≠ .rejected .thresholdNotReached := by
  unfold Gov.earlyOk Gov.Poll.finalStatus
  cases p.quorumReached p.quorum m with
  | false => simp
  | true =>
    simp only [Bool.not_true, Bool.false_eq_true, if_false, true_and]
    cases p.mostVoted with
    | none => simp
    | some o n =>
      simp only [ne_eq, reduceCtorEq, not_false_eq_true, true_iff]
      split
      · simp
      · split <;> simp
    | draw _ _ _ _ => simp

theorem quorum_total {p : Gov.Poll} (h : 0 < p.quorum) : p.finalStatus 0 = .rejected .quorumNotReached := by
  unfold Gov.Poll.finalStatus
  have : p.quorumReached p.quorum 0 = false := by
    cases hq : p.quorumReached p.quorum 0 with
    | false => rfl
    | true =>
      exfalso
      unfold Gov.Poll.quorumReached at hq
      simp [checkedFromRatio] at hq
      omega
  rw [this]
  rfl

theorem finalStatus_draw_tie {p : Gov.Poll} {m x y n : Nat} (h : p.finalStatus m = .rejected (.outcomeDraw x y n)) :
    p.votesFor .yes = p.votesFor .no := by
  unfold Gov.Poll.finalStatus at h
  split at h
  · cases h
  · split at h
    · cases h
    · split at h
      · cases h
      · split at h <;> cases h
    · rename_i hm
      unfold Gov.Poll.mostVoted at hm
      split at hm
      · cases hm
      · split at hm
        · simp only at hm
          split at hm
          · cases hm
          · split at hm
            · rename_i hh; exact hh
            · cases hm
        all_goals cases hm

/-- The success condition of `ExecuteProposal` in a DAO. -/
theorem execute_iff {c : Cfg} (hw : c.Wf) (ht : c.Tame) {w : World} (h : Reachable c w) {e : Ext} {a : Addr} {id : Nat}
    {i : Controller.Info} {p : Gov.Poll} (hi : w.ctl.infos.get id = some i) (hp : w.gov.polls.get id = some p) :
    (∃ r, handle c e w a (.ctl (.execute id)) = .ok r) ↔
      e.restricted a = false ∧ i.executedAt = none ∧ i.pastEarliest w.block.time = true ∧
        Controller.endTotal (c.env e w) p i.type ≠ 0 ∧ (p.endsAt ≤ w.block.time ∨
          (Controller.allowsEarly w.ctl i.type = true ∧ Gov.earlyOk (Controller.endTotal (c.env e w) p i.type) p)) := by
  have hb := h.base hw ht
  constructor
  · rintro ⟨r, hr⟩
    obtain ⟨x, hx⟩ := handle_ctl hr
    have he := hx.exec
    simp only [Controller.exec] at he
    obtain ⟨h1, i', p', hi', hp', h2, h3, h4, _, h5, _⟩ := Controller.executeProposal_ok_iff.1 he
    rw [hi] at hi'; cases hi'
    rw [hp] at hp'; cases hp'
    exact ⟨h1, h2, h3, h4, h5⟩
  · rintro ⟨h1, h2, h3, h4, h5⟩
    have he := Controller.executeProposal_ok_iff.2
      ⟨h1, i, p, hi, hp, h2, h3, h4, hb.ctl.gov.admin.symm, h5, rfl⟩
    have he : Controller.exec (c.env e w) a w.ctl w.gov (.execute id) = _ := he
    simp only [handle, he]
    exact ⟨_, rfl⟩

/-- What the reported status means, for a proposal that is not executed. -/
theorem status_cases {c : Cfg} (hw : c.Wf) (ht : c.Tame) {w : World} (h : Reachable c w) {e : Ext} {id : Nat}
    {st : Controller.PStatus} (hs : Controller.queryStatus (c.env e w) w.ctl w.gov id = .ok st) :
    ∃ i p, w.ctl.infos.get id = some i ∧ w.gov.polls.get id = some p ∧
      ((i.executedAt ≠ none ∧ st = .executed) ∨ (i.executedAt = none ∧
        ((p.endsAt ≤ w.block.time ∧ i.pastEarliest w.block.time = true ∧
            st = if isPassed (p.finalStatus (Controller.endTotal (c.env e w) p i.type)) then .passed else .rejected) ∨
         (w.block.time < p.endsAt ∧ Controller.allowsEarly w.ctl i.type = true ∧ i.pastEarliest w.block.time = true ∧
            st = Controller.earlyStatus (p.finalStatus (Controller.endTotal (c.env e w) p i.type))) ∨
         (w.block.time < p.endsAt ∧ (Controller.allowsEarly w.ctl i.type = false ∨
            i.pastEarliest w.block.time = false) ∧ st = .inProgress)))) := by
  have hb := h.base hw ht
  unfold Controller.queryStatus at hs
  rw [bind_ok_iff] at hs
  obtain ⟨p, hp, hs⟩ := hs
  have hp := Controller.queryPoll_ok_iff.1 hp
  cases hi : w.ctl.infos.get id with
  | none => rw [hi] at hs; cases hs
  | some i =>
    rw [hi] at hs
    simp only at hs
    refine ⟨i, p, rfl, hp, ?_⟩
    unfold Controller.fixStatus at hs
    by_cases hx : i.executedAt.isSome = true
    · rw [if_pos hx] at hs
      obtain rfl := Except.ok.inj hs
      left
      exact ⟨fun hn => (by rw [hn] at hx; cases hx), rfl⟩
    · rw [if_neg hx] at hs
      right
      have hnone : i.executedAt = none := by
        cases hh : i.executedAt with
        | none => rfl
        | some _ => rw [hh] at hx; exact absurd rfl hx
      refine ⟨hnone, ?_⟩
      obtain ⟨x, hlive⟩ := (hb.ctl.ended id i p hi hp).1 hnone
      have hxe := hb.ctl.inv.prog id p x hp hlive
      subst hxe
      rw [hlive] at hs
      simp only at hs
      have hblk : (c.env e w).block = w.block := rfl
      rw [hblk] at hs
      by_cases hend : p.endsAt ≤ w.block.time
      · rw [if_pos hend] at hs
        left
        have htot : Controller.endTotal (c.env e w) p i.type =
            Controller.totalVotes (c.env e w) (.time p.endsAt) i.type := by
          unfold Controller.endTotal; rw [hblk, if_pos hend]
        refine ⟨hend, ?_, ?_⟩
        · unfold Controller.Info.pastEarliest
          cases he : i.earliest with
          | none => rfl
          | some t =>
            have := hb.ctl.early id i p t hi hp he
            simp only [decide_eq_true_eq]
            omega
        · unfold Controller.finalStatus at hs
          rw [bind_ok_iff] at hs
          obtain ⟨y, hy, hs⟩ := hs
          obtain ⟨p', hp', rfl⟩ := Controller.simulateEnd_ok_iff.1 hy
          rw [hp] at hp'; cases hp'
          rw [htot]
          cases hf : p.finalStatus (Controller.totalVotes (c.env e w) (.time p.endsAt) i.type) with
          | inProgress z => exact absurd hf (Gov.finalStatus_not_inProgress _ _ _)
          | passed o n => rw [hf] at hs; cases hs; rfl
          | rejected r => rw [hf] at hs; cases hs; rfl
      · rw [if_neg hend] at hs
        right
        have hlt : w.block.time < p.endsAt := by omega
        have htot : Controller.endTotal (c.env e w) p i.type =
            Controller.totalVotes (c.env e w) .never i.type := by
          unfold Controller.endTotal; rw [hblk, if_neg hend]
        by_cases hc : (Controller.allowsEarly w.ctl i.type && i.pastEarliest w.block.time) = true
        · rw [if_pos hc] at hs
          rw [Bool.and_eq_true] at hc
          rw [bind_ok_iff] at hs
          obtain ⟨y, hy, hs⟩ := hs
          obtain ⟨p', hp', rfl⟩ := Controller.simulateEnd_ok_iff.1 hy
          rw [hp] at hp'; cases hp'
          cases pure_ok_iff.1 hs
          exact Or.inl ⟨hlt, hc.1, hc.2, by rw [htot]⟩
        · rw [if_neg hc] at hs
          cases hs
          refine Or.inr ⟨hlt, ?_, rfl⟩
          rw [Bool.and_eq_true, not_and_or] at hc
          rcases hc with hc | hc
          · exact Or.inl (by simpa using hc)
          · exact Or.inr (by simpa using hc)

/-- A proposal that is reported as executed cannot be executed. -/
theorem C57_executed_is_final {c : Cfg} (hw : c.Wf) (ht : c.Tame) {w : World} (h : Reachable c w) {e : Ext} {a : Addr}
    {id : Nat} (hs : Controller.queryStatus (c.env e w) w.ctl w.gov id = .ok .executed) :
    ¬ ∃ r, handle c e w a (.ctl (.execute id)) = .ok r := by
  obtain ⟨i, p, hi, hp, hc⟩ := status_cases hw ht h hs
  rw [execute_iff hw ht h hi hp]
  rintro ⟨_, h2, _⟩
  rcases hc with ⟨h1, _⟩ | ⟨_, ⟨_, _, h3⟩ | ⟨_, _, _, h3⟩ | ⟨_, _, h3⟩⟩
  · exact h1 h2
  · split at h3 <;> cases h3
  · cases hf : p.finalStatus (Controller.endTotal (c.env e w) p i.type) with
    | inProgress _ => rw [hf] at h3; cases h3
    | passed _ _ => rw [hf] at h3; cases h3
    | rejected r => rw [hf] at h3; cases r <;> cases h3
  · cases h3

/-- A proposal that is reported as in progress cannot be executed, unless "yes" and "no" are tied.
Missing from C57: the tied case, see `C57_tie_witness`. -/
theorem C57_in_progress_partial {c : Cfg} (hw : c.Wf) (ht : c.Tame) {w : World} (h : Reachable c w) {e : Ext} {a : Addr}
    {id : Nat} (hs : Controller.queryStatus (c.env e w) w.ctl w.gov id = .ok .inProgress)
    (htie : ∀ p, Gov.queryPoll w.gov id = .ok p → p.votesFor .yes ≠ p.votesFor .no) :
    ¬ ∃ r, handle c e w a (.ctl (.execute id)) = .ok r := by
  obtain ⟨i, p, hi, hp, hc⟩ := status_cases hw ht h hs
  have htie := htie p (Controller.queryPoll_ok_iff.2 hp)
  rw [execute_iff hw ht h hi hp]
  rintro ⟨_, h2, h3, _, h5⟩
  rcases hc with ⟨h1, _⟩ | ⟨_, ⟨_, _, h6⟩ | ⟨h6, _, _, h7⟩ | ⟨h6, h7, _⟩⟩
  · exact h1 h2
  · split at h6 <;> cases h6
  · rcases h5 with h5 | ⟨_, h5⟩
    · omega
    · obtain ⟨h8, h9⟩ := earlyOk_status.1 h5
      cases hf : p.finalStatus (Controller.endTotal (c.env e w) p i.type) with
      | inProgress _ => exact absurd hf (Gov.finalStatus_not_inProgress _ _ _)
      | passed _ _ => rw [hf] at h7; cases h7
      | rejected r =>
        cases r with
        | quorumNotReached => exact h8 hf
        | thresholdNotReached => exact h9 hf
        | isRejectingOutcome => rw [hf] at h7; cases h7
        | isVetoOutcome => rw [hf] at h7; cases h7
        | outcomeDraw _ _ _ => exact htie (finalStatus_draw_tie hf)
  · rcases h5 with h5 | ⟨h5, _⟩
    · omega
    · rcases h7 with h7 | h7
      · rw [h5] at h7; cases h7
      · rw [h3] at h7; cases h7

/-- A proposal that is reported as executable early, or as passed, can be executed by anyone who is not restricted. -/
theorem C57_executable {c : Cfg} (hw : c.Wf) (ht : c.Tame) {w : World} (h : Reachable c w) {e : Ext} {a : Addr}
    {id : Nat} {st : Controller.PStatus} (hs : Controller.queryStatus (c.env e w) w.ctl w.gov id = .ok st)
    (hst : st = .canExecuteEarly ∨ st = .passed) (ha : e.restricted a = false) :
    ∃ r, handle c e w a (.ctl (.execute id)) = .ok r := by
  obtain ⟨i, p, hi, hp, hc⟩ := status_cases hw ht h hs
  have hq := ((h.base hw ht).ctl.fair id p hp).1.1
  rw [execute_iff hw ht h hi hp]
  have hzero : p.finalStatus (Controller.endTotal (c.env e w) p i.type) ≠ .rejected .quorumNotReached →
      Controller.endTotal (c.env e w) p i.type ≠ 0 := by
    intro hn h0
    rw [h0] at hn
    exact hn (quorum_total hq)
  rcases hc with ⟨_, h1⟩ | ⟨hnone, ⟨h1, h2, h3⟩ | ⟨h1, h2, h3, h4⟩ | ⟨_, _, h1⟩⟩
  · rw [h1] at hst; rcases hst with hst | hst <;> cases hst
  · refine ⟨ha, hnone, h2, hzero ?_, Or.inl h1⟩
    intro hf
    rw [hf] at h3
    rw [h3] at hst; rcases hst with hst | hst <;> cases hst
  · have hearly : p.finalStatus (Controller.endTotal (c.env e w) p i.type) ≠ .rejected .quorumNotReached ∧
        p.finalStatus (Controller.endTotal (c.env e w) p i.type) ≠ .rejected .thresholdNotReached := by
      constructor <;> intro hf <;> rw [hf] at h4 <;> rw [h4] at hst <;> rcases hst with hst | hst <;> cases hst
    exact ⟨ha, hnone, h3, hzero hearly.1, Or.inr ⟨h2, earlyOk_status.2 hearly⟩⟩
  · rw [h1] at hst; rcases hst with hst | hst <;> cases hst

/-- A proposal that is reported as rejected can be executed by anyone who is not restricted, unless the total weight
at the end of voting is zero.
Missing from C57: the case of a total of zero, see `C57_nobody_left_witness`. -/
theorem C57_rejected_partial {c : Cfg} (hw : c.Wf) (ht : c.Tame) {w : World} (h : Reachable c w) {e : Ext} {a : Addr}
    {id : Nat} (hs : Controller.queryStatus (c.env e w) w.ctl w.gov id = .ok .rejected)
    (htot : ∀ i p, w.ctl.infos.get id = some i → Gov.queryPoll w.gov id = .ok p →
      (c.env e w).bodyTotal (.time p.endsAt) i.type ≠ 0) (ha : e.restricted a = false) :
    ∃ r, handle c e w a (.ctl (.execute id)) = .ok r := by
  obtain ⟨i, p, hi, hp, hc⟩ := status_cases hw ht h hs
  have htot := htot i p hi (Controller.queryPoll_ok_iff.2 hp)
  rw [execute_iff hw ht h hi hp]
  rcases hc with ⟨_, h1⟩ | ⟨hnone, ⟨h1, h2, h3⟩ | ⟨h1, h2, h3, h4⟩ | ⟨_, _, h1⟩⟩
  · cases h1
  · refine ⟨ha, hnone, h2, ?_, Or.inl h1⟩
    have hx : Controller.endTotal (c.env e w) p i.type = Controller.totalVotes (c.env e w) (.time p.endsAt) i.type :=
      if_pos h1
    rw [hx, Controller.bodyTotal_eq]
    exact htot
  · exfalso
    cases hf : p.finalStatus (Controller.endTotal (c.env e w) p i.type) with
    | inProgress _ => rw [hf] at h4; cases h4
    | passed _ _ => rw [hf] at h4; cases h4
    | rejected r => rw [hf] at h4; cases r <;> cases h4
  · cases h1

/-- The status that is reported for proposal 1 of the sample, and whether it can be executed. -/
def reported (l : List Step) : Option Controller.PStatus × Bool :=
  ((Controller.queryStatus (sampleCfg.env sampleExt (sampleRun l)) (sampleRun l).ctl (sampleRun l).gov 1).toOption,
   (handle sampleCfg sampleExt (sampleRun l) 13 (.ctl (.execute 1))).isOk)

example : reported (sampleVoted ++ [at_ 12]) = (some .inProgress, false) ∧
    reported (sampleVoted ++ [at_ 13]) = (some .canExecuteEarly, true) ∧
    reported (sampleVoted ++ [at_ 102]) = (some .passed, true) ∧
    reported (sampleLost.take 7) = (some .rejected, true) ∧
    reported sampleDone = (some .executed, false) := by decide +kernel

/-- The code violates C57: with 50 votes for and 50 against the proposal, it is reported as in progress, but anyone can
execute it (and it is then rejected). -/
theorem C57_tie_witness :
    reported [stake 10 50, stake 11 50, propose 12 [.updateGovConfig sampleChange], vote 10 1 .yes, vote 11 1 .no,
      at_ 30] = (some .inProgress, true) := by decide +kernel

/-- The code violates C57: when everybody has left the DAO by the end of voting, the proposal is reported as rejected,
but it can never be executed (and its deposit is stuck). -/
theorem C57_nobody_left_witness :
    reported [stake 10 50, propose 12 [.updateGovConfig sampleChange], vote 10 1 .yes, unstake 10 50, at_ 200] =
      (some .rejected, false) := by decide +kernel

/-! ## C58 -/

/-- The sub-messages of a resolution. -/
theorem outcome_items {c : Cfg} {e : Controller.Env} (hc : e.comps = c.comps) (x : Member) (id : Nat)
    (i : Controller.Info) (st : Gov.Status) (hst : ∀ z, st ≠ .inProgress z) (hf : i.type = .council → i.deposit = none) :
    (Controller.outcomeSubs e id i st).map (toItem c x) =
      (if isPassed st then [.actions id] else []) ++ (owed c.comps.treasury i st).map (.deposit id) := by
  have hsend : ∀ (d : Controller.DepositAsset) (to : Addr),
      (Controller.sendDeposit id d to).map (toItem c x) = (entire to d).map (.deposit id) := by
    intro d to
    unfold Controller.sendDeposit
    rw [entire_eq, List.map_map]
    rfl
  cases st with
  | inProgress z => exact absurd rfl (hst z)
  | passed o n =>
    simp only [Controller.outcomeSubs, List.map_cons, Controller.returnDeposit, isPassed, if_true, owed, forfeits]
    cases i.deposit with
    | none => rfl
    | some d => simp only [hsend]; rfl
  | rejected r =>
    simp only [Controller.outcomeSubs, Controller.rejectedDeposit, Controller.returnDeposit, isPassed, owed,
      Bool.false_eq_true, if_false, List.nil_append]
    cases ht : i.type with
    | council => rw [hf ht]; rfl
    | general =>
      simp only
      cases i.deposit with
      | none => simp only; split <;> rfl
      | some d => cases r <;> simp [hsend, forfeits, hc]

/-- The world right after `ExecuteProposal` and the messages to follow. -/
theorem execute_effect {c : Cfg} (hw : c.Wf) (ht : c.Tame) {w w1 : World} (h : Reachable c w) {e : Ext} {a : Addr}
    {id : Nat} {subs : List Item} (hx : handle c e w a (.ctl (.execute id)) = .ok (w1, subs)) :
    ∃ i p st, w.ctl.infos.get id = some i ∧ w.gov.polls.get id = some p ∧ (∀ z, st ≠ .inProgress z) ∧
      w1 = { w with
        ctl := { w.ctl with infos := w.ctl.infos.set id { i with executedAt := some w.block } }
        gov := { w.gov with polls := w.gov.polls.set id { p with status := st } }
        log := w.log ++ (if isPassed st then [.sent id] else []) } ∧
      subs = (if isPassed st then [.actions id] else []) ++ (owed c.comps.treasury i st).map (.deposit id) := by
  have hb := h.base hw ht
  obtain ⟨r, hr⟩ := handle_ctl hx
  have he := hr.exec
  simp only [Controller.exec] at he
  obtain ⟨_, i, p, hi, hp, _, _, _, _, _, rfl⟩ := Controller.executeProposal_ok_iff.1 he
  have hni := Gov.finalStatus_not_inProgress p (Controller.endTotal (c.env e w) p i.type)
  refine ⟨i, p, p.finalStatus (Controller.endTotal (c.env e w) p i.type), hi, hp, hni, ?_, ?_⟩
  · have hw1 := hr.world
    simp only at hw1
    rw [hw1]
    have hev := (outcome_pend (e := c.env e w) c rfl w.mem id id i _ hni (fun hcl => (hb.ctl.free id i hi hcl).1)).2.2
    rw [hev]
    simp only [Controller.State.resolved, Controller.endedPoll, ranOf, List.append_nil, ← hb.ctl.idle.2.1]
    rfl
  · have hsub := hr.subs
    simp only at hsub
    rw [hsub]
    exact outcome_items rfl w.mem id i _ hni (fun hcl => (hb.ctl.free id i hi hcl).1)

/-- Whatever happens to its actions, a proposal whose execution goes through is resolved and its deposit is paid. -/
theorem C58_always_resolved {c : Cfg} (hw : c.Wf) (ht : c.Tame) {w w' : World} (h : Reachable c w) {a : Addr} {id : Nat}
    (ha : c.outsider a) (hx : Exec c w [.call a (.ctl (.execute id))] w') :
    ∃ i st, w.ctl.infos.get id = some i ∧ outcome w' id = some st ∧ paidOut w' id = owed c.comps.treasury i st := by
  have hr' := h.tx ha hx
  cases hx with
  | @call _ w1 w2 w3 _ _ subs _ e room hh h1 h2 =>
    cases h2
    obtain ⟨i, p, st, hi, hp, _, hw1, hs⟩ := execute_effect hw ht h hh
    have hb := h.base hw ht
    have hk := handled hw ht hb (Or.inl ha) room hh
    have hm := (h1.moved hw ht hk.allowed hk.base).2
    have ho1 : outcome w1 id = some st := by
      rw [hw1, outcome_of (i := { i with executedAt := some w.block }) (p := { p with status := st })]
      · rfl
      · simp only [Map.get_set, if_true]
      · simp only [Map.get_set, if_true]
    obtain ⟨i1, p1, hi1, hp1, hx1, hst1⟩ := outcome_some ho1
    obtain ⟨i', a1, _, a2, _, a3⟩ := hm.step.infos id i1 hi1
    obtain ⟨p', b1, _, b2⟩ := hm.step.polls id p1 hp1
    have hne : i1.executedAt ≠ none := by intro hn; rw [hn] at hx1; cases hx1
    have e1 := a3 hne
    have e2 := b2 (fun hl => hne ((hk.base.ctl.ended id i1 p1 hi1 hp1).2 hl))
    subst e1 e2
    have ho : outcome w' id = some st := by rw [outcome_of a1 b1, if_pos hx1, hst1]
    have hdep : i'.deposit = i.deposit := by
      rw [hw1] at hi1
      simp only [Map.get_set, if_true] at hi1
      cases hi1
      rfl
    refine ⟨i, st, hi, ho, ?_⟩
    rw [(hr'.ledger hw ht id).1, due_eq, a1, ho]
    simp only [owed, hdep]

/-- If the actions of a proposal do not run to the end, the execution does nothing but mark the proposal as executed,
end its poll, and transfer its deposit: the transfers (which may call back from outside) start from a state in which
everything else is as before. -/
theorem C58_failed_batch_has_no_effect {c : Cfg} (hw : c.Wf) (ht : c.Tame) {w w' : World} (h : Reachable c w) {a : Addr}
    {id : Nat} (ha : c.outsider a) (hx : Exec c w [.call a (.ctl (.execute id))] w') (hran : ranCount w' id = 0) :
    ∃ i p st x, w.ctl.infos.get id = some i ∧ Gov.queryPoll w.gov id = .ok p ∧
      Exec c { w with
        ctl := { w.ctl with infos := w.ctl.infos.set id { i with executedAt := some w.block } }
        gov := { w.gov with polls := w.gov.polls.set id { p with status := st } }
        log := w.log ++ x } ((owed c.comps.treasury i st).map (.deposit id)) w' := by
  cases hx with
  | @call _ w1 w2 w3 _ _ subs _ e room hh h1 h2 =>
    cases h2
    obtain ⟨i, p, st, hi, hp, _, hw1, hs⟩ := execute_effect hw ht h hh
    have hb := h.base hw ht
    have hk := handled hw ht hb (Or.inl ha) room hh
    refine ⟨i, p, st, if isPassed st then [.sent id] else [], hi, Controller.queryPoll_ok_iff.2 hp, ?_⟩
    rw [← hw1]
    cases hps : isPassed st with
    | false =>
      rw [hps] at hs
      rw [hs] at h1
      exact h1
    | true =>
      rw [hps] at hs
      simp only [if_true, List.singleton_append] at hs
      rw [hs] at h1
      cases h1 with
      | failed h1 => exact h1
      | @actions _ wa wb _ _ subs2 _ e2 room2 hh2 h3 h4 =>
        exfalso
        have hka := handled hw ht hk.base (a := c.self) (m := .ctl (.executeActions id))
          (Or.inr ⟨rfl, Or.inr ⟨id, rfl⟩⟩) room2 hh2
        obtain ⟨r2, hr2⟩ := handle_ctl hh2
        have hpos : 0 < ranCount wa id := by
          have hlog := hr2.world
          simp only at hlog
          rw [hlog]
          unfold ranCount
          simp only [ranOf, List.count_append]
          simp
          omega
        obtain ⟨b2, _, x2, hx2⟩ := h3.induct hw ht (ruled_cases c) hka.allowed hka.base
        obtain ⟨_, _, x3, hx3⟩ := h4.induct hw ht (ruled_cases c)
          (fun j hj => by obtain ⟨t, _, rfl⟩ := List.mem_map.1 hj; trivial) b2
        have : ranCount wa id ≤ ranCount w' id := by
          unfold ranCount
          rw [hx3.log, hx2.log, List.count_append, List.count_append]
          omega
        omega

/-- An accepted `ExecuteProposal` can always be brought to an end: when its actions fail (whatever they are) and the
receivers of the deposit do nothing, everything but the proposal, its poll and the deposit is as before. -/
theorem C58_never_blocked {c : Cfg} (hw : c.Wf) (ht : c.Tame) {w : World} (h : Reachable c w) {e : Ext} {a : Addr} {id : Nat}
    {r : World × List Item} (hx : handle c e w a (.ctl (.execute id)) = .ok r)
    (room : w.gov.pollCount + 1 < 2 ^ 64) :
    ∃ w', Exec c w [.call a (.ctl (.execute id))] w' ∧ outcome w' id ≠ none ∧ w'.mem = w.mem ∧ w'.council = w.council ∧
      w'.dist = w.dist ∧ w'.ctl.config = w.ctl.config ∧ w'.ctl.council = w.ctl.council := by
  obtain ⟨w1, subs⟩ := r
  obtain ⟨i, p, st, hi, hp, _, hw1, hs⟩ := execute_effect hw ht h hx
  have hdep : ∀ (l : List Controller.Transfer) (v : World),
      Exec c v (l.map (.deposit id)) { v with log := v.log ++ l.map (.paid id) } := by
    intro l
    induction l with
    | nil => intro v; simp only [List.map_nil, List.append_nil]; exact .nil v
    | cons t l ih =>
      intro v
      have := ih { v with log := v.log ++ [.paid id t] }
      simp only [List.append_assoc, List.singleton_append] at this
      exact .deposit (calls := []) (fun j hj => by cases hj) (.nil _) this
  refine ⟨{ w1 with log := w1.log ++ (owed c.comps.treasury i st).map (.paid id) }, ?_, ?_, ?_⟩
  · refine .call e room hx ?_ (.nil _)
    rw [hs]
    cases isPassed st with
    | false => exact hdep _ w1
    | true => exact .failed (hdep _ w1)
  · rw [hw1, outcome_of (i := { i with executedAt := some w.block }) (p := { p with status := st })]
    · intro hn; cases hn
    · simp only [Map.get_set, if_true]
    · simp only [Map.get_set, if_true]
  · rw [hw1]
    exact ⟨rfl, rfl, rfl, rfl, rfl⟩

/-- A proposal whose second action fails (the controller unstakes coins that it does not have): the first one has no effect, the proposal is
executed, the deposit is returned. -/
def sampleFails : List Step :=
  [stake 10 60, at_ 2, propose 12 [.updateGovConfig sampleChange, .executeMsgs [3]], at_ 3, vote 10 1 .yes, at_ 20,
   execute 13 1]

example : outcome (sampleRun sampleFails) 1 = some (.passed 0 60) ∧ sentCount (sampleRun sampleFails) 1 = 1 ∧
    ranCount (sampleRun sampleFails) 1 = 0 ∧ (sampleRun sampleFails).ctl.config = sampleConfig ∧
    paidOut (sampleRun sampleFails) 1 = [.asset (.native 20) 30 12] := by decide +kernel

/-! ## C73 -/

/-- If the distributor and the membership contract agree on the weight of a user, they agree ever after. -/
theorem C73_reward_weights_track {c : Cfg} (hw : c.Wf) (ht : c.Tame) {w w' : World} (h : Reachable c w) {u : Addr}
    (h0 : (w.dist.weights.get u).getD 0 = w.mem.weight u) (hl : Later c w w') :
    (w'.dist.weights.get u).getD 0 = w'.mem.weight u := hl.dist hw ht h u h0

/-- And the weight used for rewards is that weight, or zero when it is below the minimum for rewards. -/
theorem C73_reward_weight {c : Cfg} (hw : c.Wf) (ht : c.Tame) {w w' : World} (h : Reachable c w) {u : Addr}
    (h0 : (w.dist.weights.get u).getD 0 = w.mem.weight u) (hl : Later c w w') :
    (w'.dist.effective.get u).getD 0 = if w'.mem.weight u < w'.dist.min then 0 else w'.mem.weight u := by
  have h1 := C73_reward_weights_track hw ht h h0 hl
  have h2 := ((hl.reachable h).dist hw ht).inv.eff u
  rw [h2, ← h1]
  cases w'.dist.weights.get u with
  | none => simp
  | some x =>
    simp only [Option.map_some, Option.getD_some, Distributor.effWeight]
    by_cases hx : x < w'.dist.min
    · rw [if_pos hx, if_neg (by omega)]
    · rw [if_neg hx, if_pos (by omega)]

/-- In a new DAO with staking nobody has any weight, and nobody has a reward weight when the distributor starts empty:
they agree. -/
example : ∀ u, (sampleGenesis.dist.weights.get u).getD 0 = sampleGenesis.mem.weight u := by
  intro u
  have h1 : sampleGenesis.dist.weights = Map.empty := by decide +kernel
  rw [h1, Member.weight_eq]
  rfl

example : ((sampleRun (sampleDone ++ [unstake 11 36])).dist.weights.get 11,
    (sampleRun (sampleDone ++ [unstake 11 36])).dist.effective.get 11,
    (sampleRun (sampleDone ++ [unstake 11 36])).mem.weight 11,
    (sampleRun (sampleDone ++ [unstake 11 36])).dist.min) = (some 4, some 0, 4, 5) := by decide +kernel

end Verif.Dao
