import Verif.Gov.Lemmas3

/-!
# Governance: property theorems (C01 - C15)

Vocabulary: `Verif/Gov/Spec.lean`. `Reachable s` ranges over every history of well-typed messages.
-/

namespace Verif.Gov
open Verif

/-- A history used to show that hypotheses below can be met: admin 1 creates two polls, voters 7 and 8 vote,
7 changes option, then the weight of 7 is updated. -/
def sample : List Call :=
  [ ⟨10, 1, .createPoll ⟨5, 0, 0, 0, 100, ONE / 10, ONE / 2, none⟩⟩,
    ⟨10, 1, .createPoll ⟨6, 3, 1, 1, 200, ONE / 10, ONE / 2, some (ONE / 3)⟩⟩,
    ⟨11, 1, .castVote 1 .yes 7 40⟩,
    ⟨12, 1, .castVote 1 .no 8 30⟩,
    ⟨12, 9, .castVote 1 .no 8 1000⟩,
    ⟨13, 1, .castVote 1 .veto 7 40⟩,
    ⟨14, 1, .castVote 2 .yes 7 40⟩,
    ⟨15, 1, .updateVotes 7 25⟩ ]

/-- The state after `sample`. -/
def sampleState : State := run (init 1) sample

theorem sample_reachable : Reachable sampleState := by
  refine ⟨1, sample, ?_, by decide, rfl⟩
  intro c hc
  simp only [sample, List.mem_cons, List.not_mem_nil, or_false] at hc
  rcases hc with rfl | rfl | rfl | rfl | rfl | rfl | rfl | rfl <;> simp [Msg.typed] <;> decide

/-! ## C01 -/

/-- The count a poll reports for an option is the sum of the votes recorded for it, modulo 2^128. -/
theorem C01_tally_mod {s : State} (h : Reachable s) {i : Nat} {p : Poll} (hp : queryPoll s i = .ok p)
    (o : Outcome) : p.votesFor o = votedSum s i o % 2 ^ 128 := by
  unfold queryPoll at hp
  split at hp
  · cases hp
  · cases hp
    rename_i hp
    exact h.inv.tally i p hp o

/-- When the recorded votes of a poll together fit 128 bits, each count and the total are exact. -/
theorem C01_tally_exact {s : State} (h : Reachable s) {i : Nat} {p : Poll} (hp : queryPoll s i = .ok p)
    (hfit : votedTotal s i < 2 ^ 128) :
    (∀ o, p.votesFor o = votedSum s i o) ∧ p.totalVotes = votedTotal s i := by
  unfold queryPoll at hp
  split at hp
  · cases hp
  · cases hp
    rename_i hp
    exact totalVotes_of_inv h.inv hp hfit

example : Reachable sampleState ∧ votedTotal sampleState 1 = 55 ∧ votedSum sampleState 1 .veto = 25 ∧
    votedSum sampleState 1 .no = 30 ∧ votedSum sampleState 1 .yes = 0 ∧
    (∃ p, queryPoll sampleState 1 = .ok p ∧ p.votesFor .veto = 25) :=
  ⟨sample_reachable, by decide +kernel, by decide +kernel, by decide +kernel, by decide +kernel,
    _, rfl, by decide +kernel⟩

/-- The wrap is real: two votes of 2^127 each are counted as zero. -/
theorem C01_wrap_witness : ∃ s p, Reachable s ∧ queryPoll s 1 = .ok p ∧ p.votesFor .yes = 0 ∧
    votedSum s 1 .yes = 2 ^ 128 := by
  refine ⟨run (init 1) [⟨10, 1, .createPoll ⟨5, 0, 0, 0, 100, 0, 0, none⟩⟩,
    ⟨11, 1, .castVote 1 .yes 7 (2 ^ 127)⟩, ⟨11, 1, .castVote 1 .yes 8 (2 ^ 127)⟩], _,
    ⟨1, _, ?_, by decide, rfl⟩, rfl, by decide +kernel, by decide +kernel⟩
  intro c hc
  simp only [List.mem_cons, List.not_mem_nil, or_false] at hc
  rcases hc with rfl | rfl | rfl <;> simp [Msg.typed] <;> decide

/-! ## C02 -/

/-- A successful vote is recorded as sent; the votes of all other voters and polls, and all other polls, are
unchanged; and the votes listed for the poll contain exactly one vote of the voter. -/
theorem C02_one_vote_latest {s s' : State} (h : Reachable s) {now : Nat} {sender : Addr} {i : Nat} {o : Outcome}
    {v : Addr} {a : Nat} (he : exec s ⟨now, sender, .castVote i o v a⟩ = .ok s') :
    queryPollVoter s' i v = some ⟨i, v, o, a⟩ ∧
    (∀ u j, (u ≠ v ∨ j ≠ i) → queryPollVoter s' j u = queryPollVoter s j u) ∧
    (∀ j, j ≠ i → queryPoll s' j = queryPoll s j) ∧
    (queryPollVoters s' i none none none false).filter (fun w => decide (w.voter = v)) = [⟨i, v, o, a⟩] := by
  have he' : castVote s now i o v a = .ok s' := by
    unfold exec at he; split at he
    · cases he
    · exact he
  have hkeys : ∀ k w, s'.votes.get k = some w → k = vkey w.voter w.pollId := by
    obtain ⟨h0, h1, p, hp, hl, hst, hen, rfl⟩ := castVote_ok_iff.1 he'
    intro k w hw
    simp only [Map.get_set] at hw
    split at hw
    · cases hw; rename_i hk; exact hk.symm
    · exact (h.inv.vkeys k w hw).1
  obtain ⟨h0, h1, p, hp, hl, hst, hen, hs'⟩ := castVote_ok_iff.1 he'
  have hget : s'.votes.get (vkey v i) = some ⟨i, v, o, a⟩ := by rw [hs']; simp
  refine ⟨hget, ?_, ?_, ?_⟩
  · intro u j huj
    unfold queryPollVoter
    rw [hs']
    simp only [Map.get_set, vkey_inj]
    split
    · rename_i hk; rcases huj with h | h
      · exact absurd hk.1.symm h
      · exact absurd hk.2.symm h
    · rfl
  · intro j hj
    unfold queryPoll
    rw [hs']
    simp only [Map.get_set, hj.symm, if_false]
  · unfold queryPollVoters ranged
    simp only [Option.map_none, Bool.and_true, if_neg (by simp : ¬ (false = true))]
    rw [List.filter_eq_self.2 (fun _ _ => rfl), List.filter_map]
    have : (((s'.votes.filter fun _ v => decide (v.pollId = i)).entries.filter
        ((fun w : Vote => decide (w.voter = v)) ∘ fun x => x.2))) = [(vkey v i, ⟨i, v, o, a⟩)] := by
      apply sortedL_ext (List.Pairwise.filter _ (Map.sorted _))
      · simp [SortedL]
      · intro e
        rw [List.mem_filter, show e = (e.1, e.2) from rfl, ← Map.get_eq_some_iff, Map.get_filter]
        constructor
        · rintro ⟨h1, h2⟩
          rw [Option.filter_eq_some_iff] at h1
          have hk := hkeys _ _ h1.1
          have hv : e.2.voter = v := by simpa using h2
          have hi : e.2.pollId = i := by simpa using h1.2
          rw [hv, hi] at hk
          have h3 := h1.1
          rw [hk, hget] at h3
          simp only [List.mem_singleton]
          rw [← hk, ← Option.some.inj h3]
        · intro hm
          simp only [List.mem_singleton] at hm
          have h1 : e.1 = vkey v i := congrArg Prod.fst hm
          have h2 : e.2 = ⟨i, v, o, a⟩ := congrArg Prod.snd hm
          rw [h1, h2, hget]
          simp [Option.filter]
    rw [this]
    rfl

example : ∃ s', exec sampleState ⟨20, 1, .castVote 1 .abstain 7 99⟩ = .ok s' :=
  ⟨_, rfl⟩

/-! ## C03 -/

/-- A vote sent by the admin is accepted exactly when the poll exists, was not ended, and the block time is in
`[started_at, ends_at)`. -/
theorem C03_vote_window {s : State} (h : Reachable s) (now i : Nat) (o : Outcome) (v : Addr) (a : Nat) :
    (∃ s', exec s ⟨now, s.admin, .castVote i o v a⟩ = .ok s') ↔
      ∃ p, queryPoll s i = .ok p ∧ p.live ∧ p.startedAt ≤ now ∧ now < p.endsAt := by
  unfold exec queryPoll
  simp only [ne_eq, not_true, if_false]
  constructor
  · rintro ⟨s', hs'⟩
    obtain ⟨_, _, p, hp, hl, hst, hen, _⟩ := castVote_ok_iff.1 hs'
    exact ⟨p, by rw [hp], hl, hst, hen⟩
  · rintro ⟨p, hp, hl, hst, hen⟩
    cases hg : s.polls.get i with
    | none => rw [hg] at hp; cases hp
    | some q =>
      rw [hg] at hp; cases hp
      have := (h.inv.ids i).1 ⟨_, hg⟩
      exact ⟨_, castVote_ok_iff.2 ⟨by omega, this.2, _, hg, hl, hst, hen, rfl⟩⟩

/-- A refused message changes nothing. -/
theorem C03_refused_no_effect {s : State} {c : Call} {e : Err} (h : exec s c = .error e) : step s c = s := by
  unfold step; rw [h]

example : (∃ s', exec sampleState ⟨99, 1, .castVote 1 .yes 7 1⟩ = .ok s') ∧
    exec sampleState ⟨100, 1, .castVote 1 .yes 7 1⟩ = .error .outsideVotingPeriod ∧
    exec sampleState ⟨9, 1, .castVote 1 .yes 7 1⟩ = .error .outsideVotingPeriod ∧
    exec sampleState ⟨50, 1, .castVote 3 .yes 7 1⟩ = .error .notFound :=
  ⟨⟨_, rfl⟩, by decide +kernel, by decide +kernel, by decide +kernel⟩

/-! ## C04 -/

/-- The stored polls are exactly those with ids `1 .. count`, and each carries its own id. -/
theorem C04_ids_consecutive {s : State} (h : Reachable s) (i : Nat) :
    ((∃ p, queryPoll s i = .ok p) ↔ 1 ≤ i ∧ i ≤ s.pollCount) ∧
    (∀ p, queryPoll s i = .ok p → p.id = i) := by
  have hq : ∀ p, queryPoll s i = .ok p ↔ s.polls.get i = some p := by
    intro p; unfold queryPoll
    cases s.polls.get i <;> simp
  refine ⟨?_, ?_⟩
  · simp only [hq]; exact h.inv.ids i
  · intro p hp; exact (h.inv.pid i p ((hq p).1 hp)).1

/-- Creating a poll uses the next id and stores the requested terms with an empty tally. -/
theorem C04_create {s s' : State} (h : Reachable s) (hroom : s.pollCount + 1 < 2 ^ 64) {now : Nat} {sender : Addr}
    {c : CreateParams} (he : exec s ⟨now, sender, .createPoll c⟩ = .ok s') :
    s'.pollCount = s.pollCount + 1 ∧ queryPoll s (s.pollCount + 1) = .error .notFound ∧
    (∃ p, queryPoll s' (s.pollCount + 1) = .ok p ∧ p.status = .inProgress c.endsAt ∧
      (∀ o, p.votesFor o = 0) ∧ now < c.endsAt ∧
      p.terms = ⟨s.pollCount + 1, c.proposer, c.deposit, c.label, c.description, now, c.endsAt, c.quorum,
        c.threshold, c.vetoThreshold⟩) ∧
    (∀ i, i ≠ s.pollCount + 1 → queryPoll s' i = queryPoll s i) ∧ s'.votes = s.votes := by
  have he' : createPoll s now c = .ok s' := by
    unfold exec at he; split at he
    · cases he
    · exact he
  obtain ⟨_, h2, rfl⟩ := createPoll_ok_iff.1 he'
  rw [wadd64_of_lt hroom]
  refine ⟨rfl, ?_, ?_, ?_, rfl⟩
  · unfold queryPoll
    cases hg : s.polls.get (s.pollCount + 1) with
    | none => rfl
    | some p => have := (h.inv.ids _).1 ⟨p, hg⟩; omega
  · exact ⟨_, by simp [queryPoll]; rfl, rfl, fun o => by cases o <;> rfl, h2, rfl⟩
  · intro i hi
    unfold queryPoll
    simp only [Map.get_set, hi.symm, if_false]

/-- Polls are never removed and their terms never change, whatever happens later. -/
theorem C04_terms_immutable {s : State} (hs : Reachable s) {i : Nat} {p : Poll} (hp : queryPoll s i = .ok p)
    (h : List Call) (ht : ∀ c ∈ h, c.msg.typed) (hc : s.pollCount + creates h < 2 ^ 64) :
    ∃ p', queryPoll (run s h) i = .ok p' ∧ p'.terms = p.terms := by
  have hi := hs.inv
  clear hs
  induction h generalizing s p with
  | nil => exact ⟨p, hp, rfl⟩
  | cons c t ih =>
    rw [creates_cons] at hc
    have hg : s.polls.get i = some p := by
      unfold queryPoll at hp
      cases hg : s.polls.get i with
      | none => rw [hg] at hp; cases hp
      | some q => rw [hg] at hp; cases hp; rfl
    obtain ⟨p1, hp1⟩ := evolves_step hi (c := c) (by unfold M64; omega) hg
    have hs1 := inv_step hi (ht c (by simp)) (by unfold M64; omega)
    obtain ⟨p2, h2, h3⟩ := ih (s := step s c) (p := p1) (by unfold queryPoll; rw [hp1.get])
      (fun x hx => ht x (List.mem_cons_of_mem _ hx)) (by have := hs1.2.1; omega) hs1.1
    exact ⟨p2, h2, h3.trans hp1.terms⟩

example : sampleState.pollCount = 2 ∧ (∃ p, queryPoll sampleState 2 = .ok p ∧ p.proposer = 6) ∧
    queryPoll sampleState 3 = .error .notFound :=
  ⟨by decide +kernel, ⟨_, rfl, by decide +kernel⟩, by decide +kernel⟩

/-! ## C05 -/

/-- Ending a poll gives the status of the published rule applied to the recorded votes. -/
theorem C05_final_status_rule {s : State} (h : Reachable s) {i : Nat} {p : Poll} (hp : queryPoll s i = .ok p)
    (hfit : votedTotal s i < 2 ^ 128) (available : Nat) :
    simulateEnd s i available = .ok (ruleStatus (votedSum s i .yes) (votedSum s i .no) (votedSum s i .abstain)
      (votedSum s i .veto) p.quorum p.threshold p.vetoThreshold available) := by
  unfold queryPoll at hp
  unfold simulateEnd
  split at hp
  · cases hp
  · cases hp
    rename_i hp
    rw [finalStatus_rule_of_inv h.inv hp hfit]

example : simulateEnd sampleState 1 1000 = .ok (.rejected .quorumNotReached) ∧
    simulateEnd sampleState 1 100 = .ok (.rejected .isRejectingOutcome) ∧
    simulateEnd sampleState 2 100 = .ok (.passed 0 25) := by decide +kernel

/-- The 128-bit decimal overflows when the cast votes exceed the available votes more than 3.4 * 10^20 times;
then the quorum counts as missed. -/
theorem C05_quorum_overflow_witness :
    ruleStatus (2 ^ 100) 0 0 0 (ONE / 10) (ONE / 2) none 1 = .rejected .quorumNotReached ∧
    ∃ s p, Reachable s ∧ queryPoll s 1 = .ok p ∧ votedSum s 1 .yes = 2 ^ 100 ∧
      simulateEnd s 1 1 = .ok (.rejected .quorumNotReached) := by
  refine ⟨by decide, run (init 1) [⟨10, 1, .createPoll ⟨5, 0, 0, 0, 100, ONE / 10, ONE / 2, none⟩⟩,
    ⟨11, 1, .castVote 1 .yes 7 (2 ^ 100)⟩], _,
    ⟨1, _, ?_, by decide, rfl⟩, rfl, by decide +kernel, by decide +kernel⟩
  intro c hc
  simp only [List.mem_cons, List.not_mem_nil, or_false] at hc
  rcases hc with rfl | rfl <;> simp [Msg.typed] <;> decide

/-! ## C06 -/

/-- A poll whose veto share reaches the effective veto threshold does not pass, for any number of available votes. -/
theorem C06_veto_precedence {s : State} (h : Reachable s) {i : Nat} {p : Poll} (hp : queryPoll s i = .ok p)
    (hfit : votedTotal s i < 2 ^ 128)
    (hveto : reaches (votedSum s i .veto) (votedSum s i .yes + votedSum s i .no + votedSum s i .veto)
      (p.vetoThreshold.getD p.threshold)) (available : Nat) :
    simulateEnd s i available = .ok (.rejected .quorumNotReached) ∨
    simulateEnd s i available = .ok (.rejected .isVetoOutcome) := by
  rw [C05_final_status_rule h hp hfit]
  unfold ruleStatus
  by_cases hq : quorumMet (votedSum s i .yes + votedSum s i .no + votedSum s i .abstain + votedSum s i .veto)
      available p.quorum
  · right; simp [hq, hveto]
  · left; simp [hq]

/-- Conversely a veto rejection is reported only when the veto share reaches the effective veto threshold. -/
theorem C06_veto_only_if {s : State} (h : Reachable s) {i : Nat} {p : Poll} (hp : queryPoll s i = .ok p)
    (hfit : votedTotal s i < 2 ^ 128) (available : Nat)
    (hv : simulateEnd s i available = .ok (.rejected .isVetoOutcome)) :
    reaches (votedSum s i .veto) (votedSum s i .yes + votedSum s i .no + votedSum s i .veto)
      (p.vetoThreshold.getD p.threshold) := by
  rw [C05_final_status_rule h hp hfit] at hv
  unfold ruleStatus at hv
  by_contra hn
  simp only [hn, if_false] at hv
  revert hv
  split_ifs <;> simp

example : ∃ s, s = run sampleState [⟨20, 1, .castVote 2 .veto 8 13⟩] ∧
    reaches (votedSum s 2 .veto) (votedSum s 2 .yes + votedSum s 2 .no + votedSum s 2 .veto) (ONE / 3) ∧
    simulateEnd s 2 100 = .ok (.rejected .isVetoOutcome) :=
  ⟨_, rfl, by decide +kernel, by decide +kernel⟩

/-! ## C07 -/

/-- A successful `EndPoll` stores exactly the status the simulation query gave before, and changes nothing else. -/
theorem C07_simulate_eq_end {s s' : State} {now : Nat} {sender : Addr} {i m : Nat} {e a : Bool}
    (he : exec s ⟨now, sender, .endPoll i m e a⟩ = .ok s') :
    ∃ p st, queryPoll s i = .ok p ∧ simulateEnd s i m = .ok st ∧ queryPoll s' i = .ok { p with status := st } ∧
      (∀ j, j ≠ i → queryPoll s' j = queryPoll s j) ∧ s'.votes = s.votes ∧ s'.pollCount = s.pollCount ∧
      s'.admin = s.admin := by
  have he' : endPoll s now i m e a = .ok s' := by
    unfold exec at he; split at he
    · cases he
    · exact he
  obtain ⟨p, hp, _, _, rfl⟩ := endPoll_ok_iff.1 he'
  refine ⟨p, p.finalStatus m, by simp [queryPoll, hp], by simp [simulateEnd, hp], by simp [queryPoll], ?_,
    rfl, rfl, rfl⟩
  intro j hj
  simp [queryPoll, Map.get_set, hj.symm]

example : ∃ s', exec sampleState ⟨100, 1, .endPoll 1 100 true false⟩ = .ok s' ∧
    (∃ p, queryPoll s' 1 = .ok p ∧ p.status = .rejected .isRejectingOutcome) :=
  ⟨_, rfl, _, rfl, by decide +kernel⟩

/-! ## C08 -/

/-- `EndPoll` by the admin succeeds exactly when the poll exists and either voting is over, or early ending is
allowed, quorum is met and some option other than abstain reaches its threshold; and, if the caller asks for it,
the poll was not ended yet. -/
theorem C08_end_poll_iff {s : State} (h : Reachable s) (now i m : Nat) (e a : Bool)
    (hfit : votedTotal s i < 2 ^ 128) :
    (∃ s', exec s ⟨now, s.admin, .endPoll i m e a⟩ = .ok s') ↔
      ∃ p, queryPoll s i = .ok p ∧
        (p.endsAt ≤ now ∨ (a = true ∧ quorumMet (votedTotal s i) m p.quorum ∧ someOptionReaches s i p)) ∧
        (e = true → p.live) := by
  have hkey : ∀ p, s.polls.get i = some p →
      (earlyOk m p ↔ quorumMet (votedTotal s i) m p.quorum ∧ someOptionReaches s i p) :=
    fun p hp => earlyOk_iff h.inv hp hfit
  unfold exec queryPoll
  simp only [ne_eq, not_true, if_false]
  constructor
  · rintro ⟨s', hs'⟩
    obtain ⟨p, hp, hc, he, _⟩ := endPoll_ok_iff.1 hs'
    refine ⟨p, by rw [hp], ?_, he⟩
    rcases hc with hc | ⟨ha, hc⟩
    · exact Or.inl hc
    · exact Or.inr ⟨ha, (hkey p hp).1 hc⟩
  · rintro ⟨p, hp, hc, he⟩
    cases hg : s.polls.get i with
    | none => rw [hg] at hp; cases hp
    | some q =>
      rw [hg] at hp; cases hp
      refine ⟨_, endPoll_ok_iff.2 ⟨_, hg, ?_, he, rfl⟩⟩
      rcases hc with hc | ⟨ha, hc⟩
      · exact Or.inl hc
      · exact Or.inr ⟨ha, (hkey _ hg).2 hc⟩

example : (∃ s', exec sampleState ⟨50, 1, .endPoll 1 100 true true⟩ = .ok s') ∧
    exec sampleState ⟨50, 1, .endPoll 1 100 true false⟩ = .error .withinVotingPeriod ∧
    exec sampleState ⟨50, 1, .endPoll 1 1000 true true⟩ = .error .earlyQuorum ∧
    exec (step sampleState ⟨50, 1, .endPoll 1 100 true true⟩) ⟨200, 1, .endPoll 1 100 true false⟩
      = .error .alreadyEnded :=
  ⟨⟨_, rfl⟩, by decide +kernel, by decide +kernel, by decide +kernel⟩

/-! ## C09 -/

/-- Messages from anyone but the admin are refused and change nothing. -/
theorem C09_admin_only (s : State) (c : Call) :
    (c.sender ≠ s.admin → exec s c = .error .unauthorized ∧ step s c = s) := by
  intro h
  have : exec s c = .error .unauthorized := by unfold exec; rw [if_pos h]
  exact ⟨this, by unfold step; rw [this]⟩

/-- No history of messages by other senders changes anything. -/
theorem C09_outsiders_history (s : State) (h : List Call) (ho : ∀ c ∈ h, c.sender ≠ s.admin) : run s h = s := by
  induction h with
  | nil => rfl
  | cons c t ih =>
    unfold run
    rw [List.foldl_cons, (C09_admin_only s c (ho c (by simp))).2]
    exact ih (fun x hx => ho x (List.mem_cons_of_mem _ hx))

/-- No message, from anyone, changes the admin: it is the same after any history. -/
theorem C09_admin_fixed (s : State) (h : List Call) : (run s h).admin = s.admin := by
  have step_admin : ∀ (s : State) (c : Call), (step s c).admin = s.admin := by
    intro s c
    unfold step
    cases he : exec s c with
    | error e => rfl
    | ok s' =>
      show s'.admin = s.admin
      unfold exec at he
      split at he
      · cases he
      · cases hm : c.msg with
        | createPoll p =>
          rw [hm] at he
          obtain ⟨_, _, rfl⟩ := createPoll_ok_iff.1 he
          rfl
        | castVote i o v a =>
          rw [hm] at he
          exact (castVote_pollCount he).2
        | updateVotes v a =>
          rw [hm] at he
          refine foldlM_inv _ (fun x => x.admin = s.admin) (fun x w x' hx hu => ?_) _ _ _ rfl he
          rcases updateVote_cases hu with rfl | hc
          · exact hx
          · rw [(castVote_pollCount hc).2, hx]
        | endPoll i m e a =>
          rw [hm] at he
          obtain ⟨_, _, _, _, rfl⟩ := endPoll_ok_iff.1 he
          rfl
  induction h generalizing s with
  | nil => rfl
  | cons c t ih =>
    unfold run at ih ⊢
    rw [List.foldl_cons, ih, step_admin]

example : (run sampleState [⟨50, 2, .endPoll 1 100 true true⟩, ⟨500, 3, .updateVotes 7 1000⟩]) = sampleState :=
  C09_outsiders_history _ _ (by decide +kernel)

/-! ## C10 -/

/-- `UpdateVotes` succeeds (the block time is not before the creation of any poll), and afterwards the votes of
the voter on live polls before their end carry the new amount with the option unchanged; every other vote is
unchanged; polls keep terms and status, and polls without such a vote are unchanged altogether. -/
theorem C10_update_votes {s : State} (h : Reachable s) {now : Nat} {voter : Addr} {amount : Nat}
    (ham : amount < 2 ^ 128) (hnow : ∀ i p, queryPoll s i = .ok p → p.startedAt ≤ now) :
    ∃ s', exec s ⟨now, s.admin, .updateVotes voter amount⟩ = .ok s' ∧
      (∀ i, (∃ p, queryPoll s i = .ok p ∧ p.live ∧ now < p.endsAt) →
        queryPollVoter s' i voter = (queryPollVoter s i voter).map (fun v => { v with amount := amount })) ∧
      (∀ u i, (u ≠ voter ∨ ¬ ∃ p, queryPoll s i = .ok p ∧ p.live ∧ now < p.endsAt) →
        queryPollVoter s' i u = queryPollVoter s i u) ∧
      (∀ i p, queryPoll s i = .ok p → ∃ p', queryPoll s' i = .ok p' ∧ p'.terms = p.terms ∧ p'.status = p.status ∧
        (queryPollVoter s i voter = none ∨ ¬ (p.live ∧ now < p.endsAt) → p' = p)) ∧
      s'.pollCount = s.pollCount := by
  have hq : ∀ s i p, queryPoll s i = .ok p ↔ s.polls.get i = some p := by
    intro s i p; unfold queryPoll
    cases s.polls.get i <;> simp
  simp only [hq] at *
  have hsp := votesOf_spec h.inv voter
  obtain ⟨s', h1, h2, h3, h4, _⟩ := updateLoop ham (votesOf s voter) s h.inv hnow hsp.1 hsp.2.1
  refine ⟨s', by unfold exec updateVotes; simp only [ne_eq, not_true, if_false]; exact h1, ?_, ?_, ?_, h4⟩
  · intro i hop
    unfold queryPollVoter
    rw [h2]
    by_cases hm : i ∈ (votesOf s voter).map (·.pollId)
    · rw [if_pos ⟨rfl, hm, hop⟩]
    · rw [if_neg (fun hh => hm hh.2.1)]
      cases hg : s.votes.get (vkey voter i) with
      | none => rfl
      | some v => exact absurd ((hsp.2.2 i).2 ⟨v, hg⟩) hm
  · intro u i hh
    unfold queryPollVoter
    rw [h2, if_neg]
    rintro ⟨ha, _, hb⟩
    rcases hh with hh | hh
    · exact hh ha
    · exact hh hb
  · intro i p hp
    obtain ⟨p', g1, g2, g3, g4⟩ := h3 i p hp
    refine ⟨p', g1, g2, g3, ?_⟩
    intro hor
    apply g4
    rintro ⟨ha, q, hb, hc, hd⟩
    rw [hp] at hb; cases hb
    rcases hor with hor | hor
    · obtain ⟨v, hv⟩ := (hsp.2.2 i).1 ha
      unfold queryPollVoter at hor
      rw [hv] at hor; cases hor
    · exact hor ⟨hc, hd⟩

example : (∀ i p, queryPoll sampleState i = .ok p → p.startedAt ≤ 15) ∧
    queryPollVoter (step sampleState ⟨150, 1, .updateVotes 7 3⟩) 2 7 = some ⟨2, 7, .yes, 3⟩ ∧
    queryPollVoter (step sampleState ⟨150, 1, .updateVotes 7 3⟩) 1 7 = some ⟨1, 7, .veto, 25⟩ := by
  refine ⟨?_, by decide +kernel, by decide +kernel⟩
  intro i p hp
  have hid := (C04_ids_consecutive sample_reachable i).1.1 ⟨p, hp⟩
  have hc : sampleState.pollCount = 2 := by decide +kernel
  have : i = 1 ∨ i = 2 := by omega
  have e : ∀ j q, queryPoll sampleState j = .ok q → (queryPoll sampleState j).toOption.map (·.startedAt) = some q.startedAt := by
    intro j q hq; rw [hq]; rfl
  have hv := e i p hp
  rcases this with rfl | rfl
  · have : (queryPoll sampleState 1).toOption.map (·.startedAt) = some 10 := by decide +kernel
    rw [this] at hv; have := Option.some.inj hv; omega
  · have : (queryPoll sampleState 2).toOption.map (·.startedAt) = some 10 := by decide +kernel
    rw [this] at hv; have := Option.some.inj hv; omega

/-! ## C11 -/

/-- After a poll was ended, or for messages at or after its end time, nothing changes its tally or its votes. -/
theorem C11_results_freeze {s : State} (hs : Reachable s) {i : Nat} {p : Poll} (hp : queryPoll s i = .ok p)
    (h : List Call) (ht : ∀ c ∈ h, c.msg.typed) (hc : s.pollCount + creates h < 2 ^ 64)
    (hclosed : ¬ p.live ∨ ∀ c ∈ h, p.endsAt ≤ c.now) :
    ∃ p', queryPoll (run s h) i = .ok p' ∧ p'.results = p.results ∧
      ∀ voter, queryPollVoter (run s h) i voter = queryPollVoter s i voter := by
  have hi := hs.inv
  clear hs
  induction h generalizing s p with
  | nil => exact ⟨p, hp, rfl, fun _ => rfl⟩
  | cons c t ih =>
    rw [creates_cons] at hc
    have hg : s.polls.get i = some p := by
      unfold queryPoll at hp
      cases hg : s.polls.get i with
      | none => rw [hg] at hp; cases hp
      | some q => rw [hg] at hp; cases hp; rfl
    obtain ⟨p1, hp1⟩ := evolves_step hi (c := c) (by unfold M64; omega) hg
    have hs1 := inv_step hi (ht c (by simp)) (by unfold M64; omega)
    have hfr := hp1.frozen (by
      rcases hclosed with h | h
      · exact Or.inl h
      · exact Or.inr (h c (by simp)))
    obtain ⟨p2, h2, h3, h4⟩ := ih (s := step s c) (p := p1) (by unfold queryPoll; rw [hp1.get])
      (fun x hx => ht x (List.mem_cons_of_mem _ hx)) (by have := hs1.2.1; omega) (by
        rcases hclosed with h | h
        · exact Or.inl (hp1.closed h)
        · right; intro x hx; rw [terms_endsAt hp1.terms]; exact h x (List.mem_cons_of_mem _ hx)) hs1.1
    refine ⟨p2, h2, h3.trans hfr.1, ?_⟩
    intro voter
    have := h4 voter
    unfold queryPollVoter at *
    exact this.trans (hfr.2 voter)

/-- An ended poll never becomes live again. -/
theorem C11_ended_stays_ended {s : State} (hs : Reachable s) {i : Nat} {p : Poll} (hp : queryPoll s i = .ok p)
    (hend : ¬ p.live) (h : List Call) (ht : ∀ c ∈ h, c.msg.typed) (hc : s.pollCount + creates h < 2 ^ 64) :
    ∃ p', queryPoll (run s h) i = .ok p' ∧ ¬ p'.live := by
  have hi := hs.inv
  clear hs
  induction h generalizing s p with
  | nil => exact ⟨p, hp, hend⟩
  | cons c t ih =>
    rw [creates_cons] at hc
    have hg : s.polls.get i = some p := by
      unfold queryPoll at hp
      cases hg : s.polls.get i with
      | none => rw [hg] at hp; cases hp
      | some q => rw [hg] at hp; cases hp; rfl
    obtain ⟨p1, hp1⟩ := evolves_step hi (c := c) (by unfold M64; omega) hg
    have hs1 := inv_step hi (ht c (by simp)) (by unfold M64; omega)
    exact ih (s := step s c) (p := p1) (by unfold queryPoll; rw [hp1.get]) (hp1.closed hend)
      (fun x hx => ht x (List.mem_cons_of_mem _ hx)) (by have := hs1.2.1; omega) hs1.1

example : ∃ p, queryPoll (step sampleState ⟨50, 1, .endPoll 1 100 true true⟩) 1 = .ok p ∧
    p.status = .rejected .isRejectingOutcome := ⟨_, rfl, by decide +kernel⟩

/-! ## C12 -/

/-- A poll passes only with strictly more yes than no votes, with yes reaching the threshold among the
non-abstaining votes, with the quorum, and without a veto; the outcome reported is "yes" with its count. -/
theorem C12_passed_implies {s : State} (h : Reachable s) {i : Nat} {p : Poll} (hp : queryPoll s i = .ok p)
    (hfit : votedTotal s i < 2 ^ 128) {available o c : Nat}
    (hpass : simulateEnd s i available = .ok (.passed o c)) :
    let y := votedSum s i .yes
    let n := votedSum s i .no
    let v := votedSum s i .veto
    o = 0 ∧ c = y ∧ n < y ∧
    p.threshold * (y + n + v) ≤ y * 10 ^ 18 ∧
    p.quorum * available ≤ votedTotal s i * 10 ^ 18 ∧ (p.quorum ≠ 0 → 0 < available) ∧
    (v * 10 ^ 18 < (p.vetoThreshold.getD p.threshold) * (y + n + v)) := by
  intro y n v
  rw [C05_final_status_rule h hp hfit] at hpass
  rw [votedTotal_eq]
  change Except.ok (ruleStatus y n (votedSum s i .abstain) v p.quorum p.threshold p.vetoThreshold available)
    = Except.ok (Status.passed o c) at hpass
  unfold ruleStatus at hpass
  by_cases hq : quorumMet (y + n + votedSum s i .abstain + v) available p.quorum
  · by_cases hv : reaches v (y + n + v) (p.vetoThreshold.getD p.threshold)
    · simp [hq, hv] at hpass
    · simp only [hq, hv, not_true, if_false] at hpass
      by_cases hy : reaches y (y + n + v) p.threshold ∧ (¬ reaches n (y + n + v) p.threshold ∨ n < y)
      · simp only [hy] at hpass
        have hpass := Except.ok.inj hpass
        have h12 := Status.passed.inj hpass
        have hthr : p.threshold * (y + n + v) ≤ y * 10 ^ 18 := by
          rcases hy.1 with h0 | h0
          · rw [h0]; simp
          · exact h0.2
        have hny : n < y := by
          rcases hy.2 with h0 | h0
          · unfold reaches at h0
            have h0' : ¬ p.threshold = 0 := fun hh => h0 (Or.inl hh)
            have h1 : 0 < y + n + v := by
              rcases hy.1 with hh | hh
              · exact absurd hh h0'
              · exact hh.1
            have h2 : n * 10 ^ 18 < p.threshold * (y + n + v) := by
              by_contra hc
              exact h0 (Or.inr ⟨h1, Nat.le_of_not_lt hc⟩)
            have h3 : n * 10 ^ 18 < y * 10 ^ 18 := lt_of_lt_of_le h2 hthr
            omega
          · exact h0
        refine ⟨h12.1.symm, h12.2.symm, hny, hthr, ?_, ?_, ?_⟩
        · rcases hq with h0 | h0
          · rw [h0]; simp
          · exact h0.2.1
        · intro hne
          rcases hq with h0 | h0
          · exact absurd h0 hne
          · exact h0.1
        · by_contra hc
          exact hv (by
            unfold reaches
            right
            exact ⟨by omega, Nat.le_of_not_lt hc⟩)
      · simp only [hy, if_false] at hpass
        revert hpass
        split_ifs <;> simp
  · simp [hq] at hpass

example : simulateEnd sampleState 2 100 = .ok (.passed 0 25) ∧ votedTotal sampleState 2 < 2 ^ 128 := by
  decide +kernel

/-! ## C13 -/

/-- Two votes of different voters, or on different polls, commute, whoever sends them and at whatever times, and
whether or not they are accepted: the resulting polls, tallies and votes are the same in either order. -/
theorem C13_votes_commute {s : State} (h : Reachable s) {now now' : Nat} {x x' : Addr}
    {i j : Nat} {o o' : Outcome} {v w : Addr} {a b : Nat} (ha : a < 2 ^ 128) (hb : b < 2 ^ 128)
    (hne : v ≠ w ∨ i ≠ j) :
    run s [⟨now, x, .castVote i o v a⟩, ⟨now', x', .castVote j o' w b⟩] =
      run s [⟨now', x', .castVote j o' w b⟩, ⟨now, x, .castVote i o v a⟩] :=
  step_castVote_comm h.inv ha hb hne

/-- The message is a vote with a 128-bit amount. -/
def isVote (c : Call) : Prop := ∃ i o v a, c.msg = .castVote i o v a ∧ a < 2 ^ 128

/-- The messages are votes of different voters or on different polls. -/
def differentVotes (c d : Call) : Prop :=
  ∀ i o v a j o' w b, c.msg = .castVote i o v a → d.msg = .castVote j o' w b → v ≠ w ∨ i ≠ j

/-- Any batch of votes, no two of the same voter on the same poll, has the same result in every order. -/
theorem C13_any_order {s : State} (h : Reachable s) {l l' : List Call} (hp : l.Perm l')
    (hv : ∀ c ∈ l, isVote c) (hd : l.Pairwise differentVotes) : run s l = run s l' := by
  have hi := h.inv
  clear h
  have hsym : ∀ {c d}, differentVotes c d → differentVotes d c := by
    intro c d hcd i o v a j o' w b h1 h2
    rcases hcd j o' w b i o v a h2 h1 with h | h
    · exact Or.inl h.symm
    · exact Or.inr h.symm
  have hstep : ∀ {t c}, Inv t → isVote c → Inv (step t c) := by
    rintro t c ht ⟨i, o, v, a, hm, ha⟩
    obtain ⟨now, x, m⟩ := c
    simp only at hm
    subst hm
    rw [step_castVote]
    split
    · cases h1 : castVote t now i o v a with
      | error _ => exact ht
      | ok t1 => exact inv_castVote ht ha h1
    · exact ht
  induction hp generalizing s with
  | nil => rfl
  | cons c _ ih =>
    exact ih (fun d hd => hv d (List.mem_cons_of_mem _ hd)) (List.pairwise_cons.1 hd).2
      (hstep hi (hv c (by simp)))
  | swap c d t =>
    have h1 := (List.pairwise_cons.1 hd).1 c (by simp)
    obtain ⟨i, o, v, a, hm, ha⟩ := hv d (by simp)
    obtain ⟨j, o', w, b, hm', hb⟩ := hv c (by simp)
    have hne := h1 _ _ _ _ _ _ _ _ hm hm'
    obtain ⟨now, x, m⟩ := d
    obtain ⟨now', x', m'⟩ := c
    simp only at hm hm'
    subst hm; subst hm'
    unfold run
    simp only [List.foldl_cons]
    rw [step_castVote_comm hi ha hb hne]
  | trans h1 h2 ih1 ih2 =>
    rw [ih1 hv hd hi]
    exact ih2 (fun c hc => hv c (h1.symm.subset hc)) (h1.pairwise hd hsym) hi

example : run sampleState [⟨20, 1, .castVote 1 .yes 8 3⟩, ⟨21, 1, .castVote 1 .no 7 5⟩, ⟨22, 1, .castVote 2 .no 8 5⟩] =
    run sampleState [⟨22, 1, .castVote 2 .no 8 5⟩, ⟨20, 1, .castVote 1 .yes 8 3⟩, ⟨21, 1, .castVote 1 .no 7 5⟩] ∧
    run sampleState [⟨20, 1, .castVote 1 .yes 8 3⟩] ≠ sampleState := by decide +kernel

/-! ## C14 -/

theorem ranged_eq_page {K V : Type} [LinearOrder K] (m : Map K V) (after : Option K) {n : Nat} (hn : n < 2 ^ 32) :
    ranged m.entries after none (some n) false = m.page after n := by
  unfold ranged Map.page
  simp only [Nat.mod_eq_of_lt hn]
  simp only [Bool.and_true, Bool.false_eq_true, if_false]
  rfl

/-- The status is the one that a filter asks for. -/
def Status.shows : Status → StatusFilter → Bool
  | .inProgress _, .inProgress => true
  | .passed _ _, .passed => true
  | .rejected _, .rejected => true
  | _, _ => false

theorem shows_eq (x : Status) (f : StatusFilter) : x.shows f = decide (x.toFilter = f) := by
  cases x <;> cases f <;> rfl

theorem shows_iff {x : Status} {f : StatusFilter} : x.shows f = true ↔ x.toFilter = f := by
  rw [shows_eq, decide_eq_true_iff]

/-- The polls that match an optional status filter, in id order. -/
def matching (s : State) (f : Option StatusFilter) : List Poll :=
  (s.polls.entries.map (·.2)).filter (fun p =>
    match f with | some f => p.status.shows f | none => true)

/-- Reading polls page by page in ascending order, each page starting after the id of the last poll received, gives
every poll that matches the filter exactly once, in id order, for every positive page size below 2^32; and it ends. -/
theorem C14_polls_paging {s : State} (h : Reachable s) (f : Option StatusFilter) {n : Nat} (hn : 0 < n) (hl : n < 2 ^ 32) :
    (∃ ps, Reads (fun after => queryPolls s f after none (some n) false) (·.id) none ps) ∧
    (∀ ps, Reads (fun after => queryPolls s f after none (some n) false) (·.id) none ps →
      ps.flatten = matching s f) ∧
    ((matching s f).map (·.id)).Pairwise (· < ·) := by
  have hid : ∀ e ∈ s.polls.entries, e.2.id = e.1 := fun e he =>
    (h.inv.pid e.1 e.2 (Map.get_eq_some_iff.2 he)).1
  have hsorted : ((matching s f).map (·.id)).Pairwise (· < ·) := by
    unfold matching
    rw [List.filter_map, List.map_map, List.pairwise_map]
    refine List.Pairwise.imp_of_mem ?_ (List.Pairwise.filter _ s.polls.sorted)
    intro a b ha hb hab
    simp only [Function.comp]
    rw [hid a (List.mem_filter.1 ha).1, hid b (List.mem_filter.1 hb).1]
    exact hab
  have key : ∃ m : Map Nat Poll, (∀ e ∈ m.entries, (id (e.2.id)) = e.1) ∧
      (fun after => queryPolls s f after none (some n) false) = (fun a => (m.page (a.map id) n).map (·.2)) ∧
      m.entries.map (·.2) = matching s f := by
    cases f with
    | none =>
      refine ⟨s.polls, hid, ?_, ?_⟩
      · funext after
        simp only [queryPolls, ranged_eq_page _ _ hl, Option.map_id_fun, id]
      · simp only [matching]; exact (List.filter_eq_self.2 (fun _ _ => rfl)).symm
    | some f =>
      refine ⟨s.polls.filter (fun _ p => decide (p.status.toFilter = f)), ?_, ?_, ?_⟩
      · intro e he; exact hid e (List.mem_filter.1 he).1
      · funext after
        simp only [queryPolls, ranged_eq_page _ _ hl, Option.map_id_fun, id]
      · simp only [matching, Map.filter, shows_eq]
        rw [List.filter_map]; rfl
  obtain ⟨m, hm1, hm2, hm3⟩ := key
  rw [hm2]
  refine ⟨reads_page_exists (cur := Poll.id) (g := fun e : Nat × Poll => e.2) (emb := id) hm1 hn none, ?_, hsorted⟩
  intro ps hps
  rw [reads_page (cur := Poll.id) (g := fun e : Nat × Poll => e.2) (emb := id) hm1 hn hps, Option.map_none, afterL_none, hm3]

/-- The votes recorded on a poll, in voter order. -/
def votesOn (s : State) (i : Nat) : List Vote :=
  (s.votes.entries.map (·.2)).filter (fun v => decide (v.pollId = i))

/-- The same for the votes of a poll, with the voter as cursor. -/
theorem C14_poll_votes_paging {s : State} (h : Reachable s) (i : Nat) {n : Nat} (hn : 0 < n) (hl : n < 2 ^ 32) :
    (∃ ps, Reads (fun after => queryPollVoters s i after none (some n) false) (·.voter) none ps) ∧
    (∀ ps, Reads (fun after => queryPollVoters s i after none (some n) false) (·.voter) none ps →
      ps.flatten = votesOn s i) ∧
    (∀ v, v ∈ votesOn s i ↔ ∃ u, queryPollVoter s i u = some v) := by
  have hg : ∀ e ∈ (s.votes.filter (fun _ v => decide (v.pollId = i))).entries,
      (vkey e.2.voter i) = e.1 := by
    intro e he
    obtain ⟨h1, h2⟩ := List.mem_filter.1 he
    have := (h.inv.vkeys e.1 e.2 (Map.get_eq_some_iff.2 h1)).1
    have h3 : e.2.pollId = i := by simpa using h2
    rw [this, h3]
  have hq : (fun after => queryPollVoters s i after none (some n) false) =
      (fun a => ((s.votes.filter (fun _ v => decide (v.pollId = i))).page (a.map (vkey · i)) n).map (·.2)) := by
    funext after
    simp only [queryPollVoters, Option.map_none, ranged_eq_page _ _ hl]
  rw [hq]
  refine ⟨reads_page_exists (cur := Vote.voter) (g := fun e : VKey × Vote => e.2) hg hn none, ?_, ?_⟩
  · intro ps hps
    rw [reads_page (cur := Vote.voter) (g := fun e : VKey × Vote => e.2) hg hn hps, Option.map_none, afterL_none]
    simp only [votesOn, Map.filter]
    rw [List.filter_map]; rfl
  · intro v
    unfold votesOn queryPollVoter
    rw [List.mem_filter, List.mem_map]
    constructor
    · rintro ⟨⟨e, he, rfl⟩, h2⟩
      have hk := Map.get_eq_some_iff.2 he
      have := (h.inv.vkeys e.1 e.2 hk).1
      have h3 : e.2.pollId = i := by simpa using h2
      refine ⟨e.2.voter, ?_⟩
      rw [← h3, ← this]; exact hk
    · rintro ⟨u, hu⟩
      have := vkey_inj.1 (h.inv.vkeys _ _ hu).1
      exact ⟨⟨_, Map.get_eq_some_iff.1 hu, rfl⟩, by simp [this.2]⟩

/-- The same for the votes of a voter, with the poll id as cursor. -/
theorem C14_voter_votes_paging {s : State} (h : Reachable s) (voter : Addr) {n : Nat} (hn : 0 < n)
    (hl : n < 2 ^ 32) :
    (∃ ps, Reads (fun after => queryVoter s voter after (some n)) (·.pollId) none ps) ∧
    (∀ ps, Reads (fun after => queryVoter s voter after (some n)) (·.pollId) none ps →
      ps.flatten = queryVoter s voter none none) ∧
    (∀ v, v ∈ queryVoter s voter none none ↔ ∃ i, queryPollVoter s i voter = some v) ∧
    (queryVoter s voter none none).Nodup := by
  have hg : ∀ e ∈ (s.votes.filter (fun k _ => decide ((ofLex k).1 = voter))).entries,
      (vkey voter e.2.pollId) = e.1 := by
    intro e he
    obtain ⟨h1, h2⟩ := List.mem_filter.1 he
    have hk := (h.inv.vkeys e.1 e.2 (Map.get_eq_some_iff.2 h1)).1
    have h3 : (ofLex e.1).1 = voter := by simpa using h2
    rw [hk, ofLex_vkey] at h3
    rw [hk, ← h3]
  have hall : queryVoter s voter none none =
      (s.votes.filter (fun k _ => decide ((ofLex k).1 = voter))).entries.map (·.2) := by
    unfold queryVoter ranged
    simp only [Option.map_none, Bool.and_true, Bool.false_eq_true, if_false]
    rw [List.filter_eq_self.2 (fun _ _ => rfl)]
  have hq : (fun after => queryVoter s voter after (some n)) =
      (fun a => ((s.votes.filter (fun k _ => decide ((ofLex k).1 = voter))).page (a.map (vkey voter ·)) n).map (·.2)) := by
    funext after
    simp only [queryVoter, ranged_eq_page _ _ hl]
  rw [hq]
  refine ⟨reads_page_exists (cur := Vote.pollId) (g := fun e : VKey × Vote => e.2) hg hn none, ?_, ?_, ?_⟩
  · intro ps hps
    rw [reads_page (cur := Vote.pollId) (g := fun e : VKey × Vote => e.2) hg hn hps, Option.map_none, afterL_none, hall]
  · intro v
    rw [hall, List.mem_map]
    unfold queryPollVoter
    constructor
    · rintro ⟨e, he, rfl⟩
      exact ⟨e.2.pollId, by rw [hg e he]; exact Map.get_eq_some_iff.2 (List.mem_filter.1 he).1⟩
    · rintro ⟨i, hi⟩
      exact ⟨(vkey voter i, v), List.mem_filter.2 ⟨Map.get_eq_some_iff.1 hi, by simp [ofLex_vkey]⟩, rfl⟩
  · rw [hall]
    unfold List.Nodup
    rw [List.pairwise_map]
    refine List.Pairwise.imp_of_mem ?_ (Map.sorted _)
    intro a b ha hb hab heq
    have : a.1 = b.1 := by rw [← hg a ha, ← hg b hb, heq]
    exact absurd hab (by rw [this]; exact lt_irrefl _)

example : Reads (fun after => queryPolls sampleState none after none (some 1) false) (·.id) none
    [queryPolls sampleState none none none (some 1) false, queryPolls sampleState none (some 1) none (some 1) false] :=
  .more rfl (.more rfl (.stop rfl))

/-- In descending order `start_after` is still a lower bound, so continuing after the last poll received
repeats polls and never reaches the older ones: with three polls and pages of two, the reader who saw
3 and 2 is given 3 again, and never 1. -/
theorem C14_descending_witness : ∃ s, Reachable s ∧
    (queryPolls s none none none (some 2) true).map (·.id) = [3, 2] ∧
    (queryPolls s none (some 2) none (some 2) true).map (·.id) = [3] := by
  refine ⟨run (init 1) [⟨10, 1, .createPoll ⟨5, 0, 0, 0, 100, 0, 0, none⟩⟩,
    ⟨10, 1, .createPoll ⟨5, 0, 0, 0, 100, 0, 0, none⟩⟩, ⟨10, 1, .createPoll ⟨5, 0, 0, 0, 100, 0, 0, none⟩⟩],
    ⟨1, _, ?_, by decide, rfl⟩, by decide +kernel, by decide +kernel⟩
  intro c hc
  simp only [List.mem_cons, List.not_mem_nil, or_false] at hc
  rcases hc with rfl | rfl | rfl <;> simp [Msg.typed]

/-- The limit is cut to 32 bits: a reader who asks for pages of 2^32 polls gets an empty page, and misses the poll that
is there. -/
theorem C14_wide_limit_witness : ∃ s, Reachable s ∧
    queryPolls s none none none (some (2 ^ 32)) false = [] ∧ (queryPolls s none none none none false).map (·.id) = [1] := by
  refine ⟨run (init 1) [⟨10, 1, .createPoll ⟨5, 0, 0, 0, 100, 0, 0, none⟩⟩], ⟨1, _, ?_, by decide, rfl⟩, by decide +kernel,
    by decide +kernel⟩
  intro c hc
  rw [List.mem_singleton.1 hc]
  simp [Msg.typed]

/-! ## C15 -/

/-- Once a poll was ended with a number of available votes, whatever happens in between, ending it again fails
if the caller asks for an error, and otherwise, with the same number of available votes, gives the same status. -/
theorem C15_reending_stable {s s1 s2 : State} (hs : Reachable s) {now now' : Nat} {i m : Nat} {e a e' a' : Bool}
    (h1 : endPoll s now i m e a = .ok s1) (h : List Call) (ht : ∀ c ∈ h, c.msg.typed)
    (hc : s.pollCount + creates h < 2 ^ 64)
    (h2 : endPoll (run s1 h) now' i m e' a' = .ok s2) :
    e' = false ∧ ∃ p q, queryPoll s1 i = .ok p ∧ queryPoll s2 i = .ok q ∧ q.status = p.status := by
  have hi1 := inv_endPoll hs.inv h1
  obtain ⟨p, hp, _, _, rfl⟩ := endPoll_ok_iff.1 h1
  generalize hs1 : ({ s with polls := s.polls.set i { p with status := p.finalStatus m } } : State) = s1 at *
  have hg1 : s1.polls.get i = some { p with status := p.finalStatus m } := by rw [← hs1]; simp
  have hnl : ¬ ({ p with status := p.finalStatus m } : Poll).live := by
    rintro ⟨x, hx⟩; exact finalStatus_not_inProgress p m x hx
  have hcount : s1.pollCount = s.pollCount := by rw [← hs1]
  obtain ⟨q, hq, _, he', rfl⟩ := endPoll_ok_iff.1 h2
  -- the poll evolves with frozen results
  have hev : ∀ (h : List Call) (x : State) (r : Poll), Inv x → x.polls.get i = some r → ¬ r.live →
      (∀ c ∈ h, c.msg.typed) → x.pollCount + creates h < M64 →
      ∃ r', (run x h).polls.get i = some r' ∧ ¬ r'.live ∧ r'.terms = r.terms ∧ r'.results = r.results := by
    intro h
    induction h with
    | nil => intro x r _ hr hl _ _; exact ⟨r, hr, hl, rfl, rfl⟩
    | cons c t ih =>
      intro x r hx hr hl ht hc
      rw [creates_cons] at hc
      obtain ⟨r1, hr1⟩ := evolves_step hx (c := c) (by omega) hr
      have hx1 := inv_step hx (ht c (by simp)) (by omega)
      obtain ⟨r2, g1, g2, g3, g4⟩ := ih (step x c) r1 hx1.1 hr1.get (hr1.closed hl)
        (fun y hy => ht y (List.mem_cons_of_mem _ hy)) (by have := hx1.2.1; omega)
      exact ⟨r2, g1, g2, g3.trans hr1.terms, g4.trans (hr1.frozen (Or.inl hl)).1⟩
  obtain ⟨r, hr, hrl, hrt, hrr⟩ := hev h s1 _ hi1 hg1 hnl ht (by rw [hcount]; exact hc)
  rw [hr] at hq; cases hq
  refine ⟨?_, _, _, by simp [queryPoll, hg1]; rfl, by simp [queryPoll]; rfl, ?_⟩
  · cases e' with
    | false => rfl
    | true => exact absurd (he' rfl) hrl
  · simp only
    cases q; cases p
    simp only [Poll.terms, Terms.mk.injEq] at hrt
    obtain ⟨_, _, _, _, _, _, _, rfl, rfl, rfl⟩ := hrt
    simp only at hrr
    subst hrr
    rfl

/-- With a different number of available votes, an ended poll can change its status. -/
theorem C15_other_total_witness : ∃ s1 s2 p q, Reachable s1 ∧
    endPoll s1 300 2 1000 false false = .ok s2 ∧ queryPoll s1 2 = .ok p ∧ queryPoll s2 2 = .ok q ∧
    p.status = .passed 0 25 ∧ q.status = .rejected .quorumNotReached := by
  refine ⟨run (init 1) (sample ++ [⟨200, 1, .endPoll 2 100 true false⟩]), _, _, _, ⟨1, _, ?_, by decide, rfl⟩, rfl,
    rfl, rfl, by decide +kernel, by decide +kernel⟩
  intro c hc
  simp only [sample, List.mem_append, List.mem_cons, List.not_mem_nil, or_false] at hc
  rcases hc with (rfl | rfl | rfl | rfl | rfl | rfl | rfl | rfl) | rfl <;> simp [Msg.typed] <;> decide

example : ∃ s1 s2, endPoll sampleState 200 2 100 true false = .ok s1 ∧
    endPoll (run s1 [⟨201, 1, .updateVotes 7 1⟩]) 300 2 100 false true = .ok s2 := ⟨_, _, rfl, rfl⟩

end Verif.Gov
