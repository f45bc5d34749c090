import Verif.Gov.Props10

/-!
# Governance: splitting voting weight over accounts (C155)
-/

set_option linter.unusedSimpArgs false

namespace Verif.Gov

/-! ## Specification

The same voting weight is cast for the same option by one account, or by several accounts that share it. -/

/-- Every message is accepted when it is its turn. -/
def allTaken (s : State) : List Call → Prop
  | [] => True
  | c :: t => (∃ s', exec s c = .ok s') ∧ allTaken (step s c) t

/-- Each account casts its own share, in a block. -/
def shares (now : Nat) (sender : Addr) (i : Nat) (o : Outcome) (us : List (Addr × Nat)) : List Call :=
  us.map (fun u => ⟨now, sender, .castVote i o u.1 u.2⟩)

/-! ## Proofs -/

theorem increase_increase (p : Poll) (o : Outcome) {a b : Nat} (h : a + b < M128) :
    (p.increase o a).increase o b = p.increase o (a + b) := by
  unfold Poll.increase
  cases hg : p.results.get o.idx with
  | none =>
    simp only [Map.get_set_self, Map.set_set, wadd128]
    rw [Nat.mod_eq_of_lt h]
  | some t =>
    simp only [Map.get_set_self, Map.set_set, wadd128]
    rw [Nat.mod_add_mod, Nat.add_assoc]

theorem increase_same (p : Poll) (o : Outcome) (a : Nat) :
    (p.increase o a).status = p.status ∧ (p.increase o a).startedAt = p.startedAt ∧
      (p.increase o a).endsAt = p.endsAt := by
  unfold Poll.increase
  cases p.results.get o.idx <;> exact ⟨rfl, rfl, rfl⟩

/-- A vote of an account that has not voted on the poll. -/
theorem exec_fresh {s s' : State} {now : Nat} {c : Addr} {i : Nat} {o : Outcome} {v : Addr} {a : Nat}
    (hv : s.votes.get (vkey v i) = none) :
    exec s ⟨now, c, .castVote i o v a⟩ = .ok s' ↔
      c = s.admin ∧ i ≠ 0 ∧ i ≤ s.pollCount ∧ ∃ p, s.polls.get i = some p ∧ p.live ∧ p.startedAt ≤ now ∧
        now < p.endsAt ∧
        s' = { s with
          polls := s.polls.set i (p.increase o a)
          votes := s.votes.set (vkey v i) { pollId := i, voter := v, outcome := o, amount := a } } := by
  unfold exec
  by_cases hc : c = s.admin
  · simp only [hc, ne_eq, not_true_eq_false, if_false, castVote_ok_iff, hv, Poll.recount, true_and]
  · simp [hc]

theorem shares_run {now : Nat} {i : Nat} {o : Outcome} : ∀ (us : List (Addr × Nat)) (s : State) (p : Poll),
    us ≠ [] → (us.map (·.1)).Nodup → (∀ u ∈ us, s.votes.get (vkey u.1 i) = none) →
    (us.map (·.2)).sum < M128 → i ≠ 0 → i ≤ s.pollCount → s.polls.get i = some p → p.live →
    p.startedAt ≤ now → now < p.endsAt →
    allTaken s (shares now s.admin i o us) ∧
      (run s (shares now s.admin i o us)).polls = s.polls.set i (p.increase o (us.map (·.2)).sum) ∧
      (run s (shares now s.admin i o us)).admin = s.admin ∧
      (run s (shares now s.admin i o us)).pollCount = s.pollCount := by
  intro us
  induction us with
  | nil => intro s p h; exact absurd rfl h
  | cons u t ih =>
    intro s p _ hnd hf hsum h0 h1 hp hl hst hen
    have hx := (exec_fresh (s := s) (now := now) (c := s.admin) (o := o) (a := u.2)
      (hf u (by simp))).2 ⟨rfl, h0, h1, p, hp, hl, hst, hen, rfl⟩
    have hstep := hx
    generalize hs1 : ({ s with
          polls := s.polls.set i (p.increase o u.2)
          votes := s.votes.set (vkey u.1 i) { pollId := i, voter := u.1, outcome := o, amount := u.2 } } : State) = s1
      at hx hstep
    have hst1 : step s ⟨now, s.admin, .castVote i o u.1 u.2⟩ = s1 := by unfold step; rw [hx]
    have ha : s1.admin = s.admin := by rw [← hs1]
    have hpc : s1.pollCount = s.pollCount := by rw [← hs1]
    have hpo : s1.polls = s.polls.set i (p.increase o u.2) := by rw [← hs1]
    have hvo : s1.votes = s.votes.set (vkey u.1 i) { pollId := i, voter := u.1, outcome := o, amount := u.2 } := by
      rw [← hs1]
    by_cases ht : t = []
    · subst ht
      simp only [shares, List.map_cons, List.map_nil, allTaken, run, List.foldl_cons, List.foldl_nil, hst1,
        List.sum_cons, List.sum_nil, Nat.add_zero, and_true]
      exact ⟨⟨s1, hx⟩, hpo, ha, hpc⟩
    · simp only [List.map_cons, List.nodup_cons, List.sum_cons] at hnd hsum
      obtain ⟨e1, e2, e3⟩ := increase_same p o u.2
      have := ih s1 (p.increase o u.2) ht hnd.2 (by
          intro w hw
          have hne : vkey u.1 i ≠ vkey w.1 i := by
            intro h
            apply hnd.1
            have h2 : (u.1, i) = (w.1, i) := h
            rw [(Prod.mk.inj h2).1]
            exact List.mem_map_of_mem hw
          rw [hvo, Map.get_set_ne _ _ hne]
          exact hf w (by simp [hw])) (by omega) h0 (by omega) (by rw [hpo, Map.get_set_self])
        (by unfold Poll.live at *; rw [e1]; exact hl) (by rw [e2]; exact hst) (by rw [e3]; exact hen)
      obtain ⟨k1, k2, k3, k4⟩ := this
      rw [ha] at k1 k2 k3 k4
      simp only [shares, List.map_cons, allTaken, run, List.foldl_cons, hst1, List.sum_cons]
      simp only [shares, run] at k1 k2 k3 k4
      refine ⟨⟨⟨s1, hx⟩, k1⟩, ?_, k3, by rw [k4, hpc]⟩
      rw [k2, hpo, Map.set_set, increase_increase p o hsum]

/-- C155 within a block and from any state. Accounts that have not voted on a poll share a voting weight and vote for the
same option: they can all vote exactly when one account with the whole weight can, and afterwards every poll, every result
that ending it would give, and every attempt to end it come out the same. -/
theorem C155_block {s : State} (now : Nat) (c : Addr) (i : Nat) (o : Outcome) (us : List (Addr × Nat)) (u : Addr)
    (hne : us ≠ []) (hnd : (us.map (·.1)).Nodup) (hf : ∀ w ∈ us, queryPollVoter s i w.1 = none)
    (hu : queryPollVoter s i u = none) (hsum : (us.map (·.2)).sum < 2 ^ 128) :
    (allTaken s (shares now c i o us) ↔ allTaken s [⟨now, c, .castVote i o u (us.map (·.2)).sum⟩]) ∧
      (allTaken s (shares now c i o us) →
        let x := run s (shares now c i o us)
        let y := run s [⟨now, c, .castVote i o u (us.map (·.2)).sum⟩]
        (∀ j, queryPoll x j = queryPoll y j) ∧ (∀ j m, simulateEnd x j m = simulateEnd y j m) ∧
        ∀ t d j m e a,
          ((∃ x', exec x ⟨t, d, .endPoll j m e a⟩ = .ok x') ↔ ∃ y', exec y ⟨t, d, .endPoll j m e a⟩ = .ok y') ∧
          ∀ k, queryPoll (step x ⟨t, d, .endPoll j m e a⟩) k = queryPoll (step y ⟨t, d, .endPoll j m e a⟩) k) := by
  have hM : (us.map (·.2)).sum < M128 := by simpa [M128] using hsum
  have main : ∀ p, c = s.admin → i ≠ 0 → i ≤ s.pollCount → s.polls.get i = some p → p.live →
      p.startedAt ≤ now → now < p.endsAt → _ := fun p _ h0 h1 hp hl hst hen =>
    And.intro (shares_run (o := o) us s p hne hnd hf hM h0 h1 hp hl hst hen)
      (shares_run (o := o) [(u, (us.map (·.2)).sum)] s p (by simp) (by simp)
        (by intro w hw; rw [List.mem_singleton] at hw; subst hw; exact hu) (by simpa using hM) h0 h1 hp hl hst hen)
  have hcond : allTaken s (shares now c i o us) ∨ allTaken s [⟨now, c, .castVote i o u (us.map (·.2)).sum⟩] →
      ∃ p, c = s.admin ∧ i ≠ 0 ∧ i ≤ s.pollCount ∧ s.polls.get i = some p ∧ p.live ∧ p.startedAt ≤ now ∧
        now < p.endsAt := by
    rintro (h | h)
    · cases us with
      | nil => exact absurd rfl hne
      | cons w t =>
        obtain ⟨⟨s', hx⟩, _⟩ := h
        obtain ⟨a1, a2, a3, p, a4, a5, a6, a7, _⟩ := (exec_fresh (hf w (by simp))).1 hx
        exact ⟨p, a1, a2, a3, a4, a5, a6, a7⟩
    · obtain ⟨⟨s', hx⟩, _⟩ := h
      obtain ⟨a1, a2, a3, p, a4, a5, a6, a7, _⟩ := (exec_fresh hu).1 hx
      exact ⟨p, a1, a2, a3, a4, a5, a6, a7⟩
  constructor
  · constructor
    · intro h
      obtain ⟨p, a1, a2, a3, a4, a5, a6, a7⟩ := hcond (.inl h)
      have := (main p a1 a2 a3 a4 a5 a6 a7).2.1
      rw [a1]; exact this
    · intro h
      obtain ⟨p, a1, a2, a3, a4, a5, a6, a7⟩ := hcond (.inr h)
      have := (main p a1 a2 a3 a4 a5 a6 a7).1.1
      rw [a1]; exact this
  · intro h
    obtain ⟨p, a1, a2, a3, a4, a5, a6, a7⟩ := hcond (.inl h)
    obtain ⟨⟨_, b1, b2, _⟩, ⟨_, d1, d2, _⟩⟩ := main p a1 a2 a3 a4 a5 a6 a7
    subst a1
    intro x y
    have hp : x.polls = y.polls := by
      refine b1.trans (Eq.trans ?_ d1.symm)
      simp
    have ha : x.admin = y.admin := b2.trans d2.symm
    clear_value x y
    refine ⟨fun j => by simp only [queryPoll, hp], fun j m => by simp only [simulateEnd, hp], ?_⟩
    intro t d j m e a
    have hend : (∃ x', exec x ⟨t, d, .endPoll j m e a⟩ = .ok x' ∧ ∃ y', exec y ⟨t, d, .endPoll j m e a⟩ = .ok y' ∧
          x'.polls = y'.polls) ∨
        ((∃ r, exec x ⟨t, d, .endPoll j m e a⟩ = .error r) ∧ ∃ r, exec y ⟨t, d, .endPoll j m e a⟩ = .error r) := by
      unfold exec endPoll
      simp only [hp, ha]
      by_cases h1 : d = y.admin
      · simp only [h1, ne_eq, not_true_eq_false, if_false]
        cases y.polls.get j with
        | none => right; exact ⟨⟨_, rfl⟩, _, rfl⟩
        | some q =>
          dsimp only
          generalize (if a = true then canEndEarly t m q
            else if t < q.endsAt then Except.error Err.withinVotingPeriod else Except.ok ()) = g
          cases g with
          | error r => right; exact ⟨⟨_, rfl⟩, _, rfl⟩
          | ok _ =>
            dsimp only
            by_cases h3 : (e && !q.isInProgress) = true
            · right; simp only [h3, if_true]; exact ⟨⟨_, rfl⟩, _, rfl⟩
            · left; simp only [h3, if_false]; exact ⟨_, rfl, _, rfl, rfl⟩
      · simp [h1]
    rcases hend with ⟨x', hx, y', hy, he⟩ | ⟨⟨r, hx⟩, ⟨r', hy⟩⟩
    · refine ⟨⟨fun _ => ⟨y', hy⟩, fun _ => ⟨x', hx⟩⟩, fun k => ?_⟩
      simp only [step, hx, hy, queryPoll, he]
    · refine ⟨by simp [hx, hy], fun k => ?_⟩
      simp only [step, hx, hy, queryPoll, hp]

/-- Three accounts with 10, 20 and 30 votes on poll 2 of `sampleState`, against one account with 60. -/
example : Reachable sampleState ∧ (([(20, 10), (21, 20), (22, 30)] : List (Addr × Nat)).map (·.1)).Nodup ∧
    (∀ w ∈ ([(20, 10), (21, 20), (22, 30)] : List (Addr × Nat)), queryPollVoter sampleState 2 w.1 = none) ∧
    queryPollVoter sampleState 2 20 = none ∧
    (run sampleState (shares 20 1 2 .no [(20, 10), (21, 20), (22, 30)])).polls ≠ sampleState.polls := by
  refine ⟨sample_reachable, by decide +kernel, by decide +kernel, by decide +kernel, ?_⟩
  intro h
  have h2 := congrArg (fun m => (m.get 2).map (fun p => p.results.get (Outcome.no).idx)) h
  revert h2
  decide +kernel

end Verif.Gov
