import Verif.Gov.Spec

/-!
# Governance: helper lemmas and the state invariant
-/

namespace Verif.Gov
open Verif

theorem Outcome.idx_inj {a b : Outcome} : a.idx = b.idx ↔ a = b := by
  cases a <;> cases b <;> simp [Outcome.idx]

theorem Outcome.idx_lt (a : Outcome) : a.idx < 4 := by cases a <;> simp [Outcome.idx]

theorem vkey_inj {a b c d : Nat} : vkey a b = vkey c d ↔ a = c ∧ b = d := by
  unfold vkey
  constructor
  · intro h
    have := congrArg ofLex h
    simpa using this
  · rintro ⟨rfl, rfl⟩; rfl

theorem ofLex_vkey (a b : Nat) : ofLex (vkey a b) = (a, b) := rfl

/-! ### results of a poll -/

theorem votesFor_increase (p : Poll) (o o' : Outcome) {c : Nat} (hc : c < M128) :
    (p.increase o c).votesFor o' = if o = o' then wadd128 (p.votesFor o) c else p.votesFor o' := by
  unfold Poll.increase Poll.votesFor
  cases h : p.results.get o.idx with
  | none =>
    simp only [Map.get_set, Outcome.idx_inj]
    split
    · simp [wadd128, Nat.mod_eq_of_lt hc]
    · rfl
  | some t =>
    simp only [Map.get_set, Outcome.idx_inj]
    split
    · simp
    · rfl

theorem has_increase (p : Poll) (o : Outcome) (c k : Nat) :
    (p.increase o c).results.has k = (decide (o.idx = k) || p.results.has k) := by
  unfold Poll.increase
  cases h : p.results.get o.idx <;> simp [Map.has_set]

theorem votesFor_decrease (p : Poll) (o o' : Outcome) {c : Nat} (h : p.results.has o.idx = true) :
    (p.decrease o c).votesFor o' = if o = o' then wsub128 (p.votesFor o) c else p.votesFor o' := by
  unfold Poll.decrease Poll.votesFor
  obtain ⟨t, ht⟩ := Map.has_iff.1 h
  simp only [ht, Map.get_set, Outcome.idx_inj]
  split
  · simp
  · rfl

theorem has_decrease (p : Poll) (o : Outcome) (c k : Nat) :
    (p.decrease o c).results.has k = p.results.has k := by
  unfold Poll.decrease
  cases h : p.results.get o.idx with
  | none => rfl
  | some t =>
    simp only [Map.has_set]
    by_cases hk : o.idx = k
    · subst hk
      simp [Map.has, h]
    · simp [hk]

@[simp] theorem terms_increase (p : Poll) (o : Outcome) (c : Nat) : (p.increase o c).terms = p.terms := by
  unfold Poll.increase Poll.terms; split <;> rfl
@[simp] theorem status_increase (p : Poll) (o : Outcome) (c : Nat) : (p.increase o c).status = p.status := by
  unfold Poll.increase; split <;> rfl
@[simp] theorem terms_decrease (p : Poll) (o : Outcome) (c : Nat) : (p.decrease o c).terms = p.terms := by
  unfold Poll.decrease Poll.terms; split <;> rfl
@[simp] theorem status_decrease (p : Poll) (o : Outcome) (c : Nat) : (p.decrease o c).status = p.status := by
  unfold Poll.decrease; split <;> rfl

theorem terms_id {p q : Poll} (h : p.terms = q.terms) : p.id = q.id := congrArg Terms.id h
theorem terms_endsAt {p q : Poll} (h : p.terms = q.terms) : p.endsAt = q.endsAt := congrArg Terms.endsAt h
theorem terms_startedAt {p q : Poll} (h : p.terms = q.terms) : p.startedAt = q.startedAt :=
  congrArg Terms.startedAt h

/-- Update of the tally by a vote that replaces an optional old vote. -/
def Poll.recount (p : Poll) (old : Option Vote) (o : Outcome) (amount : Nat) : Poll :=
  match old with
  | some old => (p.decrease old.outcome old.amount).increase o amount
  | none => p.increase o amount

@[simp] theorem terms_recount (p : Poll) (old : Option Vote) (o : Outcome) (c : Nat) :
    (p.recount old o c).terms = p.terms := by
  cases old <;> simp [Poll.recount]
@[simp] theorem status_recount (p : Poll) (old : Option Vote) (o : Outcome) (c : Nat) :
    (p.recount old o c).status = p.status := by
  cases old <;> simp [Poll.recount]

theorem isInProgress_iff {p : Poll} : p.isInProgress = true ↔ p.live := by
  unfold Poll.isInProgress Poll.live
  cases h : p.status <;> simp

/-- Exact success condition and effect of `castVote`. -/
theorem castVote_ok_iff {s s' : State} {now i : Nat} {o : Outcome} {v : Addr} {a : Nat} :
    castVote s now i o v a = .ok s' ↔
      i ≠ 0 ∧ i ≤ s.pollCount ∧ ∃ p, s.polls.get i = some p ∧ p.live ∧ p.startedAt ≤ now ∧ now < p.endsAt ∧
        s' = { s with
          polls := s.polls.set i (p.recount (s.votes.get (vkey v i)) o a)
          votes := s.votes.set (vkey v i) { pollId := i, voter := v, outcome := o, amount := a } } := by
  unfold castVote
  by_cases h1 : i = 0 ∨ s.pollCount < i
  · simp only [h1, if_true]
    constructor
    · intro h; cases h
    · rintro ⟨h2, h3, _⟩; omega
  · rw [if_neg h1]
    cases hp : s.polls.get i with
    | none => simp
    | some p =>
      simp only
      by_cases h2 : p.isInProgress = true
      · have hl := isInProgress_iff.1 h2
        by_cases h3 : p.startedAt ≤ now ∧ now < p.endsAt
        · simp only [h2, h3, Bool.not_true, Bool.false_eq_true, if_false, not_true, and_self]
          constructor
          · intro h
            refine ⟨by omega, by omega, p, rfl, hl, h3.1, h3.2, ?_⟩
            cases h
            unfold Poll.recount
            cases s.votes.get (vkey v i) <;> rfl
          · rintro ⟨_, _, q, hq, _, _, _, rfl⟩
            cases hq
            unfold Poll.recount
            cases s.votes.get (vkey v i) <;> rfl
        · simp only [h2, h3, Bool.not_true, Bool.false_eq_true, if_false, not_false_iff, if_true]
          constructor
          · intro h; cases h
          · rintro ⟨_, _, q, hq, _, h4, h5, _⟩
            cases hq
            exact absurd ⟨h4, h5⟩ h3
      · have h2' : p.isInProgress = false := by simpa using h2
        simp only [h2', Bool.not_false, if_true]
        constructor
        · intro h; cases h
        · rintro ⟨_, _, q, hq, hl, _⟩
          cases hq
          exact absurd (isInProgress_iff.2 hl) h2

/-- Exact success condition and effect of `createPoll`. -/
theorem createPoll_ok_iff {s s' : State} {now : Nat} {c : CreateParams} :
    createPoll s now c = .ok s' ↔
      c.threshold ≤ ONE ∧ now < c.endsAt ∧
        s' = { s with
          pollCount := wadd64 s.pollCount 1
          polls := s.polls.set (wadd64 s.pollCount 1)
            { id := wadd64 s.pollCount 1, proposer := c.proposer, deposit := c.deposit, label := c.label,
              description := c.description, status := .inProgress c.endsAt, startedAt := now,
              endsAt := c.endsAt, quorum := c.quorum, threshold := c.threshold,
              vetoThreshold := c.vetoThreshold, results := .empty } } := by
  unfold createPoll
  by_cases h1 : ONE < c.threshold
  · rw [if_pos h1]
    constructor
    · intro h; cases h
    · rintro ⟨h, _⟩; omega
  · rw [if_neg h1]
    by_cases h2 : c.endsAt ≤ now
    · rw [if_pos h2]
      constructor
      · intro h; cases h
      · rintro ⟨_, h, _⟩; omega
    · rw [if_neg h2]
      constructor
      · intro h; cases h; exact ⟨by omega, by omega, rfl⟩
      · rintro ⟨_, _, rfl⟩; rfl

/-- Condition of `validate_can_end_early` as a proposition. -/
def earlyOk (maxVotes : Nat) (p : Poll) : Prop :=
  p.quorumReached p.quorum maxVotes = true ∧ p.mostVoted ≠ .none

theorem canEndEarly_ok {now m : Nat} {p : Poll} :
    canEndEarly now m p = .ok () ↔ p.endsAt ≤ now ∨ earlyOk m p := by
  unfold canEndEarly earlyOk
  by_cases h1 : p.endsAt ≤ now
  · simp [h1]
  · by_cases h2 : p.quorumReached p.quorum m = true
    · by_cases h3 : p.mostVoted = .none
      · simp [h1, h2, h3]
      · simp [h1, h2, h3]
    · simp [h1, h2]

/-- Exact success condition and effect of `endPoll`. -/
theorem endPoll_ok_iff {s s' : State} {now i m : Nat} {e a : Bool} :
    endPoll s now i m e a = .ok s' ↔
      ∃ p, s.polls.get i = some p ∧ (p.endsAt ≤ now ∨ (a = true ∧ earlyOk m p)) ∧
        (e = true → p.live) ∧
        s' = { s with polls := s.polls.set i { p with status := p.finalStatus m } } := by
  unfold endPoll
  cases hp : s.polls.get i with
  | none => simp
  | some p =>
    simp only [Option.some.injEq, exists_eq_left']
    have key : (if a then canEndEarly now m p
           else if now < p.endsAt then .error .withinVotingPeriod else .ok ()) = .ok () ↔
           (p.endsAt ≤ now ∨ (a = true ∧ earlyOk m p)) := by
      cases a
      · by_cases h : now < p.endsAt
        · simp [h]
        · simp [h]; omega
      · simp [canEndEarly_ok]
    cases hc : (if a then canEndEarly now m p
           else if now < p.endsAt then .error .withinVotingPeriod else .ok ()) with
    | error er =>
      rw [hc] at key
      have : ¬ (p.endsAt ≤ now ∨ (a = true ∧ earlyOk m p)) := by
        rw [← key]; simp
      constructor
      · intro h; cases h
      · rintro ⟨h, _⟩; exact absurd h this
    | ok u =>
      rw [hc] at key
      have hk := key.1 rfl
      simp only [hk, true_and]
      cases e
      · simp [eq_comm]
      · by_cases h : p.isInProgress = true
        · simp [h, isInProgress_iff.1 h, eq_comm]
        · have : ¬ p.live := fun hl => h (isInProgress_iff.2 hl)
          simp [h, this]

/-! ### Invariant -/

/-- What holds in every reachable state. -/
structure Inv (s : State) : Prop where
  ids : ∀ i, (∃ p, s.polls.get i = some p) ↔ 1 ≤ i ∧ i ≤ s.pollCount
  pid : ∀ i p, s.polls.get i = some p → p.id = i ∧ p.startedAt < p.endsAt
  prog : ∀ i p e, s.polls.get i = some p → p.status = .inProgress e → e = p.endsAt
  typed : ∀ i p, s.polls.get i = some p → p.threshold ≤ ONE ∧ p.quorum < M128
  vkeys : ∀ k v, s.votes.get k = some v → k = vkey v.voter v.pollId ∧ 1 ≤ v.pollId ∧ v.pollId ≤ s.pollCount
  tally : ∀ i p, s.polls.get i = some p → ∀ o, p.votesFor o = votedSum s i o % M128
  present : ∀ k v p, s.votes.get k = some v → s.polls.get v.pollId = some p → p.results.has v.outcome.idx = true
  resKeys : ∀ i p k, s.polls.get i = some p → p.results.has k = true → k < 4

theorem inv_init (admin : Addr) : Inv (init admin) := by
  constructor <;> intros <;> simp_all [init] <;> omega

theorem votedSum_of_no_votes {s : State} {i : Nat} {o : Outcome}
    (h : ∀ k v, s.votes.get k = some v → v.pollId ≠ i) : votedSum s i o = 0 := by
  unfold votedSum
  rw [show (0 : Nat) = s.votes.sum (fun _ _ => 0) from (Map.sum_zero _).symm]
  apply Map.sum_congr
  intro k v hv
  simp [h k v hv]

theorem inv_createPoll {s s' : State} {now : Nat} {c : CreateParams} (hi : Inv s)
    (hc : s.pollCount + 1 < M64) (hq : c.quorum < M128) (h : createPoll s now c = .ok s') : Inv s' := by
  obtain ⟨h1, h2, rfl⟩ := createPoll_ok_iff.1 h
  have hw : wadd64 s.pollCount 1 = s.pollCount + 1 := wadd64_of_lt hc
  rw [hw]
  have hnew : s.polls.get (s.pollCount + 1) = none := by
    cases hg : s.polls.get (s.pollCount + 1) with
    | none => rfl
    | some p => have := (hi.ids _).1 ⟨p, hg⟩; omega
  constructor
  · intro i
    simp only [Map.get_set]
    by_cases hx : s.pollCount + 1 = i
    · simp [hx]; omega
    · simp only [hx, if_false]
      rw [hi.ids]; omega
  · intro i p
    simp only [Map.get_set]
    by_cases hx : s.pollCount + 1 = i
    · simp only [hx, if_true]
      intro h; cases h; exact ⟨rfl, h2⟩
    · simp only [hx, if_false]; exact hi.pid i p
  · intro i p e
    simp only [Map.get_set]
    by_cases hx : s.pollCount + 1 = i
    · simp only [hx, if_true]
      intro h; cases h; intro h; cases h; rfl
    · simp only [hx, if_false]; exact hi.prog i p e
  · intro i p
    simp only [Map.get_set]
    by_cases hx : s.pollCount + 1 = i
    · simp only [hx, if_true]
      intro h; cases h; exact ⟨h1, hq⟩
    · simp only [hx, if_false]; exact hi.typed i p
  · intro k v hv
    have := hi.vkeys k v hv
    exact ⟨this.1, this.2.1, by simp; omega⟩
  · intro i p
    simp only [Map.get_set]
    by_cases hx : s.pollCount + 1 = i
    · simp only [hx, if_true]
      intro h; cases h
      intro o
      rw [votedSum_of_no_votes]
      · simp [Poll.votesFor]
      · intro k v hv
        have := (hi.vkeys k v hv).2
        omega
    · simp only [hx, if_false]; exact hi.tally i p
  · intro k v p hv
    have := (hi.vkeys k v hv).2
    simp only [Map.get_set]
    have hx : ¬ s.pollCount + 1 = v.pollId := by omega
    simp only [hx, if_false]; exact hi.present k v p hv
  · intro i p k
    simp only [Map.get_set]
    by_cases hx : s.pollCount + 1 = i
    · simp only [hx, if_true]
      intro h; cases h
      simp [Map.has]
    · simp only [hx, if_false]; exact hi.resKeys i p k

theorem votedSum_set (s : State) (i : Nat) (o : Outcome) (k : VKey) (w : Vote) (polls : Map Nat Poll) :
    votedSum { s with polls := polls, votes := s.votes.set k w } i o
      + Map.contrib (fun _ v => if v.pollId = i ∧ v.outcome = o then v.amount else 0) k (s.votes.get k)
      = votedSum s i o + (if w.pollId = i ∧ w.outcome = o then w.amount else 0) :=
  Map.sum_set s.votes _ k w

theorem wrap_step {A old new B : Nat} (h : B + old = A + new) :
    wadd128 (wsub128 (A % M128) old) new = B % M128 := by
  unfold wadd128 wsub128 M128
  omega

theorem recount_votesFor {s : State} (hi : Inv s) {i : Nat} {p : Poll} {v : Addr} {o : Outcome} {a : Nat}
    (hp : s.polls.get i = some p) (ha : a < M128) (o' : Outcome) :
    (p.recount (s.votes.get (vkey v i)) o a).votesFor o' =
      votedSum { s with
          polls := s.polls.set i (p.recount (s.votes.get (vkey v i)) o a)
          votes := s.votes.set (vkey v i) { pollId := i, voter := v, outcome := o, amount := a } } i o' % M128 := by
  have hs := votedSum_set s i o' (vkey v i) { pollId := i, voter := v, outcome := o, amount := a }
    (s.polls.set i (p.recount (s.votes.get (vkey v i)) o a))
  have ht := hi.tally i p hp
  generalize hS' : votedSum { s with
          polls := s.polls.set i (p.recount (s.votes.get (vkey v i)) o a)
          votes := s.votes.set (vkey v i) { pollId := i, voter := v, outcome := o, amount := a } } i o' = S' at *
  cases hv : s.votes.get (vkey v i) with
  | none =>
    rw [hv] at hs
    simp only [Map.contrib_none, Nat.add_zero, true_and] at hs
    unfold Poll.recount
    simp only [votesFor_increase p o o' ha]
    split
    · rename_i ho; subst ho
      simp only [if_true] at hs
      rw [ht, hs]; unfold wadd128 M128; omega
    · rename_i ho
      simp only [ho, if_false, Nat.add_zero] at hs
      rw [ht, hs]
  | some old =>
    rw [hv] at hs
    have hk := hi.vkeys _ _ hv
    have hold := (vkey_inj.1 hk.1)
    have hpi : old.pollId = i := hold.2.symm
    have hpr : p.results.has old.outcome.idx = true := hi.present _ _ p hv (by rw [hpi]; exact hp)
    simp only [Map.contrib_some, hpi, true_and] at hs
    unfold Poll.recount
    simp only [votesFor_increase _ o o' ha, votesFor_decrease p old.outcome _ hpr]
    by_cases h1 : o = o'
    · subst h1
      simp only [if_true] at hs ⊢
      by_cases h2 : old.outcome = o
      · simp only [h2, if_true] at hs ⊢
        rw [ht]; exact wrap_step hs
      · simp only [h2, if_false, Nat.add_zero] at hs ⊢
        rw [ht, hs]; unfold wadd128 M128; omega
    · simp only [h1, if_false, Nat.add_zero] at hs ⊢
      by_cases h2 : old.outcome = o'
      · simp only [h2, if_true] at hs ⊢
        rw [ht, ← hs]; exact wsub128_mod_add _ _
      · simp only [h2, if_false, Nat.add_zero] at hs ⊢
        rw [ht, hs]

theorem has_recount (p : Poll) (old : Option Vote) (o : Outcome) (a k : Nat) :
    (p.recount old o a).results.has k = (decide (o.idx = k) || p.results.has k) := by
  cases old <;> simp [Poll.recount, has_increase, has_decrease]

theorem inv_castVote {s s' : State} {now i : Nat} {o : Outcome} {v : Addr} {a : Nat} (hi : Inv s)
    (ha : a < M128) (h : castVote s now i o v a = .ok s') : Inv s' := by
  obtain ⟨h0, h1, p, hp, hl, hst, hen, rfl⟩ := castVote_ok_iff.1 h
  have hterm := terms_recount p (s.votes.get (vkey v i)) o a
  have hstat := status_recount p (s.votes.get (vkey v i)) o a
  constructor
  · intro j
    simp only [Map.get_set]
    by_cases hx : i = j
    · subst hx; simp; omega
    · simp only [hx, if_false]; exact hi.ids j
  · intro j q
    simp only [Map.get_set]
    by_cases hx : i = j
    · subst hx
      simp only [if_true]
      intro hq; cases hq
      have := hi.pid i p hp
      rw [terms_id hterm, terms_startedAt hterm, terms_endsAt hterm]
      exact this
    · simp only [hx, if_false]; exact hi.pid j q
  · intro j q e
    simp only [Map.get_set]
    by_cases hx : i = j
    · subst hx
      simp only [if_true]
      intro hq; cases hq
      rw [hstat, terms_endsAt hterm]
      exact hi.prog i p e hp
    · simp only [hx, if_false]; exact hi.prog j q e
  · intro j q
    simp only [Map.get_set]
    by_cases hx : i = j
    · subst hx
      simp only [if_true]
      intro hq; cases hq
      have := hi.typed i p hp
      rw [show (p.recount (s.votes.get (vkey v i)) o a).threshold = p.threshold from congrArg Terms.threshold hterm,
        show (p.recount (s.votes.get (vkey v i)) o a).quorum = p.quorum from congrArg Terms.quorum hterm]
      exact this
    · simp only [hx, if_false]; exact hi.typed j q
  · intro k w
    simp only [Map.get_set]
    by_cases hx : vkey v i = k
    · simp only [hx, if_true]
      intro hw; cases hw
      exact ⟨hx.symm, by simp; omega, h1⟩
    · simp only [hx, if_false]; exact hi.vkeys k w
  · intro j q
    simp only [Map.get_set]
    by_cases hx : i = j
    · subst hx
      simp only [if_true]
      intro hq; cases hq
      exact recount_votesFor hi hp ha
    · simp only [hx, if_false]
      intro hq o'
      rw [hi.tally j q hq o']
      have hs := votedSum_set s j o' (vkey v i) { pollId := i, voter := v, outcome := o, amount := a }
        (s.polls.set i (p.recount (s.votes.get (vkey v i)) o a))
      simp only [hx, false_and, if_false, Nat.add_zero] at hs
      have hz : Map.contrib (fun _ (w : Vote) => if w.pollId = j ∧ w.outcome = o' then w.amount else 0)
          (vkey v i) (s.votes.get (vkey v i)) = 0 := by
        cases hv : s.votes.get (vkey v i) with
        | none => rfl
        | some old =>
          have hk := (vkey_inj.1 (hi.vkeys _ _ hv).1).2
          have : ¬ old.pollId = j := by rw [← hk]; exact hx
          simp [this]
      rw [hz, Nat.add_zero] at hs
      rw [← hs]
  · intro k w q
    simp only [Map.get_set]
    by_cases hx : vkey v i = k
    · simp only [hx, if_true]
      intro hw; cases hw
      simp only [if_true]
      intro hq; cases hq
      rw [has_recount]; simp
    · simp only [hx, if_false]
      intro hw
      by_cases hx2 : i = w.pollId
      · simp only [← hx2, if_true]
        intro hq; cases hq
        rw [has_recount, hi.present k w p hw (by rw [← hx2]; exact hp)]; simp
      · simp only [hx2, if_false]; exact hi.present k w q hw
  · intro j q k
    simp only [Map.get_set]
    by_cases hx : i = j
    · subst hx
      simp only [if_true]
      intro hq; cases hq
      rw [has_recount]
      intro hk
      simp at hk
      rcases hk with hk | hk
      · rw [← hk]; exact o.idx_lt
      · exact hi.resKeys i p k hp hk
    · simp only [hx, if_false]; exact hi.resKeys j q k

theorem finalStatus_not_inProgress (p : Poll) (m e : Nat) : p.finalStatus m ≠ .inProgress e := by
  unfold Poll.finalStatus
  split
  · simp
  · split
    · simp
    · split
      · simp
      · split <;> simp
    · simp

theorem inv_endPoll {s s' : State} {now i m : Nat} {e a : Bool} (hi : Inv s)
    (h : endPoll s now i m e a = .ok s') : Inv s' := by
  obtain ⟨p, hp, _, _, rfl⟩ := endPoll_ok_iff.1 h
  constructor
  · intro j
    simp only [Map.get_set]
    by_cases hx : i = j
    · subst hx; simp; have := (hi.ids i).1 ⟨p, hp⟩; omega
    · simp only [hx, if_false]; exact hi.ids j
  · intro j q
    simp only [Map.get_set]
    by_cases hx : i = j
    · subst hx
      simp only [if_true]
      intro hq; cases hq
      exact hi.pid i p hp
    · simp only [hx, if_false]; exact hi.pid j q
  · intro j q e
    simp only [Map.get_set]
    by_cases hx : i = j
    · subst hx
      simp only [if_true]
      intro hq; cases hq
      intro hc
      exact absurd hc (finalStatus_not_inProgress p m e)
    · simp only [hx, if_false]; exact hi.prog j q e
  · intro j q
    simp only [Map.get_set]
    by_cases hx : i = j
    · subst hx
      simp only [if_true]
      intro hq; cases hq
      exact hi.typed i p hp
    · simp only [hx, if_false]; exact hi.typed j q
  · exact hi.vkeys
  · intro j q
    simp only [Map.get_set]
    by_cases hx : i = j
    · subst hx
      simp only [if_true]
      intro hq; cases hq
      exact hi.tally i p hp
    · simp only [hx, if_false]; exact hi.tally j q
  · intro k w q hw
    simp only [Map.get_set]
    by_cases hx : i = w.pollId
    · simp only [hx, if_true]
      intro hq; cases hq
      exact hi.present k w p hw (by rw [← hx]; exact hp)
    · simp only [hx, if_false]; exact hi.present k w q hw
  · intro j q k
    simp only [Map.get_set]
    by_cases hx : i = j
    · subst hx
      simp only [if_true]
      intro hq; cases hq
      exact hi.resKeys i p k hp
    · simp only [hx, if_false]; exact hi.resKeys j q k

theorem castVote_pollCount {s s' : State} {now i : Nat} {o : Outcome} {v : Addr} {a : Nat}
    (h : castVote s now i o v a = .ok s') : s'.pollCount = s.pollCount ∧ s'.admin = s.admin := by
  obtain ⟨_, _, p, _, _, _, _, rfl⟩ := castVote_ok_iff.1 h
  exact ⟨rfl, rfl⟩

theorem updateVote_cases {s s' : State} {now : Nat} {voter : Addr} {amount : Nat} {v : Vote}
    (h : updateVote now voter amount s v = .ok s') :
    s' = s ∨ castVote s now v.pollId v.outcome voter amount = .ok s' := by
  unfold updateVote at h
  split at h
  · cases h
  · split at h
    · split at h
      · exact Or.inr h
      · cases h; exact Or.inl rfl
    · cases h; exact Or.inl rfl

/-- Any property preserved by each iteration is preserved by the loop. -/
theorem foldlM_inv {α β : Type} (f : α → β → Except Err α) (P : α → Prop)
    (hf : ∀ a b a', P a → f a b = .ok a' → P a') :
    ∀ (l : List β) (a a' : α), P a → l.foldlM f a = .ok a' → P a' := by
  intro l
  induction l with
  | nil => intro a a' ha h; cases h; exact ha
  | cons b t ih =>
    intro a a' ha h
    rw [List.foldlM_cons] at h
    cases hb : f a b with
    | error e => rw [hb] at h; cases h
    | ok a1 =>
      rw [hb] at h
      exact ih a1 a' (hf a b a1 ha hb) h

theorem inv_updateVotes {s s' : State} {now : Nat} {voter : Addr} {amount : Nat} (hi : Inv s)
    (ha : amount < M128) (h : updateVotes s now voter amount = .ok s') :
    Inv s' ∧ s'.pollCount = s.pollCount ∧ s'.admin = s.admin := by
  unfold updateVotes at h
  refine foldlM_inv _ (fun x => Inv x ∧ x.pollCount = s.pollCount ∧ x.admin = s.admin) ?_ _ _ _
    ⟨hi, rfl, rfl⟩ h
  rintro x v x' ⟨hx, hxc, hxa⟩ hu
  rcases updateVote_cases hu with rfl | hc
  · exact ⟨hx, hxc, hxa⟩
  · have := castVote_pollCount hc
    exact ⟨inv_castVote hx ha hc, by rw [this.1, hxc], by rw [this.2, hxa]⟩

/-- Creations in one message. -/
def isCreate (c : Call) : Nat := match c.msg with | .createPoll _ => 1 | _ => 0

theorem inv_step {s : State} {c : Call} (hi : Inv s) (ht : c.msg.typed)
    (hc : s.pollCount + isCreate c < M64) :
    Inv (step s c) ∧ (step s c).pollCount ≤ s.pollCount + isCreate c ∧ (step s c).admin = s.admin := by
  unfold step
  cases he : exec s c with
  | error e => exact ⟨hi, Nat.le_add_right _ _, rfl⟩
  | ok s' =>
    simp only
    unfold exec at he
    split at he
    · cases he
    · unfold isCreate at *
      cases hm : c.msg with
      | createPoll p =>
        rw [hm] at he ht hc
        simp only at he hc
        refine ⟨inv_createPoll hi hc ht.1 he, ?_⟩
        obtain ⟨_, _, rfl⟩ := createPoll_ok_iff.1 he
        simp [wadd64_of_lt hc]
      | castVote i o v a =>
        rw [hm] at he ht
        refine ⟨inv_castVote hi ht he, ?_⟩
        have := castVote_pollCount he
        exact ⟨by rw [this.1]; omega, this.2⟩
      | updateVotes v a =>
        rw [hm] at he ht
        have := inv_updateVotes hi ht he
        exact ⟨this.1, by rw [this.2.1]; omega, this.2.2⟩
      | endPoll i m e a =>
        rw [hm] at he
        refine ⟨inv_endPoll hi he, ?_⟩
        obtain ⟨_, _, _, _, rfl⟩ := endPoll_ok_iff.1 he
        exact ⟨by simp, rfl⟩

theorem creates_cons (c : Call) (t : List Call) : creates (c :: t) = isCreate c + creates t := rfl

theorem inv_run {s : State} {h : List Call} (hi : Inv s) (ht : ∀ c ∈ h, c.msg.typed)
    (hc : s.pollCount + creates h < M64) : Inv (run s h) := by
  induction h generalizing s with
  | nil => exact hi
  | cons c t ih =>
    rw [creates_cons] at hc
    have hs := inv_step hi (ht c (by simp)) (by omega)
    exact ih hs.1 (fun x hx => ht x (List.mem_cons_of_mem _ hx)) (by have := hs.2.1; omega)

theorem Reachable.inv {s : State} (h : Reachable s) : Inv s := by
  obtain ⟨admin, h, ht, hc, rfl⟩ := h
  apply inv_run (inv_init admin) ht
  simpa [init] using hc

end Verif.Gov
