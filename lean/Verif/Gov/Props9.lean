import Verif.Gov.Props7
import Verif.Gov.Props8

/-!
# Governance: only the order of the moments matters (C170)
-/

set_option linter.unusedSimpArgs false

namespace Verif.Gov
open Verif

/-! ## Specification -/

/-- A status with other times. -/
def Status.retime (f : Nat → Nat) : Status → Status
  | .inProgress t => .inProgress (f t)
  | .passed o c => .passed o c
  | .rejected r => .rejected r

/-- A poll with other times. -/
def Poll.retime (f : Nat → Nat) (p : Poll) : Poll :=
  { p with status := p.status.retime f, startedAt := f p.startedAt, endsAt := f p.endsAt }

/-- A message with other times: the only time in a message is the end of a new poll. -/
def Msg.retime (f : Nat → Nat) : Msg → Msg
  | .createPoll c => .createPoll { c with endsAt := f c.endsAt }
  | m => m

/-- A message that comes at another time. -/
def Call.retime (f : Nat → Nat) (c : Call) : Call := ⟨f c.now, c.sender, c.msg.retime f⟩

/-! ## The state with other times -/

/-- The state with other times. -/
def State.retime (f : Nat → Nat) (s : State) : State :=
  { s with polls := s.polls.rename (Equiv.refl Nat) (Poll.retime f) }

theorem retime_poll (f : Nat → Nat) (s : State) (i : Nat) :
    (s.retime f).polls.get i = (s.polls.get i).map (Poll.retime f) :=
  Map.get_rename s.polls (Equiv.refl Nat) (Poll.retime f) i

theorem retime_setPoll (f : Nat → Nat) (s : State) (i : Nat) (p : Poll) :
    ({ s with polls := s.polls.set i p } : State).retime f =
      { s.retime f with polls := (s.retime f).polls.set i (p.retime f) } := by
  unfold State.retime
  congr 1
  exact Map.rename_set s.polls (Equiv.refl Nat) (Poll.retime f) i p

theorem retime_increase (f : Nat → Nat) (p : Poll) (o : Outcome) (n : Nat) :
    (p.increase o n).retime f = (p.retime f).increase o n := by
  unfold Poll.increase Poll.retime
  dsimp only
  split <;> rfl

theorem retime_decrease (f : Nat → Nat) (p : Poll) (o : Outcome) (n : Nat) :
    (p.decrease o n).retime f = (p.retime f).decrease o n := by
  unfold Poll.decrease Poll.retime
  dsimp only
  split <;> rfl

theorem retime_isInProgress (f : Nat → Nat) (p : Poll) : (p.retime f).isInProgress = p.isInProgress := by
  unfold Poll.isInProgress Poll.retime
  cases p.status <;> rfl

theorem retime_finalStatus (f : Nat → Nat) (p : Poll) (m : Nat) : (p.retime f).finalStatus m = p.finalStatus m := rfl

theorem finalStatus_retime (f : Nat → Nat) (p : Poll) (m : Nat) : (p.finalStatus m).retime f = p.finalStatus m := by
  unfold Poll.finalStatus
  split
  · rfl
  cases p.mostVoted with
  | none => rfl
  | draw _ _ _ _ => rfl
  | some o c =>
    dsimp only
    split
    · rfl
    split <;> rfl

theorem retime_createPoll {f : Nat → Nat} (hf : StrictMono f) (s : State) (now : Nat) (c : CreateParams) :
    createPoll (s.retime f) (f now) { c with endsAt := f c.endsAt } = (createPoll s now c).map (State.retime f) := by
  unfold createPoll
  dsimp only
  simp only [hf.le_iff_le]
  split
  · rfl
  split
  · rfl
  · simp only [Except.map]
    congr 1
    symm
    unfold State.retime
    congr 1
    exact Map.rename_set s.polls (Equiv.refl Nat) (Poll.retime f) _ _

theorem retime_castVote {f : Nat → Nat} (hf : StrictMono f) (s : State) (now i : Nat) (o : Outcome) (v : Addr) (a : Nat) :
    castVote (s.retime f) (f now) i o v a = (castVote s now i o v a).map (State.retime f) := by
  unfold castVote
  rw [show (s.retime f).pollCount = s.pollCount from rfl]
  split
  · rfl
  rw [retime_poll]
  cases s.polls.get i with
  | none => rfl
  | some p =>
    simp only [Option.map_some]
    rw [retime_isInProgress, show (p.retime f).startedAt = f p.startedAt from rfl,
      show (p.retime f).endsAt = f p.endsAt from rfl]
    simp only [hf.le_iff_le, hf.lt_iff_lt]
    split
    · rfl
    split
    · rfl
    rw [show (s.retime f).votes = s.votes from rfl]
    simp only [Except.map]
    congr 1
    symm
    have h := retime_setPoll f { s with votes := s.votes.set (vkey v i) ⟨i, v, o, a⟩ } i (match s.votes.get (vkey v i) with
          | some old => (p.decrease old.outcome old.amount).increase o a
          | none => p.increase o a)
    refine h.trans ?_
    cases s.votes.get (vkey v i) with
    | none =>
      simp only [retime_increase]
      rfl
    | some old =>
      simp only [retime_increase, retime_decrease]
      rfl

theorem retime_canEndEarly {f : Nat → Nat} (hf : StrictMono f) (now m : Nat) (p : Poll) :
    canEndEarly (f now) m (p.retime f) = canEndEarly now m p := by
  unfold canEndEarly
  rw [show (p.retime f).endsAt = f p.endsAt from rfl]
  simp only [hf.le_iff_le]
  rfl

theorem retime_endPoll {f : Nat → Nat} (hf : StrictMono f) (s : State) (now i m : Nat) (e a : Bool) :
    endPoll (s.retime f) (f now) i m e a = (endPoll s now i m e a).map (State.retime f) := by
  unfold endPoll
  rw [retime_poll]
  cases s.polls.get i with
  | none => rfl
  | some p =>
    simp only [Option.map_some]
    rw [retime_canEndEarly hf, show (p.retime f).endsAt = f p.endsAt from rfl, retime_isInProgress]
    simp only [hf.lt_iff_lt]
    cases (if a then canEndEarly now m p else if now < p.endsAt then .error .withinVotingPeriod else .ok ()) with
    | error x => rfl
    | ok _ =>
      dsimp only
      split
      · rfl
      simp only [Except.map]
      congr 1
      symm
      refine (retime_setPoll f s i _).trans ?_
      congr 2
      unfold Poll.retime
      dsimp only
      rw [finalStatus_retime]
      rfl

theorem retime_updateVote {f : Nat → Nat} (hf : StrictMono f) (s : State) (now : Nat) (v : Addr) (a : Nat) (w : Vote) :
    updateVote (f now) v a (s.retime f) w = (updateVote now v a s w).map (State.retime f) := by
  unfold updateVote
  rw [retime_poll]
  cases s.polls.get w.pollId with
  | none => rfl
  | some p =>
    simp only [Option.map_some]
    rw [show (p.retime f).status = p.status.retime f from rfl]
    cases p.status with
    | inProgress x =>
      show (if f now < f x then _ else _) = Except.map _ (if now < x then _ else _)
      simp only [hf.lt_iff_lt]
      split
      · exact retime_castVote hf s now _ _ v a
      · rfl
    | passed x y => rfl
    | rejected r => rfl

theorem retime_updates {f : Nat → Nat} (hf : StrictMono f) (now : Nat) (v : Addr) (a : Nat) :
    ∀ (l : List Vote) (s : State),
    l.foldlM (updateVote (f now) v a) (s.retime f) = (l.foldlM (updateVote now v a) s).map (State.retime f)
  | [], _ => rfl
  | w :: t, s => by
    rw [List.foldlM_cons, List.foldlM_cons, retime_updateVote hf]
    cases updateVote now v a s w with
    | error e => rfl
    | ok s1 => exact retime_updates hf now v a t s1

theorem retime_exec {f : Nat → Nat} (hf : StrictMono f) (s : State) (c : Call) :
    exec (s.retime f) (c.retime f) = (exec s c).map (State.retime f) := by
  unfold exec
  rw [show (c.retime f).sender = c.sender from rfl, show (s.retime f).admin = s.admin from rfl]
  split
  · rfl
  · unfold Call.retime
    cases c.msg with
    | createPoll p => exact retime_createPoll hf s c.now p
    | castVote i o v a => exact retime_castVote hf s c.now i o v a
    | updateVotes v a => exact retime_updates hf c.now v a (votesOf s v) s
    | endPoll i m e a => exact retime_endPoll hf s c.now i m e a

theorem retime_run {f : Nat → Nat} (hf : StrictMono f) : ∀ (h : List Call) (s : State),
    run (s.retime f) (h.map (Call.retime f)) = (run s h).retime f
  | [], _ => rfl
  | c :: t, s => by
    show run (step (s.retime f) (c.retime f)) (t.map (Call.retime f)) = (run (step s c) t).retime f
    rw [← retime_run hf t]
    congr 1
    unfold step
    rw [retime_exec hf]
    cases exec s c <;> rfl

/-! ## C170 -/

/-- Governance: if a history takes place at other times in the same order (later, or faster, or with longer pauses), and
the polls end at the corresponding moments, then every message is answered as before, with the same error if it is refused;
every poll is the same but for its times, and would end in the same way; and the recorded votes are the same. -/
theorem C170_governance {f : Nat → Nat} (hf : ∀ x y, x < y → f x < f y) (a : Addr) (h : List Call) :
    let s := run (init a) h
    let s' := run (init a) (h.map (Call.retime f))
    (∀ c, (exec s' (c.retime f)).toBool = (exec s c).toBool ∧
      ∀ e, exec s' (c.retime f) = .error e ↔ exec s c = .error e) ∧
    (∀ i, queryPoll s' i = (queryPoll s i).map (Poll.retime f)) ∧
    (∀ i m, simulateEnd s' i m = simulateEnd s i m) ∧
    (∀ g b e l d, queryPolls s' g b e l d = (queryPolls s g b e l d).map (Poll.retime f)) ∧
    (∀ v i, queryPollVoter s' i v = queryPollVoter s i v) ∧
    (∀ i b e l d, queryPollVoters s' i b e l d = queryPollVoters s i b e l d) ∧
    ∀ v b l, queryVoter s' v b l = queryVoter s v b l := by
  intro s s'
  have hf' : StrictMono f := fun x y => hf x y
  have hs : s' = s.retime f := retime_run hf' h (init a)
  rw [hs]
  refine ⟨fun c => ?_, fun i => ?_, fun i m => ?_, fun g b e l d => ?_, fun _ _ => rfl, fun _ _ _ _ _ => rfl,
    fun _ _ _ => rfl⟩
  · rw [retime_exec hf']
    cases exec s c with
    | ok t => simp [Except.map, Except.toBool]
    | error e => simp [Except.map, Except.toBool]
  · unfold queryPoll
    rw [retime_poll]
    cases s.polls.get i <;> rfl
  · unfold simulateEnd
    rw [retime_poll]
    cases s.polls.get i <;> rfl
  · have key : ∀ m : Map Nat Poll, (ranged (m.rename (Equiv.refl Nat) (Poll.retime f)).entries b e l d).map (·.2) =
        ((ranged m.entries b e l d).map (·.2)).map (Poll.retime f) := by
      intro m
      rw [Map.rename_refl_entries, ranged_map (fun k => k) (Poll.retime f) m.entries b e b e l d (fun _ _ => rfl),
        List.map_map, List.map_map]
      rfl
    unfold queryPolls
    cases g with
    | none => exact key s.polls
    | some g =>
      have : (s.retime f).polls.filter (fun _ p => decide (p.status.toFilter = g)) =
          (s.polls.filter (fun _ p => decide (p.status.toFilter = g))).rename (Equiv.refl Nat) (Poll.retime f) := by
        refine Map.ext_get fun k => ?_
        rw [Map.get_filter, retime_poll]
        have h2 := Map.get_rename (s.polls.filter (fun _ p => decide (p.status.toFilter = g))) (Equiv.refl Nat)
          (Poll.retime f) k
        rw [Map.get_filter] at h2
        refine Eq.trans ?_ h2.symm
        cases s.polls.get k with
        | none => rfl
        | some p =>
          have hp : (p.retime f).status.toFilter = p.status.toFilter := by
            show (p.status.retime f).toFilter = _
            cases p.status <;> rfl
          simp only [Option.map_some, Option.filter_some]
          rw [hp]
          split <;> rfl
      dsimp only
      rw [this]
      exact key _

/-- The sample three times slower and later: the polls end at the moments that correspond. -/
example : let f : Nat → Nat := fun t => 3 * t + 1000
    (∀ x y, x < y → f x < f y) ∧
    (sampleState.polls.values).map (·.endsAt) ≠ [] ∧
    ((run (init 1) (sample.map (Call.retime f))).polls.values).map (·.endsAt) =
      (sampleState.polls.values).map (fun p => f p.endsAt) := by
  refine ⟨fun x y h => ?_, by decide +kernel, by decide +kernel⟩
  show 3 * x + 1000 < 3 * y + 1000
  omega

end Verif.Gov
