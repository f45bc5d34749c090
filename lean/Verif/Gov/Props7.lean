import Verif.Base.Rename
import Verif.Gov.Props6

/-!
# Governance: all addresses are treated alike (C168)
-/

set_option linter.unusedSimpArgs false

namespace Verif.Gov
open Verif

/-! ## Specification -/

/-- A poll with another name for its proposer. -/
def Poll.ren (π : Renaming) (p : Poll) : Poll := { p with proposer := π p.proposer }

/-- A vote with another name for its voter. -/
def Vote.ren (π : Renaming) (v : Vote) : Vote := { v with voter := π v.voter }

/-- A message with other names for the addresses it mentions. -/
def Msg.ren (π : Renaming) : Msg → Msg
  | .createPoll c => .createPoll { c with proposer := π c.proposer }
  | .castVote i o v a => .castVote i o (π v) a
  | .updateVotes v a => .updateVotes (π v) a
  | .endPoll i m e a => .endPoll i m e a

/-- A message in its block with other names for the addresses. -/
def Call.ren (π : Renaming) (c : Call) : Call := ⟨c.now, π c.sender, c.msg.ren π⟩

/-! ## The renamed state -/

/-- The keys of the votes with other names for the voters. -/
def keyRen (π : Renaming) : VKey ≃ VKey where
  toFun k := vkey (π (ofLex k).1) (ofLex k).2
  invFun k := vkey (π.symm (ofLex k).1) (ofLex k).2
  left_inv k := by simp [vkey]
  right_inv k := by simp [vkey]

theorem keyRen_vkey (π : Renaming) (v i : Nat) : keyRen π (vkey v i) = vkey (π v) i := rfl

/-- The state with other names for the addresses. -/
def State.ren (π : Renaming) (s : State) : State :=
  { admin := π s.admin
    pollCount := s.pollCount
    polls := s.polls.rename (Equiv.refl Nat) (Poll.ren π)
    votes := s.votes.rename (keyRen π) (Vote.ren π) }

theorem ren_poll (π : Renaming) (s : State) (i : Nat) : (s.ren π).polls.get i = (s.polls.get i).map (Poll.ren π) :=
  Map.get_rename s.polls (Equiv.refl Nat) (Poll.ren π) i

theorem ren_vote (π : Renaming) (s : State) (v i : Nat) :
    (s.ren π).votes.get (vkey (π v) i) = (s.votes.get (vkey v i)).map (Vote.ren π) :=
  Map.get_rename s.votes (keyRen π) (Vote.ren π) (vkey v i)

theorem ren_init (π : Renaming) (a : Addr) : (init a).ren π = init (π a) := rfl

theorem ren_setPoll (π : Renaming) (s : State) (i : Nat) (p : Poll) :
    ({ s with polls := s.polls.set i p } : State).ren π = { s.ren π with polls := (s.ren π).polls.set i (p.ren π) } := by
  unfold State.ren
  congr 1
  exact Map.rename_set s.polls (Equiv.refl Nat) (Poll.ren π) i p

theorem ren_setVote (π : Renaming) (s : State) (v i : Nat) (w : Vote) :
    ({ s with votes := s.votes.set (vkey v i) w } : State).ren π =
      { s.ren π with votes := (s.ren π).votes.set (vkey (π v) i) (w.ren π) } := by
  unfold State.ren
  congr 1
  exact Map.rename_set s.votes (keyRen π) (Vote.ren π) (vkey v i) w

theorem ren_increase (π : Renaming) (p : Poll) (o : Outcome) (n : Nat) : (p.increase o n).ren π = (p.ren π).increase o n := by
  unfold Poll.increase Poll.ren
  dsimp only
  split <;> rfl

theorem ren_decrease (π : Renaming) (p : Poll) (o : Outcome) (n : Nat) : (p.decrease o n).ren π = (p.ren π).decrease o n := by
  unfold Poll.decrease Poll.ren
  dsimp only
  split <;> rfl

theorem ren_createPoll (π : Renaming) (s : State) (now : Nat) (c : CreateParams) :
    createPoll (s.ren π) now { c with proposer := π c.proposer } = (createPoll s now c).map (State.ren π) := by
  unfold createPoll
  dsimp only
  split
  · rfl
  split
  · rfl
  · simp only [Except.map]
    congr 1
    symm
    unfold State.ren
    congr 1
    exact Map.rename_set s.polls (Equiv.refl Nat) (Poll.ren π) _ _

theorem ren_castVote (π : Renaming) (s : State) (now i : Nat) (o : Outcome) (v : Addr) (a : Nat) :
    castVote (s.ren π) now i o (π v) a = (castVote s now i o v a).map (State.ren π) := by
  unfold castVote
  rw [show (s.ren π).pollCount = s.pollCount from rfl]
  split
  · rfl
  rw [ren_poll]
  cases s.polls.get i with
  | none => rfl
  | some p =>
    simp only [Option.map_some]
    rw [show (p.ren π).isInProgress = p.isInProgress from rfl, show (p.ren π).startedAt = p.startedAt from rfl,
      show (p.ren π).endsAt = p.endsAt from rfl]
    split
    · rfl
    split
    · rfl
    rw [ren_vote]
    simp only [Except.map]
    congr 1
    symm
    have h := ren_setVote π { s with polls := s.polls.set i (match s.votes.get (vkey v i) with
          | some old => (p.decrease old.outcome old.amount).increase o a
          | none => p.increase o a) } v i ⟨i, v, o, a⟩
    rw [ren_setPoll] at h
    refine h.trans ?_
    cases s.votes.get (vkey v i) with
    | none =>
      simp only [Option.map_none, ren_increase]
      rfl
    | some old =>
      simp only [Option.map_some, ren_increase, ren_decrease]
      rfl

theorem ren_endPoll (π : Renaming) (s : State) (now i m : Nat) (e a : Bool) :
    endPoll (s.ren π) now i m e a = (endPoll s now i m e a).map (State.ren π) := by
  unfold endPoll
  rw [ren_poll]
  cases s.polls.get i with
  | none => rfl
  | some p =>
    simp only [Option.map_some]
    rw [show canEndEarly now m (p.ren π) = canEndEarly now m p from rfl, show (p.ren π).endsAt = p.endsAt from rfl,
      show (p.ren π).isInProgress = p.isInProgress from rfl]
    split
    · rfl
    split
    · rfl
    simp only [Except.map]
    congr 1
    symm
    exact ren_setPoll π s i _

/-- The stored votes of a voter, in the order of the polls. -/
theorem ren_entries (π : Renaming) (s : State) (v : Addr) :
    (s.ren π).votes.entries.filter (fun e => decide ((ofLex e.1).1 = π v)) =
      (s.votes.entries.filter (fun e => decide ((ofLex e.1).1 = v))).map (fun e => (keyRen π e.1, e.2.ren π)) := by
  refine sortedL_ext (List.Pairwise.filter _ (s.ren π).votes.sorted) ?_ ?_
  · unfold SortedL
    rw [List.pairwise_map]
    refine (List.Pairwise.and_mem.1 (List.Pairwise.filter _ s.votes.sorted)).imp ?_
    rintro ⟨a, x⟩ ⟨b, y⟩ ⟨ha, hb, hab⟩
    simp only [List.mem_filter, decide_eq_true_eq] at ha hb
    have h1 : (ofLex a).1 = v := ha.2
    have h2 : (ofLex b).1 = v := hb.2
    have hab' : a < b := hab
    rw [Prod.Lex.lt_iff] at hab'
    show keyRen π a < keyRen π b
    rw [Prod.Lex.lt_iff]
    right
    refine ⟨?_, ?_⟩
    · show π (ofLex a).1 = π (ofLex b).1
      rw [h1, h2]
    · show (ofLex a).2 < (ofLex b).2
      rcases hab' with h | h
      · rw [h1, h2] at h
        exact absurd h (lt_irrefl _)
      · exact h.2
  · rintro ⟨k, w⟩
    simp only [List.mem_filter, List.mem_map, decide_eq_true_eq, Prod.mk.injEq]
    show ((k, w) ∈ (s.votes.rename (keyRen π) (Vote.ren π)).entries ∧ _) ↔ _
    rw [Map.mem_rename]
    constructor
    · rintro ⟨⟨x, hx, hw⟩, hk⟩
      refine ⟨((keyRen π).symm k, x), ⟨hx, ?_⟩, Equiv.apply_symm_apply _ _, hw⟩
      show π.symm (ofLex k).1 = v
      rw [hk, Equiv.symm_apply_apply]
    · rintro ⟨⟨a, x⟩, ⟨hx, ha⟩, hk, hw⟩
      subst hk
      refine ⟨⟨x, by rwa [Equiv.symm_apply_apply], hw⟩, ?_⟩
      show π (ofLex a).1 = π v
      have ha' : (ofLex a).1 = v := ha
      rw [ha']

theorem ren_votesOf (π : Renaming) (s : State) (v : Addr) : votesOf (s.ren π) (π v) = (votesOf s v).map (Vote.ren π) := by
  unfold votesOf
  rw [ren_entries, List.map_map, List.map_map]
  rfl

theorem ren_updateVote (π : Renaming) (s : State) (now : Nat) (v : Addr) (a : Nat) (w : Vote) :
    updateVote now (π v) a (s.ren π) (w.ren π) = (updateVote now v a s w).map (State.ren π) := by
  unfold updateVote
  rw [show (w.ren π).pollId = w.pollId from rfl, ren_poll]
  cases s.polls.get w.pollId with
  | none => rfl
  | some p =>
    simp only [Option.map_some]
    rw [show (p.ren π).status = p.status from rfl]
    cases p.status with
    | inProgress x =>
      dsimp only
      split
      · exact ren_castVote π s now _ _ v a
      · rfl
    | passed x y => rfl
    | rejected r => rfl

theorem ren_updates (π : Renaming) (now : Nat) (v : Addr) (a : Nat) : ∀ (l : List Vote) (s : State),
    (l.map (Vote.ren π)).foldlM (updateVote now (π v) a) (s.ren π) =
      (l.foldlM (updateVote now v a) s).map (State.ren π)
  | [], _ => rfl
  | w :: t, s => by
    rw [List.map_cons, List.foldlM_cons, List.foldlM_cons, ren_updateVote]
    cases updateVote now v a s w with
    | error e => rfl
    | ok s1 => exact ren_updates π now v a t s1

theorem ren_exec (π : Renaming) (s : State) (c : Call) : exec (s.ren π) (c.ren π) = (exec s c).map (State.ren π) := by
  unfold exec
  show (if π c.sender ≠ π s.admin then _ else _) = _
  by_cases h : c.sender = s.admin
  · rw [if_neg (by simp [h]), if_neg (by simp [h])]
    unfold Call.ren
    cases c.msg with
    | createPoll p => exact ren_createPoll π s c.now p
    | castVote i o v a => exact ren_castVote π s c.now i o v a
    | updateVotes v a =>
      show (votesOf (s.ren π) (π v)).foldlM _ _ = _
      rw [ren_votesOf]
      exact ren_updates π c.now v a _ s
    | endPoll i m e a => exact ren_endPoll π s c.now i m e a
  · rw [if_pos (by simpa using h), if_pos h]
    rfl

theorem ren_run (π : Renaming) : ∀ (h : List Call) (s : State), run (s.ren π) (h.map (Call.ren π)) = (run s h).ren π
  | [], _ => rfl
  | c :: t, s => by
    show run (step (s.ren π) (c.ren π)) (t.map (Call.ren π)) = (run (step s c) t).ren π
    rw [← ren_run π t]
    congr 1
    unfold step
    rw [ren_exec]
    cases exec s c <;> rfl

/-- Whether a key is within the bounds of a request. -/
def inRange {K : Type} [LinearOrder K] (b e : Option K) (k : K) : Bool :=
  (match b with | none => true | some a => decide (a < k)) && (match e with | none => true | some b => decide (k ≤ b))

theorem ranged_eq {K V : Type} [LinearOrder K] (l : List (K × V)) (b e : Option K) (lim : Option Nat) (d : Bool) :
    ranged l b e lim d =
      match lim with
      | some n => (if d then (l.filter (fun x => inRange b e x.1)).reverse
          else l.filter (fun x => inRange b e x.1)).take (n % 2 ^ 32)
      | none => if d then (l.filter (fun x => inRange b e x.1)).reverse else l.filter (fun x => inRange b e x.1) := by
  unfold ranged inRange
  rfl

theorem ranged_map {K V K' W : Type} [LinearOrder K] [LinearOrder K'] (g : K → K') (f : V → W) (l : List (K × V))
    (b e : Option K) (b' e' : Option K') (lim : Option Nat) (d : Bool)
    (h : ∀ x ∈ l, inRange b' e' (g x.1) = inRange b e x.1) :
    ranged (l.map (fun x => (g x.1, f x.2))) b' e' lim d = (ranged l b e lim d).map (fun x => (g x.1, f x.2)) := by
  have hf : (l.map (fun x => (g x.1, f x.2))).filter (fun x => inRange b' e' x.1) =
      (l.filter (fun x => inRange b e x.1)).map (fun x => (g x.1, f x.2)) := by
    rw [List.filter_map]
    congr 1
    exact List.filter_congr h
  rw [ranged_eq, ranged_eq, hf]
  cases lim <;> cases d <;> simp [List.map_reverse, List.map_take]

/-! ## C168 -/

/-- Governance: if all the addresses in a history get other names, then every message is answered as before, with the
same error if it is refused; every poll is the same but for the name of its proposer; and everyone finds under the new
name the votes recorded before under the old one. -/
theorem C168_governance (π : Renaming) (a : Addr) (h : List Call) :
    let s := run (init a) h
    let s' := run (init (π a)) (h.map (Call.ren π))
    (∀ c, (exec s' (c.ren π)).toBool = (exec s c).toBool ∧ ∀ e, exec s' (c.ren π) = .error e ↔ exec s c = .error e) ∧
    (∀ i, queryPoll s' i = (queryPoll s i).map (Poll.ren π)) ∧
    (∀ i m, simulateEnd s' i m = simulateEnd s i m) ∧
    (∀ f b e l d, queryPolls s' f b e l d = (queryPolls s f b e l d).map (Poll.ren π)) ∧
    (∀ v i, queryPollVoter s' i (π v) = (queryPollVoter s i v).map (Vote.ren π)) ∧
    ∀ v b l, queryVoter s' (π v) b l = (queryVoter s v b l).map (Vote.ren π) := by
  intro s s'
  have hs : s' = s.ren π := by
    have := ren_run π h (init a)
    rwa [ren_init] at this
  rw [hs]
  refine ⟨fun c => ?_, fun i => ?_, fun i m => ?_, fun f b e l d => ?_, fun v i => ren_vote π s v i, fun v b l => ?_⟩
  · rw [ren_exec]
    cases exec s c with
    | ok t => simp [Except.map, Except.toBool]
    | error e => simp [Except.map, Except.toBool]
  · unfold queryPoll
    rw [ren_poll]
    cases s.polls.get i <;> rfl
  · unfold simulateEnd
    rw [ren_poll]
    cases s.polls.get i <;> rfl
  · have key : ∀ m : Map Nat Poll, (ranged (m.rename (Equiv.refl Nat) (Poll.ren π)).entries b e l d).map (·.2) =
        ((ranged m.entries b e l d).map (·.2)).map (Poll.ren π) := by
      intro m
      rw [Map.rename_refl_entries, ranged_map (fun k => k) (Poll.ren π) m.entries b e b e l d (fun _ _ => rfl), List.map_map,
        List.map_map]
      rfl
    unfold queryPolls
    cases f with
    | none => exact key s.polls
    | some f =>
      have : (s.ren π).polls.filter (fun _ p => decide (p.status.toFilter = f)) =
          (s.polls.filter (fun _ p => decide (p.status.toFilter = f))).rename (Equiv.refl Nat) (Poll.ren π) := by
        refine Map.ext_get fun k => ?_
        rw [Map.get_filter, ren_poll]
        have h2 := Map.get_rename (s.polls.filter (fun _ p => decide (p.status.toFilter = f))) (Equiv.refl Nat)
          (Poll.ren π) k
        rw [Map.get_filter] at h2
        refine Eq.trans ?_ h2.symm
        cases s.polls.get k with
        | none => rfl
        | some p =>
          simp only [Option.map_some, Option.filter_some]
          rw [show (p.ren π).status = p.status from rfl]
          split <;> rfl
      dsimp only
      rw [this]
      exact key _
  · unfold queryVoter
    have : ((s.ren π).votes.filter (fun k _ => decide ((ofLex k).1 = π v))).entries =
        (s.votes.filter (fun k _ => decide ((ofLex k).1 = v))).entries.map (fun e => (keyRen π e.1, e.2.ren π)) :=
      ren_entries π s v
    rw [this]
    rw [ranged_map (keyRen π) (Vote.ren π) _ (b.map (vkey v ·)) none (b.map (vkey (π v) ·)) none l false, List.map_map,
      List.map_map]
    · rfl
    · intro e he
      have hv : (ofLex e.1).1 = v := by
        have := (List.mem_filter.1 he).2
        simpa using this
      unfold inRange
      cases b with
      | none => rfl
      | some n =>
        simp only [Option.map_some, Bool.and_true, decide_eq_decide]
        rw [Prod.Lex.lt_iff, Prod.Lex.lt_iff]
        show (π v < π (ofLex e.1).1 ∨ π v = π (ofLex e.1).1 ∧ n < (ofLex e.1).2) ↔
          (v < (ofLex e.1).1 ∨ v = (ofLex e.1).1 ∧ n < (ofLex e.1).2)
        rw [hv]
        simp

/-- A renaming that swaps two voters: each finds the votes of the other. -/
example : let π : Renaming := swap2 7 8
    (queryVoter (run (init 1) (sample.map (Call.ren π))) 8 none none).map (·.amount) = [25, 25] ∧
    (queryVoter sampleState 7 none none).map (·.amount) = [25, 25] ∧
    (queryVoter sampleState 8 none none).map (·.amount) = [30] := by decide +kernel

end Verif.Gov
