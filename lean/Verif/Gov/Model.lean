import Mathlib.Data.Prod.Lex
import Verif.Base.Map
import Verif.Base.Num
import Verif.Base.Paging

/-!
# Poll engine and governance contract

Model of `packages/poll-engine/src/{state,execute,validate,query}.rs` and
`contracts/enterprise-governance/src/contract.rs`.
Times are nanoseconds (`Timestamp`). Strings are numbers.
-/

namespace Verif.Gov
open Verif

/-- `VoteOutcome`, packages/poll-engine-api/src/api.rs 61-70. -/
inductive Outcome
  | yes | no | abstain | veto
  deriving DecidableEq, Repr

/-- `outcome as u8`, api.rs 65-70. -/
def Outcome.idx : Outcome → Nat
  | .yes => 0
  | .no => 1
  | .abstain => 2
  | .veto => 3

/-- `PollRejectionReason`, api.rs 181-188 (`QuorumAndThresholdNotReached` is never produced). -/
inductive Reason
  | quorumNotReached
  | thresholdNotReached
  | isRejectingOutcome
  | isVetoOutcome
  | outcomeDraw (a b : Nat) (count : Nat)
  deriving DecidableEq, Repr

/-- `PollStatus`, api.rs 193-197. -/
inductive Status
  | inProgress (endsAt : Nat)
  | passed (outcome : Nat) (count : Nat)
  | rejected (reason : Reason)
  deriving DecidableEq, Repr

/-- `Poll`, api.rs 18-52 (the only `VotingScheme` is left out). -/
structure Poll where
  id : Nat
  proposer : Addr
  deposit : Nat
  label : Nat
  description : Nat
  status : Status
  startedAt : Nat
  endsAt : Nat
  quorum : Nat
  threshold : Nat
  vetoThreshold : Option Nat
  results : Map Nat Nat
  deriving DecidableEq

/-- `Vote`, api.rs 89-98. The `outcome : u8` field is always written from a `VoteOutcome`
(execute.rs 61-66), so it is kept as an `Outcome`; the panic of `VoteOutcome::from` is unreachable. -/
structure Vote where
  pollId : Nat
  voter : Addr
  outcome : Outcome
  amount : Nat
  deriving DecidableEq

/-- `CreatePollParams`, api.rs 113-135. -/
structure CreateParams where
  proposer : Addr
  deposit : Nat
  label : Nat
  description : Nat
  endsAt : Nat
  quorum : Nat
  threshold : Nat
  vetoThreshold : Option Nat
  deriving DecidableEq

/-- Key of the vote map: (voter, poll id), state.rs 187-192. -/
abbrev VKey := Nat ×ₗ Nat

/-- Build a vote key. -/
def vkey (voter : Addr) (poll : Nat) : VKey := toLex (voter, poll)

/-- Storage of the governance contract: `ADMIN` (contracts/enterprise-governance/src/state.rs),
`GOV_STATE`, `polls()`, `votes()` (poll-engine state.rs 20-28, 60-73, 187-192). -/
structure State where
  admin : Addr
  pollCount : Nat
  polls : Map Nat Poll
  votes : Map VKey Vote
  deriving DecidableEq

/-- `instantiate` (enterprise-governance contract.rs 25-43) and `initialize_poll_engine` (execute.rs 17-21). -/
def init (admin : Addr) : State := { admin, pollCount := 0, polls := .empty, votes := .empty }

/-! ### Poll helpers (state.rs 505-853) -/

/-- `votes_for`, state.rs 732-734. -/
def Poll.votesFor (p : Poll) (o : Outcome) : Nat := (p.results.get o.idx).getD 0

/-- `total_votes`, state.rs 702-704: a wrapping fold over the results. -/
def Poll.totalVotes (p : Poll) : Nat := p.results.entries.foldl (fun acc e => wadd128 acc e.2) 0

/-- `increase_results`, state.rs 552-560. -/
def Poll.increase (p : Poll) (o : Outcome) (count : Nat) : Poll :=
  match p.results.get o.idx with
  | some t => { p with results := p.results.set o.idx (wadd128 t count) }
  | none => { p with results := p.results.set o.idx count }

/-- `decrease_results`, state.rs 590-598. -/
def Poll.decrease (p : Poll) (o : Outcome) (count : Nat) : Poll :=
  match p.results.get o.idx with
  | some t => { p with results := p.results.set o.idx (wsub128 t count) }
  | none => p

/-- The threshold that applies to an option, state.rs 633-637. -/
def Poll.thresholdFor (p : Poll) (o : Outcome) : Nat :=
  if o = .veto then p.vetoThreshold.getD p.threshold else p.threshold

/-- `ge_threshold`, state.rs 632-641 (`total_votes() - votes_for(Abstain)` is a wrapping subtraction). -/
def Poll.geThreshold (p : Poll) (o : Outcome) (count : Nat) : Bool :=
  decide (p.thresholdFor o ≤ (checkedFromRatio count (wsub128 p.totalVotes (p.votesFor .abstain))).getD 0)

/-- `threshold_reached`, state.rs 627-629. -/
def Poll.thresholdReached (p : Poll) (o : Outcome) : Bool := p.geThreshold o (p.votesFor o)

/-- `quorum_reached`, state.rs 674-678. -/
def Poll.quorumReached (p : Poll) (quorum maxVotes : Nat) : Bool :=
  decide (quorum ≤ (checkedFromRatio p.totalVotes maxVotes).getD 0)

/-- `MostVoted`, state.rs 194-200. -/
inductive MostVoted
  | none
  | some (outcome : Nat) (count : Nat)
  | draw (a : Nat) (ac : Nat) (b : Nat) (bc : Nat)
  deriving DecidableEq

/-- `most_voted_over_threshold`, state.rs 760-781. -/
def Poll.mostVoted (p : Poll) : MostVoted :=
  if p.thresholdReached .veto then .some Outcome.veto.idx (p.votesFor .veto)
  else
    match p.thresholdReached .yes, p.thresholdReached .no with
    | true, true =>
      let y := p.votesFor .yes
      let n := p.votesFor .no
      if y < n then .some Outcome.no.idx n
      else if y = n then .draw Outcome.yes.idx y Outcome.no.idx n
      else .some Outcome.yes.idx y
    | true, false => .some Outcome.yes.idx (p.votesFor .yes)
    | false, true => .some Outcome.no.idx (p.votesFor .no)
    | false, false => .none

/-- `final_status`, state.rs 815-852. -/
def Poll.finalStatus (p : Poll) (maxVotes : Nat) : Status :=
  if !p.quorumReached p.quorum maxVotes then .rejected .quorumNotReached
  else
    match p.mostVoted with
    | .none => .rejected .thresholdNotReached
    | .some o c =>
      if o = Outcome.yes.idx then .passed o c
      else if o = Outcome.veto.idx then .rejected .isVetoOutcome
      else .rejected .isRejectingOutcome
    | .draw a _ b bc => .rejected (.outcomeDraw a b bc)

/-! ### Execution (execute.rs, validate.rs) -/

/-- `validate_create_poll` (validate.rs 14-35), `create_poll` (execute.rs 24-31),
`poll_from`/`new_poll` (state.rs 392-420, 489-503), `increment_poll_id` (state.rs 34-41, wrapping). -/
def createPoll (s : State) (now : Nat) (c : CreateParams) : Except Err State :=
  if ONE < c.threshold then .error .invalidArgument
  else if c.endsAt ≤ now then .error .invalidArgument
  else
    let id := wadd64 s.pollCount 1
    let p : Poll :=
      { id, proposer := c.proposer, deposit := c.deposit, label := c.label, description := c.description,
        status := .inProgress c.endsAt, startedAt := now, endsAt := c.endsAt, quorum := c.quorum,
        threshold := c.threshold, vetoThreshold := c.vetoThreshold, results := .empty }
    .ok { s with pollCount := id, polls := s.polls.set id p }

/-- `validate_not_already_ended`, validate.rs 86-94. -/
def Poll.isInProgress (p : Poll) : Bool :=
  match p.status with
  | .inProgress _ => true
  | _ => false

/-- `cast_vote`, execute.rs 34-93. -/
def castVote (s : State) (now pollId : Nat) (o : Outcome) (voter : Addr) (amount : Nat) : Except Err State :=
  if pollId = 0 ∨ s.pollCount < pollId then .error .notFound
  else
    match s.polls.get pollId with
    | none => .error .notFound
    | some p =>
      if !p.isInProgress then .error .alreadyEnded
      else if ¬ (p.startedAt ≤ now ∧ now < p.endsAt) then .error .outsideVotingPeriod
      else
        let v : Vote := { pollId, voter, outcome := o, amount }
        let p' :=
          match s.votes.get (vkey voter pollId) with
          | some old => (p.decrease old.outcome old.amount).increase o amount
          | none => p.increase o amount
        .ok { s with polls := s.polls.set pollId p', votes := s.votes.set (vkey voter pollId) v }

/-- `validate_can_end_early`, validate.rs 60-84. -/
def canEndEarly (now maxVotes : Nat) (p : Poll) : Except Err Unit :=
  if p.endsAt ≤ now then .ok ()
  else if !p.quorumReached p.quorum maxVotes then .error .earlyQuorum
  else if p.mostVoted = .none then .error .earlyThreshold
  else .ok ()

/-- `end_poll`, execute.rs 96-124. -/
def endPoll (s : State) (now pollId maxVotes : Nat) (errorIfEnded allowEarly : Bool) : Except Err State :=
  match s.polls.get pollId with
  | none => .error .notFound
  | some p =>
    match (if allowEarly then canEndEarly now maxVotes p
           else if now < p.endsAt then .error .withinVotingPeriod else .ok ()) with
    | .error e => .error e
    | .ok () =>
      if errorIfEnded && !p.isInProgress then .error .alreadyEnded
      else .ok { s with polls := s.polls.set pollId { p with status := p.finalStatus maxVotes } }

/-- `query_voter` without pagination, query.rs 152-178: the votes of one voter in poll order. -/
def votesOf (s : State) (voter : Addr) : List Vote :=
  (s.votes.entries.filter (fun e => decide ((ofLex e.1).1 = voter))).map (·.2)

/-- One iteration of the loop of `update_votes`, enterprise-governance contract.rs 89-105. -/
def updateVote (now : Nat) (voter : Addr) (amount : Nat) (s : State) (v : Vote) : Except Err State :=
  match s.polls.get v.pollId with
  | none => .error .notFound
  | some p =>
    match p.status with
    | .inProgress endsAt =>
      if now < endsAt then castVote s now v.pollId v.outcome voter amount else .ok s
    | _ => .ok s

/-- `update_votes`, enterprise-governance contract.rs 82-108. -/
def updateVotes (s : State) (now : Nat) (voter : Addr) (amount : Nat) : Except Err State :=
  (votesOf s voter).foldlM (updateVote now voter amount) s

/-- `ExecuteMsg`, enterprise-governance. -/
inductive Msg
  | createPoll (c : CreateParams)
  | castVote (pollId : Nat) (o : Outcome) (voter : Addr) (amount : Nat)
  | updateVotes (voter : Addr) (amount : Nat)
  | endPoll (pollId maxVotes : Nat) (errorIfEnded allowEarly : Bool)
  deriving DecidableEq

/-- A message in its block. -/
structure Call where
  now : Nat
  sender : Addr
  msg : Msg
  deriving DecidableEq

/-- `execute`, enterprise-governance contract.rs 46-65. -/
def exec (s : State) (c : Call) : Except Err State :=
  if c.sender ≠ s.admin then .error .unauthorized
  else
    match c.msg with
    | .createPoll p => createPoll s c.now p
    | .castVote i o v a => castVote s c.now i o v a
    | .updateVotes v a => updateVotes s c.now v a
    | .endPoll i m e a => endPoll s c.now i m e a

/-- A failing message reverts. -/
def step (s : State) (c : Call) : State :=
  match exec s c with
  | .ok s' => s'
  | .error _ => s

/-- A history of messages. -/
def run (s : State) (h : List Call) : State := h.foldl step s

/-! ### Queries (query.rs) -/

/-- `query_poll`, query.rs 15-26. -/
def queryPoll (s : State) (id : Nat) : Except Err Poll :=
  match s.polls.get id with
  | none => .error .notFound
  | some p => .ok p

/-- `query_simulate_end_poll_status`, query.rs 80-94. -/
def simulateEnd (s : State) (id maxVotes : Nat) : Except Err Status :=
  match s.polls.get id with
  | none => .error .notFound
  | some p => .ok (p.finalStatus maxVotes)

/-- `PollStatusFilter`, api.rs 213-217. -/
inductive StatusFilter
  | inProgress | passed | rejected
  deriving DecidableEq

/-- `to_filter`, api.rs 201-207. -/
def Status.toFilter : Status → StatusFilter
  | .inProgress _ => .inProgress
  | .passed _ _ => .passed
  | .rejected _ => .rejected

/-- Range of a `Pagination`: `start_after` exclusive lower bound, `end_at` inclusive upper bound,
order, `take(limit as usize)`; query.rs 32-61, 117-147. The limit is a `u64` (common/src/cw.rs 83), and `usize` has 32 bits
in the wasm32 target, so the limit is taken modulo 2^32. -/
def ranged {K V : Type} [LinearOrder K] (l : List (K × V)) (startAfter endAt : Option K)
    (limit : Option Nat) (descending : Bool) : List (K × V) :=
  let r := l.filter (fun e =>
    (match startAfter with | none => true | some a => decide (a < e.1)) &&
    (match endAt with | none => true | some b => decide (e.1 ≤ b)))
  let r := if descending then r.reverse else r
  match limit with
  | some n => r.take (n % 2 ^ 32)
  | none => r

/-- `query_polls`, query.rs 28-64. With a filter the status index is scanned, whose entries for one status are
the polls with that status in id order (trusted semantics of `MultiIndex`). -/
def queryPolls (s : State) (filter : Option StatusFilter) (startAfter endAt limit : Option Nat)
    (descending : Bool) : List Poll :=
  let m := match filter with
    | some f => s.polls.filter (fun _ p => decide (p.status.toFilter = f))
    | none => s.polls
  (ranged m.entries startAfter endAt limit descending).map (·.2)

/-- `query_poll_voter`, query.rs 96-108. -/
def queryPollVoter (s : State) (id : Nat) (voter : Addr) : Option Vote := s.votes.get (vkey voter id)

/-- `query_poll_voters`, query.rs 110-150. The index on the poll id lists the votes of the poll by primary key. -/
def queryPollVoters (s : State) (id : Nat) (startAfter endAt : Option Addr) (limit : Option Nat)
    (descending : Bool) : List Vote :=
  (ranged (s.votes.filter (fun _ v => decide (v.pollId = id))).entries
    (startAfter.map (vkey · id)) (endAt.map (vkey · id)) limit descending).map (·.2)

/-- `query_voter`, query.rs 152-178. -/
def queryVoter (s : State) (voter : Addr) (startAfter : Option Nat) (limit : Option Nat) : List Vote :=
  (ranged (s.votes.filter (fun k _ => decide ((ofLex k).1 = voter))).entries
    (startAfter.map (vkey voter ·)) none limit false).map (·.2)

end Verif.Gov
