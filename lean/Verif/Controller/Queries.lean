import Verif.Controller.Model

/-!
# Model of the list queries of the governance controller (contracts/enterprise-governance-controller/src/contract.rs)
-/

namespace Verif.Controller
open Verif

/-- The loop of `query_proposals`, contract.rs 1628-1644: polls without proposal info (`NoSuchProposal`) are left out,
any other error fails the query. `NoSuchProposal` only comes from the missing info (contract.rs 1693-1695). -/
def listResponses (e : Env) (s : State) (g : Gov.State) : List Gov.Poll → Except Err (List Response)
  | [] => .ok []
  | p :: t =>
    match s.infos.get p.id with
    | none => listResponses e s g t
    | some _ => do
      let r ← toResponse e s g p
      let l ← listResponses e s g t
      return r :: l

/-- `query_proposals`, contract.rs 1602-1646, with `DEFAULT_QUERY_LIMIT` and `MAX_QUERY_LIMIT` (lines 111-112). The
status filters of proposals and of polls have the same three values (contract.rs 1610-1614). -/
def queryProposals (e : Env) (s : State) (g : Gov.State) (filter : Option Gov.StatusFilter) (after limit : Option Nat) :
    Except Err (List Response) :=
  listResponses e s g (Gov.queryPolls g filter after none (some (min (limit.getD 50) 100)) false)

/-- `query_member_vote`, contract.rs 1879-1893. -/
def queryMemberVote (g : Gov.State) (id : Nat) (member : Addr) : Option Gov.Vote := Gov.queryPollVoter g id member

/-- `query_proposal_votes`, contract.rs 1895-1921. -/
def queryProposalVotes (g : Gov.State) (id : Nat) (after : Option Addr) (limit : Option Nat) : List Gov.Vote :=
  Gov.queryPollVoters g id after none (some (min (limit.getD 50) 100)) false

end Verif.Controller
