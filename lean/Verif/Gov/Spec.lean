import Verif.Gov.Model

/-!
# Governance: vocabulary of the property statements
-/

namespace Verif.Gov
open Verif

/-- The values of a message fit their Rust types (`Uint128`, `Decimal`). -/
def Msg.typed : Msg → Prop
  | .createPoll c => c.quorum < M128 ∧ c.threshold < M128 ∧ (∀ t, c.vetoThreshold = some t → t < M128)
  | .castVote _ _ _ a => a < M128
  | .updateVotes _ a => a < M128
  | .endPoll _ m _ _ => m < M128

/-- Number of poll creations attempted in a history. -/
def creates : List Call → Nat
  | [] => 0
  | c :: t => (match c.msg with | .createPoll _ => 1 | _ => 0) + creates t

/-- States of the governance contract after any history of well-typed messages, sent by anyone at any times,
with fewer than 2^64 attempts to create a poll. -/
def Reachable (s : State) : Prop :=
  ∃ admin h, (∀ c ∈ h, c.msg.typed) ∧ creates h < M64 ∧ s = run (init admin) h

/-- Sum of the amounts of the votes recorded on poll `i` for option `o`. -/
def votedSum (s : State) (i : Nat) (o : Outcome) : Nat :=
  s.votes.sum (fun _ v => if v.pollId = i ∧ v.outcome = o then v.amount else 0)

/-- Sum of the amounts of all the votes recorded on poll `i`. -/
def votedTotal (s : State) (i : Nat) : Nat :=
  s.votes.sum (fun _ v => if v.pollId = i then v.amount else 0)

/-- `count / base ≥ thr`, where `thr` is in units of 10^-18; an undefined ratio counts as zero. -/
def reaches (count base thr : Nat) : Prop :=
  thr = 0 ∨ (0 < base ∧ thr * base ≤ count * 10 ^ 18)

instance (a b c : Nat) : Decidable (reaches a b c) := by unfold reaches; infer_instance

/-- `total / available ≥ quorum`, where a ratio that is undefined, or too large for the 128-bit decimal
(more than 3.4 * 10^20), counts as zero. -/
def quorumMet (total available quorum : Nat) : Prop :=
  quorum = 0 ∨ (0 < available ∧ quorum * available ≤ total * 10 ^ 18 ∧ total * 10 ^ 18 < 2 ^ 128 * available)

instance (a b c : Nat) : Decidable (quorumMet a b c) := by unfold quorumMet; infer_instance

/-- Some option that is not "abstain" reaches its threshold (with the recorded votes of poll `i`). -/
def someOptionReaches (s : State) (i : Nat) (p : Poll) : Prop :=
  let base := votedSum s i .yes + votedSum s i .no + votedSum s i .veto
  reaches (votedSum s i .veto) base (p.vetoThreshold.getD p.threshold) ∨
  reaches (votedSum s i .yes) base p.threshold ∨ reaches (votedSum s i .no) base p.threshold

/-- The published rule for the final status, from the four counts and the terms of the poll. -/
def ruleStatus (y n a v : Nat) (quorum threshold : Nat) (vetoThreshold : Option Nat) (available : Nat) : Status :=
  let base := y + n + v
  let vt := vetoThreshold.getD threshold
  if ¬ quorumMet (y + n + a + v) available quorum then .rejected .quorumNotReached
  else if reaches v base vt then .rejected .isVetoOutcome
  else if reaches y base threshold ∧ (¬ reaches n base threshold ∨ n < y) then .passed 0 y
  else if reaches n base threshold ∧ (¬ reaches y base threshold ∨ y < n) then .rejected .isRejectingOutcome
  else if reaches y base threshold ∧ y = n then .rejected (.outcomeDraw 0 1 n)
  else .rejected .thresholdNotReached

/-- The terms of a poll, fixed at creation. -/
structure Terms where
  id : Nat
  proposer : Addr
  deposit : Nat
  label : Nat
  description : Nat
  startedAt : Nat
  endsAt : Nat
  quorum : Nat
  threshold : Nat
  vetoThreshold : Option Nat
  deriving DecidableEq

/-- The terms of a poll. -/
def Poll.terms (p : Poll) : Terms :=
  ⟨p.id, p.proposer, p.deposit, p.label, p.description, p.startedAt, p.endsAt, p.quorum, p.threshold, p.vetoThreshold⟩

/-- A poll that was not ended yet. -/
def Poll.live (p : Poll) : Prop := ∃ e, p.status = .inProgress e

end Verif.Gov
