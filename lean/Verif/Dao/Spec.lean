import Verif.Dao.Model
import Verif.Staking.Spec
import Verif.Controller.Spec

/-!
# The contracts of a DAO together: vocabulary of the property statements
-/

namespace Verif.Dao
open Verif
open Verif.Controller (Transfer)

/-- Messages to a membership contract other than those reserved to the controller that replace the hooks, or that
replace the members without reporting the removed ones (`SetMembers`). -/
def MemberMsg.tame : MemberMsg → Bool
  | .staking (.addHook _) | .staking (.removeHook _) => false
  | .nft (.addHook _) | .nft (.removeHook _) => false
  | .multisig (.addHook _) | .multisig (.removeHook _) | .multisig (.setMembers _) => false
  | _ => true

/-- Messages that the contracts of a DAO expect from one another only, when they come from a custom message of a passed
proposal: `ExecuteProposalActions`, anything to the governance contract, reward weights, hooks and `SetMembers`. -/
def Msg.tame : Msg → Bool
  | .ctl (.executeActions _) => false
  | .gov _ => false
  | .dist (.updateWeights _) => false
  | .mem m => m.tame
  | .council (.addHook _) | .council (.removeHook _) => false
  | _ => true

/-- The custom messages of proposals do not forge the messages that the contracts of the DAO send to one another. -/
def Cfg.Tame (c : Cfg) : Prop := ∀ n m, c.decode n = some (some m) → m.tame = true

/-- How often a proposal's actions were dispatched. -/
def sentCount (w : World) (id : Nat) : Nat := w.log.count (.sent id)

/-- How often a proposal's actions were executed. -/
def ranCount (w : World) (id : Nat) : Nat := w.log.count (.ran id)

/-- The transfer of a deposit of proposal `id`. -/
def Event.transferOf (id : Nat) : Event → Option Transfer
  | .paid j t => if j = id then some t else none
  | _ => none

/-- The transfers made of the deposit of a proposal. -/
def paidOut (w : World) (id : Nat) : List Transfer := w.log.filterMap (Event.transferOf id)

/-- The transfers by which a deposit goes to one address entirely. -/
def entire (to : Addr) : Controller.DepositAsset → List Transfer
  | .denom d n => [.asset (.native d) n to]
  | .cw20 t n => [.asset (.cw20 t) n to]
  | .cw721 c l => l.map (fun t => .nft c t to)

/-- Results after which a deposit is not returned. -/
def forfeits : Gov.Status → Bool
  | .rejected .quorumNotReached | .rejected .isVetoOutcome => true
  | _ => false

/-- The transfers that the resolution of a proposal owes. -/
def owed (treasury : Addr) (i : Controller.Info) (st : Gov.Status) : List Transfer :=
  match i.deposit with
  | none => []
  | some d => entire (if forfeits st then treasury else d.depositor) d.asset

/-- A status is `Passed`. -/
def isPassed : Gov.Status → Bool
  | .passed _ _ => true
  | _ => false

/-- The result of a proposal, once it is resolved (executed). -/
def outcome (w : World) (id : Nat) : Option Gov.Status :=
  match w.ctl.infos.get id, w.gov.polls.get id with
  | some i, some p => if i.executedAt.isSome then some p.status else none
  | _, _ => none

/-- `w'` can come after `w`: transactions and new blocks in between. -/
inductive Later (c : Cfg) (w : World) : World → Prop
  | refl : Later c w w
  | tx {w1 w2 : World} {a : Addr} {m : Msg} (h : Later c w w1) (ha : c.outsider a) (hx : Exec c w1 [.call a m] w2) :
      Later c w w2
  | block {w1 : World} {b : Block} (h : Later c w w1) (hh : w1.block.height ≤ b.height)
      (ht : w1.block.time ≤ b.time) : Later c w { w1 with block := b }

end Verif.Dao
