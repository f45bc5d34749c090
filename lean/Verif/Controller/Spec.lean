import Verif.Controller.Model
import Verif.Gov.Spec

/-!
# Governance controller: vocabulary of the property statements
-/

namespace Verif.Controller
open Verif

/-- A fraction in (0, 1], in units of 10^-18. -/
def Fraction (d : Nat) : Prop := 0 < d ∧ d ≤ 10 ^ 18

instance (d : Nat) : Decidable (Fraction d) := by unfold Fraction; infer_instance

/-- A valid governance configuration for a DAO of type `t`. -/
structure ValidConfig (t : DaoType) (c : GovConfig) : Prop where
  quorum : Fraction c.quorum
  threshold : Fraction c.threshold
  veto : ∀ v, c.veto = some v → Fraction v
  duration : 0 < c.voteDuration
  deposit : t = .multisig → c.minDeposit = none

/-- The kinds of actions a council may be given: none of them changes governance or membership, moves funds or sends
custom messages. -/
def harmless : List ActionType :=
  [.updateMetadata, .updateAssetWhitelist, .updateNftWhitelist, .upgradeDao, .deployTreasury]

/-- The kind of an action, by its name. -/
inductive Action.IsOf : Action → ActionType → Prop
  | updateMetadata (m) : IsOf (.updateMetadata m) .updateMetadata
  | updateGovConfig (c) : IsOf (.updateGovConfig c) .updateGovConfig
  | updateCouncil (c) : IsOf (.updateCouncil c) .updateCouncil
  | updateAssetWhitelist (r x y) : IsOf (.updateAssetWhitelist r x y) .updateAssetWhitelist
  | updateNftWhitelist (r x y) : IsOf (.updateNftWhitelist r x y) .updateNftWhitelist
  | requestFunding (r u l) : IsOf (.requestFunding r u l) .requestFunding
  | upgradeDao (v) : IsOf (.upgradeDao v) .upgradeDao
  | executeMsgs (l) : IsOf (.executeMsgs l) .executeMsgs
  | executeTreasuryMsgs (r l) : IsOf (.executeTreasuryMsgs r l) .executeTreasuryMsgs
  | executeEnterpriseMsgs (l) : IsOf (.executeEnterpriseMsgs l) .executeEnterpriseMsgs
  | modifyMultisig (l) : IsOf (.modifyMultisig l) .modifyMultisig
  | distributeFunds (l) : IsOf (.distributeFunds l) .distributeFunds
  | updateMinWeight (w) : IsOf (.updateMinWeight w) .updateMinWeight
  | deployTreasury (x) : IsOf (.deployTreasury x) .deployTreasury

/-- The action is of one of these kinds. -/
def Action.Among (a : Action) (l : List ActionType) : Prop := ∃ k ∈ l, a.IsOf k

/-- A valid council configuration. -/
structure ValidCouncil (c : CouncilConfig) : Prop where
  quorum : Fraction c.quorum
  threshold : Fraction c.threshold
  allowed : ∀ a ∈ c.allowed, a ∈ harmless

/-- A message by which proposals are created. -/
def Msg.isCreate : Msg → Bool
  | .createProposal _ _ | .createWithNft _ _ | .createCouncil _ | .receive _ _ _ => true
  | _ => false

/-- A history of the controller and its governance contract: each message comes with its sender and with whatever the
other contracts answer at that moment. A failing message has no effect. -/
def step (s : State × Gov.State) (c : Env × Addr × Msg) : State × Gov.State :=
  match exec c.1 c.2.1 s.1 s.2 c.2.2 with
  | .ok r => (r.1, r.2.1)
  | .error _ => s

/-- State after a history. -/
def run (s : State × Gov.State) (h : List (Env × Addr × Msg)) : State × Gov.State := h.foldl step s

/-- States of the controller of a DAO of type `t` after any history: every message can come with any answers of the
other contracts and any state of the governance contract. -/
inductive Reachable (t : DaoType) : State → Prop
  | init {b : Block} {enterprise : Addr} {cfg : GovConfig} {council : Option CouncilSpec} {treasuries : List Nat}
      {s : State} (h : init b enterprise t cfg council [] treasuries = .ok s) : Reachable t s
  | step {e : Env} {u : Addr} {s : State} {g : Gov.State} {m : Msg} {r : State × Gov.State × List Sub}
      (h : Reachable t s) (ht : e.daoType = t) (hx : exec e u s g m = .ok r) : Reachable t r.1

/-- Total weight of the body that decides on proposals of a type: all members, or the council. -/
def Env.bodyTotal (e : Env) (a : Staking.At) (t : PType) : Nat := if t = .council then e.councilTotal a else e.total a

/-- What a recorded deposit is worth: the amount of coins or tokens, or the number of NFTs; nothing if there is none. -/
def worth : Option Deposit → Nat
  | some ⟨_, .denom _ n⟩ | some ⟨_, .cw20 _ n⟩ => n
  | some ⟨_, .cw721 _ tokens⟩ => tokens.length
  | none => 0

theorem worth_eq (d : Option Deposit) : worth d = (d.map Deposit.amount).getD 0 := by
  rcases d with _ | ⟨_, _ | _ | _⟩ <;> rfl

/-- The amount that goes along with a message that creates a general proposal: the coins of the DAO's denom, the cw20
tokens received, or the number of NFTs. -/
def attached (e : Env) : Msg → Nat
  | .createProposal _ funds =>
    if e.daoType = .denom then ((funds.find? (fun c => some c.1 = e.denom)).map (·.2)).getD 0 else 0
  | .createWithNft _ tokens => tokens.length
  | .receive _ amount _ => amount
  | _ => 0

/-- The user on whose behalf a message creates a general proposal. -/
def proposerOf (sender : Addr) : Msg → Addr
  | .receive from_ _ _ => from_
  | _ => sender

/-- A message that creates a general proposal. -/
def Msg.isGeneral : Msg → Bool
  | .createProposal _ _ | .createWithNft _ _ | .receive _ _ _ => true
  | _ => false

/-- What the outcome of a vote would be, as far as it matters for executing it early; `none` while it cannot. -/
inductive Expected
  | passes | fails | vetoed
  | tied (votes : Nat)
  deriving DecidableEq

/-- The expected outcome, from a simulated final status. -/
def expected : Gov.Status → Option Expected
  | .passed _ _ => some .passes
  | .rejected .isRejectingOutcome => some .fails
  | .rejected .isVetoOutcome => some .vetoed
  | .rejected (.outcomeDraw _ _ n) => some (.tied n)
  | _ => none

/-- Every change of weight is sent to governance as `UpdateVotes`, in order, and succeeds. -/
inductive Forwarded (now : Nat) (me : Addr) : Gov.State → List WeightChange → Gov.State → Prop
  | nil (g : Gov.State) : Forwarded now me g [] g
  | cons {g g1 g2 : Gov.State} {c : WeightChange} {l : List WeightChange}
      (h : Gov.exec g ⟨now, me, .updateVotes c.user c.new⟩ = .ok g1) (t : Forwarded now me g1 l g2) :
      Forwarded now me g (c :: l) g2

end Verif.Controller
