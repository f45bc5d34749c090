import Verif.Controller.Spec

/-!
# Governance controller: vocabulary for the creation of proposals and for their actions
-/

namespace Verif.Controller
open Verif
open Verif.Staking (Duration)

/-- The proposal in a message that creates a general proposal. -/
def proposalOf : Msg → Option Proposal
  | .createProposal p _ => some p
  | .createWithNft p _ => some p
  | .receive _ _ p => p
  | _ => none

/-- What is attached to a message of `sender` that creates a general proposal, if it can serve as a deposit: in a denom
DAO the first of the coins that has its denom; NFTs of the DAO's collection; the cw20 tokens received. -/
def attachedAsset (e : Env) (sender : Addr) : Msg → Option DepositAsset
  | .createProposal _ funds =>
    if e.daoType = .denom then
      match e.denom with
      | some d => (funds.find? (fun c => c.1 = d)).map (fun c => .denom d c.2)
      | none => none
    else none
  | .createWithNft _ tokens => e.nft.map (fun c => .cw721 c tokens)
  | .receive _ amount _ => some (.cw20 sender amount)
  | _ => none

/-- How a message that creates a general proposal must come, by the type of the DAO. -/
def WellSent (e : Env) (sender : Addr) : Msg → Prop
  | .createProposal _ _ => e.daoType = .denom → e.denom ≠ none
  | .createWithNft _ tokens => e.daoType = .nft ∧ e.nft ≠ none ∧ tokens.Nodup ∧
      ∀ t ∈ tokens, ∃ owner spenders, e.owner t = some (owner, spenders) ∧ (owner = sender ∨ sender ∈ spenders)
  | .receive _ _ p => e.daoType = .token ∧ e.token = some sender ∧ p ≠ none
  | _ => False

/-- `new` is `old` with the fields of `c` that are given. -/
structure Changed (old : GovConfig) (c : GovChange) (new : GovConfig) : Prop where
  quorum : (c.quorum = none ∧ new.quorum = old.quorum) ∨ c.quorum = some new.quorum
  threshold : (c.threshold = none ∧ new.threshold = old.threshold) ∨ c.threshold = some new.threshold
  veto : (c.veto = none ∧ new.veto = old.veto) ∨ c.veto = some new.veto
  voteDuration : (c.voteDuration = none ∧ new.voteDuration = old.voteDuration) ∨ c.voteDuration = some new.voteDuration
  minDeposit : (c.minDeposit = none ∧ new.minDeposit = old.minDeposit) ∨ c.minDeposit = some new.minDeposit
  early : (c.early = none ∧ new.early = old.early) ∨ c.early = some new.early

/-- A council that can be set: distinct members, fractions, and none but harmless kinds of actions. -/
structure ValidSpec (c : CouncilSpec) : Prop where
  members : c.members.Nodup
  quorum : Fraction c.quorum
  threshold : Fraction c.threshold
  allowed : ∀ l, c.allowed = some l → ∀ a ∈ l, a ∈ harmless

/-- Additions and removals without repetition, and nothing both added and removed. -/
def Disjointed {A : Type} (add remove : List A) : Prop := add.Nodup ∧ remove.Nodup ∧ ∀ a ∈ add, a ∉ remove

/-- No cw1155 asset. -/
def NoCw1155 (l : List Asset) : Prop := ∀ a ∈ l, ∀ c i, a.info ≠ .cw1155 c i

/-- An action that can be proposed, under the configuration `cfg`. -/
def Proposable (e : Env) (cfg : GovConfig) : Action → Prop
  | .updateMetadata _ | .updateMinWeight _ | .deployTreasury _ => True
  | .updateGovConfig c => ∃ new, Changed cfg c new ∧ ValidConfig e.daoType new
  | .updateCouncil c => ∀ x, c = some x → ValidSpec x
  | .updateAssetWhitelist remote add remove => remote = none → Disjointed add remove
  | .updateNftWhitelist _ add remove => Disjointed add remove
  | .requestFunding remote _ assets => remote = none → NoCw1155 assets
  | .upgradeDao v => e.version < v
  | .executeMsgs l | .executeTreasuryMsgs _ l | .executeEnterpriseMsgs l => ∀ m ∈ l, e.parses m = true
  | .modifyMultisig l => e.daoType = .multisig ∧ (l.map (·.1)).Nodup
  | .distributeFunds l => NoCw1155 l

/-- The council configuration that goes with a council: by default it may upgrade the DAO and nothing else. -/
def CouncilSpec.kept (c : CouncilSpec) : CouncilConfig :=
  ⟨match c.allowed with | some l => l | none => [.upgradeDao], c.quorum, c.threshold⟩

/-- What an action does when it is executed: the new configurations (everything else is as before), and the messages
sent. -/
inductive Does (e : Env) (s : State) : Action → State → List Sub → Prop
  | updateMetadata (m : Nat) : Does e s (.updateMetadata m) s [.enterprise (.updateMetadata m)]
  | config {c : GovChange} {new : GovConfig} (h : Changed s.config c new) (hv : ValidConfig e.daoType new)
      (hu : c.unlocking = none) : Does e s (.updateGovConfig c) { s with config := new } []
  | configUnlocking {c : GovChange} {new : GovConfig} {d : Duration} (h : Changed s.config c new)
      (hv : ValidConfig e.daoType new) (hu : c.unlocking = some d) (hd : ∀ n, d = .time n → new.voteDuration ≤ n)
      (ht : e.daoType ≠ .multisig) : Does e s (.updateGovConfig c) { s with config := new } [.unlocking d]
  | configMultisig {c : GovChange} {new : GovConfig} {d : Duration} (h : Changed s.config c new)
      (hv : ValidConfig e.daoType new) (hu : c.unlocking = some d) (hd : ∀ n, d = .time n → new.voteDuration ≤ n)
      (ht : e.daoType = .multisig) : Does e s (.updateGovConfig c) { s with config := new } []
  | noCouncil : Does e s (.updateCouncil none) { s with council := none } [.council []]
  | council {c : CouncilSpec} (h : ValidSpec c) :
      Does e s (.updateCouncil (some c)) { s with council := some c.kept } [.council (c.members.map (fun u => (u, 1)))]
  | assets (r : Option Nat) (a d : List AssetInfo) : Does e s (.updateAssetWhitelist r a d) s [.treasury r (.updateAssets a d)]
  | nfts (r : Option Nat) (a d : List Addr) : Does e s (.updateNftWhitelist r a d) s [.treasury r (.updateNfts a d)]
  | funding (r : Option Nat) (to : Addr) (l : List Asset) : Does e s (.requestFunding r to l) s [.treasury r (.spend to l)]
  | upgrade {v : Version} (h : e.version < v) : Does e s (.upgradeDao v) s [.enterprise (.upgradeDao v)]
  | msgs {l : List Nat} (h : ∀ m ∈ l, e.parses m = true) : Does e s (.executeMsgs l) s (l.map .custom)
  | treasuryMsgs (r : Option Nat) (l : List Nat) : Does e s (.executeTreasuryMsgs r l) s
      [.treasury r (.cosmosMsgs (l.map (fun m => if e.parses m = true then some m else none)))]
  | enterpriseMsgs (l : List Nat) : Does e s (.executeEnterpriseMsgs l) s [.enterprise (.executeMsgs l)]
  | multisig {l : List (Addr × Nat)} (ht : e.daoType = .multisig) (h : (l.map (·.1)).Nodup) :
      Does e s (.modifyMultisig l) s [.members l]
  | distribute (l : List Asset) : Does e s (.distributeFunds l) s [.treasury none (.distribute e.comps.distributor l)]
  | minWeight (w : Nat) : Does e s (.updateMinWeight w) s [.distributor (.updateMin w)]
  | deploy (d : Nat) : Does e s (.deployTreasury d) s [.deploy d]

/-- A list of actions, one after the other; the messages are sent in the same order. -/
inductive DoesAll (e : Env) : State → List Action → State → List Sub → Prop
  | nil (s : State) : DoesAll e s [] s []
  | cons {s s1 s2 : State} {a : Action} {l : List Action} {subs1 subs2 : List Sub} (h : Does e s a s1 subs1)
      (t : DoesAll e s1 l s2 subs2) : DoesAll e s (a :: l) s2 (subs1 ++ subs2)

/-- A payment from a treasury that a proposal asks for: which treasury, to whom, what. -/
def Action.payment : Action → Option (Option Nat × Addr × List Asset)
  | .requestFunding r to l => some (r, to, l)
  | _ => none

/-- A payment that a treasury is told to make. -/
def Sub.payment : Sub → Option (Option Nat × Addr × List Asset)
  | .treasury r (.spend to l) => some (r, to, l)
  | _ => none

/-- The initial treasuries deployed in a history of the controller: what the accepted messages of that kind send. -/
def initialDeployments : State × Gov.State → List (Env × Addr × Msg) → List Nat
  | _, [] => []
  | s, c :: t =>
    (match c.2.2, exec c.1 c.2.1 s.1 s.2 c.2.2 with
      | .deployInitial, .ok r => r.2.2.filterMap (fun x => match x with | .deploy d => some d | _ => none)
      | _, _ => []) ++ initialDeployments (step s c) t

end Verif.Controller
