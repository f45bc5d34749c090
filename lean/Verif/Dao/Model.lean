import Verif.Controller.Model
import Verif.Multisig.Model
import Verif.Nft.Model

/-!
# The contracts of a DAO together

The state of the governance controller, the governance contract, the funds distributor, the membership contract and
the council membership contract, and the execution of messages with their sub-messages: depth first, in order, a
failing message undoing everything up to the closest caught failure (which only exists for `ExecuteProposalActions`).

Messages to anything else (treasury, main contract, outposts, tokens, users, other chains) are left open: they may
fail, and they may call the contracts of the DAO in any way, with any sender outside of the DAO's voting contracts.
-/

namespace Verif.Dao
open Verif
open Verif.Controller (DaoType Version Components Transfer Sub)
open Verif.Staking (Duration At)

/-- The membership contract of a DAO, one of the four kinds. -/
inductive Member
  | staking (k : Staking.Kind) (s : Staking.State)
  | nft (s : Nft.State)
  | multisig (s : Members)
  deriving DecidableEq

/-- Messages to the membership contract. -/
inductive MemberMsg
  | staking (m : Staking.Msg)
  | nft (m : Nft.Msg)
  | multisig (m : Multisig.Msg)

namespace Member

/-- Weights, totals and hooks of the contract. -/
def mem : Member → Members
  | .staking _ s => s.mem
  | .nft s => s.mem
  | .multisig s => s

/-- The DAO type (enterprise contract, fixed at creation) matches the membership contract that the factory
instantiates: enterprise-factory/src/contract.rs 689-717, 355-368. -/
def daoType : Member → DaoType
  | .staking .token _ => .token
  | .staking .denom _ => .denom
  | .nft _ => .nft
  | .multisig _ => .multisig

/-- `UserWeight` of each kind of contract. -/
def weight : Member → Addr → Nat
  | .staking _ s => Staking.queryWeight s
  | .nft s => Nft.queryWeight s
  | .multisig s => Multisig.queryWeight s

/-- `TotalWeight` of each kind of contract. -/
def total : Member → At → Nat
  | .staking _ s => Staking.queryTotal s
  | .nft s => Nft.queryTotal s
  | .multisig s => Multisig.queryTotal s

/-- `TokenConfig`, token-staking-impl/src/query.rs; any other contract refuses the query. -/
def token : Member → Option Addr
  | .staking .token s => some s.asset
  | _ => none

/-- `DenomConfig`, denom-staking-impl/src/query.rs; any other contract refuses the query. -/
def denom : Member → Option Nat
  | .staking .denom s => some s.asset
  | _ => none

/-- `NftConfig`, nft-staking-impl/src/query.rs, given the answer of the ICS721 proxy. -/
def nftAddr (proxy : Option Addr) : Member → Option Addr
  | .nft s => Nft.nftContract s proxy
  | _ => none

/-- `execute` of each kind of contract; a message meant for another kind does not parse. -/
def exec (x : Member) (e : Nft.NEnv) (m : MemberMsg) : Except Err (Member × List Out) :=
  match x, m with
  | .staking k s, .staking m => do
    let r ← Staking.exec k s e.env m
    return (.staking k r.1, r.2)
  | .nft s, .nft m => do
    let r ← Nft.exec s e m
    return (.nft r.1, r.2)
  | .multisig s, .multisig m => do
    let r ← Multisig.exec s e.env m
    return (.multisig r.1, r.2)
  | _, _ => .error .unsupported

/-- `UpdateUnlockingPeriod` for each kind of contract (governance controller, contract.rs 949-978). -/
def unlockingMsg (d : Duration) : Member → MemberMsg
  | .nft _ => .nft (.updateUnlocking (some d))
  | _ => .staking (.updateUnlocking (some d))

end Member

/-- Messages to the modelled contracts. -/
inductive Msg
  | ctl (m : Controller.Msg)
  | gov (m : Gov.Msg)
  | dist (m : Distributor.Msg)
  | mem (m : MemberMsg)
  | council (m : Multisig.Msg)

/-- A message in the queue. -/
inductive Item
  | call (sender : Addr) (m : Msg)
  /-- `ExecuteProposalActions` sent by the controller to itself; its failure is caught (contract.rs 802-809) -/
  | actions (id : Nat)
  /-- transfer of the deposit of a proposal -/
  | deposit (id : Nat) (t : Transfer)
  /-- a message to another contract or to a user -/
  | other

/-- What is fixed for a DAO: addresses, and the meaning of custom messages, which do not parse (`none`), or are
meant for one of the modelled contracts (`some (some m)`), or go elsewhere (`some none`). -/
structure Cfg where
  self : Addr
  creator : Addr
  enterprise : Addr
  comps : Components
  decode : Nat → Option (Option Msg)

/-- Answers of the contracts that are not modelled, at the time of one message. -/
structure Ext where
  restricted : Addr → Bool
  version : Version
  owner : Nat → Option (Addr × List Addr)
  proxy : Option Addr
  treasury : Treasury.Whitelist
  global : List AssetInfo

/-- Events recorded for the statements; they are undone together with the message that caused them. -/
inductive Event
  /-- the controller sent itself `ExecuteProposalActions` -/
  | sent (id : Nat)
  /-- the controller executed the actions of a proposal -/
  | ran (id : Nat)
  /-- a transfer of a proposal's deposit -/
  | paid (id : Nat) (t : Transfer)
  deriving DecidableEq

/-- States of the contracts, the current block and the events so far. -/
structure World where
  ctl : Controller.State
  gov : Gov.State
  dist : Distributor.State
  mem : Member
  council : Members
  block : Block
  log : List Event
  deriving DecidableEq

/-- What the controller sees. -/
def Cfg.env (c : Cfg) (e : Ext) (w : World) : Controller.Env :=
  { block := w.block, self := c.self, creator := c.creator, comps := c.comps, daoType := w.mem.daoType,
    version := e.version, restricted := e.restricted, weight := w.mem.weight, total := w.mem.total,
    councilWeight := Multisig.queryWeight w.council, councilTotal := Multisig.queryTotal w.council,
    token := w.mem.token, nft := w.mem.nftAddr e.proxy, denom := w.mem.denom, owner := e.owner,
    parses := fun n => (c.decode n).isSome }

/-- What a membership contract sees. -/
def Cfg.menv (c : Cfg) (e : Ext) (w : World) (sender : Addr) : Env := ⟨w.block, sender, c.self, e.restricted⟩

/-- What the funds distributor sees. -/
def Ext.denv (e : Ext) (sender : Addr) : Distributor.Env := ⟨sender, e.restricted, e.treasury, e.global⟩

/-- The queued message for a sub-message of the controller. -/
def toItem (c : Cfg) (x : Member) : Sub → Item
  | .actions id => .actions id
  | .deposit id t => .deposit id t
  | .takeNft _ _ => .other
  | .treasury _ _ => .other
  | .enterprise _ => .other
  | .council l => .call c.self (.council (.setMembers l))
  | .unlocking d => .call c.self (.mem (x.unlockingMsg d))
  | .members l => .call c.self (.mem (.multisig (.updateMembers l)))
  | .distributor m => .call c.self (.dist m)
  | .deploy _ => .other
  | .custom n =>
    match c.decode n with
    | some (some m) => .call c.self m
    | _ => .other

/-- The event for a sub-message of the controller. -/
def eventOf : Sub → Option Event
  | .actions id => some (.sent id)
  | _ => none

/-- The event for a message to the controller. -/
def ranOf : Controller.Msg → List Event
  | .executeActions id => [.ran id]
  | _ => []

/-- The queued message for a sub-message of a membership contract at address `from_`. -/
def outItem (c : Cfg) (from_ : Addr) : Out → Item
  | .notify h l => if h = c.self then .call from_ (.ctl (.weightsChanged l)) else .other
  | .pay _ _ => .other
  | .sendNft _ _ => .other

/-- The message of `weights_changed` to the distributor, which has no sub-messages. -/
def updateDist (c : Cfg) (e : Ext) (d : Distributor.State) : List Sub → Except Err Distributor.State
  | [] => .ok d
  | .distributor m :: t => do
    let r ← Distributor.exec d (e.denv c.self) m
    updateDist c e r.1 t
  | _ :: _ => .error .unsupported

/-- Sub-messages of a membership contract at address `from_`. As long as the first one notifies the controller, it is
run in place, with its own messages to governance and to the distributor; these have no further sub-messages, so this
is the depth-first order. -/
def deliver (c : Cfg) (e : Ext) (from_ : Addr) (w : World) : List Out → Except Err (World × List Item)
  | [] => .ok (w, [])
  | .notify h l :: t =>
    if h = c.self then do
      let r ← Controller.weightsChanged (c.env e w) from_ w.gov l
      let d ← updateDist c e w.dist r.2
      deliver c e from_ { w with gov := r.1, dist := d } t
    else .ok (w, .other :: t.map (outItem c from_))
  | o :: t => .ok (w, (o :: t).map (outItem c from_))

/-- One message: the new state and the sub-messages. -/
def handle (c : Cfg) (e : Ext) (w : World) (sender : Addr) : Msg → Except Err (World × List Item)
  | .ctl m => do
    let r ← Controller.exec (c.env e w) sender w.ctl w.gov m
    return ({ w with ctl := r.1, gov := r.2.1, log := w.log ++ ranOf m ++ r.2.2.filterMap eventOf },
      r.2.2.map (toItem c w.mem))
  | .gov m => do
    let g ← Gov.exec w.gov ⟨w.block.time, sender, m⟩
    return ({ w with gov := g }, [])
  | .dist m => do
    let r ← Distributor.exec w.dist (e.denv sender) m
    return ({ w with dist := r.1 }, r.2.map (fun _ => .other))
  | .mem m => do
    let r ← w.mem.exec ⟨c.menv e w sender, e.proxy⟩ m
    deliver c e c.comps.membership { w with mem := r.1 } r.2
  | .council m => do
    let r ← Multisig.exec w.council (c.menv e w sender) m
    deliver c e c.comps.council { w with council := r.1 } r.2

/-- Addresses outside of the DAO's voting contracts. -/
def Cfg.outsider (c : Cfg) (a : Addr) : Prop := a ≠ c.self ∧ a ≠ c.comps.membership ∧ a ≠ c.comps.council

instance (c : Cfg) (a : Addr) : Decidable (c.outsider a) := by unfold Cfg.outsider; infer_instance

/-- A list of calls by outsiders. -/
def Calls (c : Cfg) (l : List Item) : Prop := ∀ i ∈ l, ∃ a m, i = .call a m ∧ c.outsider a

/-- Successful execution of a queue of messages, with everything they lead to. Ids are below 2^64 (`room`): executions
with 2^64 proposals are not covered. -/
inductive Exec (c : Cfg) : World → List Item → World → Prop
  | nil (w : World) : Exec c w [] w
  | call {w w1 w2 w3 : World} {a : Addr} {m : Msg} {subs rest : List Item} (e : Ext)
      (room : w.gov.pollCount + 1 < 2 ^ 64) (h : handle c e w a m = .ok (w1, subs))
      (h1 : Exec c w1 subs w2) (h2 : Exec c w2 rest w3) : Exec c w (.call a m :: rest) w3
  /-- the actions of a proposal, executed with success -/
  | actions {w w1 w2 w3 : World} {id : Nat} {subs rest : List Item} (e : Ext)
      (room : w.gov.pollCount + 1 < 2 ^ 64) (h : handle c e w c.self (.ctl (.executeActions id)) = .ok (w1, subs))
      (h1 : Exec c w1 subs w2) (h2 : Exec c w2 rest w3) : Exec c w (.actions id :: rest) w3
  /-- the actions of a proposal, one of which fails; the failure is caught -/
  | failed {w w1 : World} {id : Nat} {rest : List Item} (h : Exec c w rest w1) : Exec c w (.actions id :: rest) w1
  | deposit {w w1 w2 : World} {id : Nat} {t : Transfer} {calls rest : List Item} (hc : Calls c calls)
      (h1 : Exec c { w with log := w.log ++ [.paid id t] } calls w1) (h2 : Exec c w1 rest w2) :
      Exec c w (.deposit id t :: rest) w2
  | other {w w1 w2 : World} {calls rest : List Item} (hc : Calls c calls) (h1 : Exec c w calls w1)
      (h2 : Exec c w1 rest w2) : Exec c w (.other :: rest) w2

/-- The addresses of a DAO are distinct. -/
structure Cfg.Wf (c : Cfg) : Prop where
  membership : c.comps.membership ≠ c.self
  council : c.comps.council ≠ c.self
  both : c.comps.membership ≠ c.comps.council

/-- A membership contract as the factory instantiates it for a new DAO: the controller is its only hook, and there are
no checkpoints (enterprise-factory/src/{token,denom,nft,multisig}_membership.rs). -/
def Member.fresh (c : Cfg) (b : Block) : Member → Prop
  | .staking _ s => ∃ asset u, s = Staking.init b asset u [c.self] [] []
  | .nft s => ∃ nft u, s = Nft.init b nft u [c.self] [] []
  | .multisig s => ∃ l, Multisig.init b (some l) [c.self] [] [] = .ok s

/-- A new DAO. -/
structure Genesis (c : Cfg) (w : World) : Prop where
  ctl : ∃ cfg spec tr, Controller.init w.block c.enterprise w.mem.daoType cfg spec [] tr = .ok w.ctl
  gov : w.gov = Gov.init c.self
  dist : ∃ m l, Distributor.init c.self m l = .ok w.dist
  mem : w.mem.fresh c w.block
  council : ∃ l, Multisig.init w.block (some l) [c.self] [] [] = .ok w.council
  log : w.log = []

/-- Histories of a DAO: transactions signed by anyone outside of its contracts, and new blocks. Failing transactions
change nothing. -/
inductive Reachable (c : Cfg) : World → Prop
  | init {w : World} (h : Genesis c w) : Reachable c w
  | tx {w w1 : World} {a : Addr} {m : Msg} (h : Reachable c w) (ha : c.outsider a) (hx : Exec c w [.call a m] w1) :
      Reachable c w1
  | block {w : World} {b : Block} (h : Reachable c w) (hh : w.block.height ≤ b.height) (ht : w.block.time ≤ b.time) :
      Reachable c { w with block := b }

end Verif.Dao
