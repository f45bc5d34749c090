import Verif.Controller.Props2
import Verif.Custody.Deposits
import Verif.Dao.Lemmas

set_option linter.unusedSimpArgs false

/-!
# The treasury of a DAO together with the controller, the funds distributor and the balances of all assets

The treasury of `Verif.Treasury.Model`, administered by the controller of `Verif.Controller.Model`, and the distributor
of `Verif.Distributor.Model` are put next to the balances of every denom and cw20 token. Messages run with their
sub-messages, depth first and in order: a failing message undoes everything, up to the actions of a proposal, whose
failure is caught. Tokens behave as cw20-base does: `Receive` is called only after a `Send`, and only the owner of funds
moves them (the treasury gives no allowances unless a custom message does).

Left open are custom messages (`ExecuteMsgs`, `ExecuteTreasuryMsgs`, `ExecuteEnterpriseMsgs`) and the upgrade of the DAO:
they may change everything. Treasuries on other chains are not part of this; messages for them, and those to the
membership contracts, can fail, and the membership contract can report changed weights.
-/

namespace Verif.Custody.Spending
open Verif Verif.Controller

/-- The controller, the other contracts of the DAO, and its type. -/
structure Parties where
  me : Addr
  comps : Components
  type : DaoType

/-- The three contracts that hold assets are different ones. -/
structure Parties.Wf (P : Parties) : Prop where
  tre : P.comps.treasury ≠ P.me
  dis : P.comps.distributor ≠ P.comps.treasury

/-- The contracts, the balances of each asset, and the time of the last block. -/
structure World where
  st : State
  gov : Gov.State
  tre : Treasury.State
  dis : Distributor.State
  led : AssetInfo → Verif.Ledger
  now : Nat

/-- What one transaction depends on: the answers of contracts outside of the model, and what messages to them do. -/
structure Ext where
  /-- block and answers seen by the controller -/
  env : Controller.Env
  /-- answers seen by the distributor -/
  denv : Distributor.Env
  /-- custom messages of the controller and of the main contract, and upgrades -/
  free : World → Sub → Except Err World
  /-- custom messages of the treasury -/
  cosmos : World → Nat → Except Err World
  /-- messages to the membership contracts, to the main contract and to outposts: `none` if they fail, otherwise the
  changes of weights that they make the membership contract report -/
  others : Sub → Option (List WeightChange)
  /-- whether the actions of a proposal fail for a reason outside of the model, e.g. lack of gas -/
  lucky : Bool

/-- What the controller sees. -/
def Parties.env (P : Parties) (x : Ext) : Controller.Env :=
  { x.env with self := P.me, comps := P.comps, daoType := P.type }

/-- A message to the distributor; it sees the whitelist of the treasury. -/
def runDis (P : Parties) (x : Ext) (w : World) (sender : Addr) (m : Distributor.Msg) : Except Err World := do
  let r ← Distributor.exec w.dis { x.denv with sender := sender, treasury := w.tre.assets } m
  let l ← Rewards.payOut P.comps.distributor w.led r.2
  pure { w with dis := r.1, led := l }

/-- A transfer of assets. -/
def pay (w : World) (a : AssetInfo) (src dst : Addr) (n : Nat) : Except Err World := do
  let l ← Rewards.move w.led a src dst n
  pure { w with led := l }

/-- A message sent by the treasury (enterprise-treasury/src/contract.rs 158-220), run with what it makes the distributor
do (funds-distributor/src/contract.rs, distributing.rs). The two that distribute funds are only ever sent to the distributor. -/
def treasuryOut (P : Parties) (x : Ext) (w : World) : Treasury.Out → Except Err World
  | .bankSend dst d n => pay w (.native d) P.comps.treasury dst n
  | .cw20Transfer t dst n => pay w (.cw20 t) P.comps.treasury dst n
  | .cw20SendDistribute t dst n =>
    if dst ≠ P.comps.distributor then .error .notFound
    else do
      let w1 ← pay w (.cw20 t) P.comps.treasury dst n
      runDis P x w1 t (.receiveCw20 true n)
  | .distributeNative dst coins =>
    if dst ≠ P.comps.distributor then .error .notFound
    else do
      let l ← Rewards.attach dst w.led P.comps.treasury coins
      runDis P x { w with led := l } P.comps.treasury (.distributeNative coins)
  | .cosmos m => x.cosmos w m

/-- A message to the treasury, with what it sends. -/
def runTreasury (P : Parties) (x : Ext) (w : World) (sender : Addr) (m : Treasury.Msg) : Except Err World := do
  let r ← Treasury.exec w.tre sender m
  r.2.foldlM (treasuryOut P x) { w with tre := r.1 }

/-- The message of `weights_changed` to the distributor. -/
def runNotified (P : Parties) (x : Ext) (w : World) : Sub → Except Err World
  | .distributor m => runDis P x w P.me m
  | _ => .error .unsupported

/-- The membership contract reports changed weights to the controller. -/
def notify (P : Parties) (x : Ext) (w : World) (l : List WeightChange) : Except Err World := do
  let r ← Controller.exec (P.env x) P.comps.membership w.st w.gov (.weightsChanged l)
  r.2.2.foldlM (runNotified P x) { w with st := r.1, gov := r.2.1 }

/-- A message to a contract outside of the model. -/
def runOther (P : Parties) (x : Ext) (w : World) (s : Sub) : Except Err World :=
  match x.others s with
  | none => .error .other
  | some [] => .ok w
  | some (c :: l) => notify P x w (c :: l)

/-- A sub-message of the controller. NFTs are not part of this world. -/
def runSub (P : Parties) (x : Ext) (w : World) : Sub → Except Err World
  | .actions _ => .error .unsupported
  | .deposit _ (.asset a n dst) => pay w a P.me dst n
  | .deposit _ (.nft _ _ _) => .ok w
  | .takeNft _ _ => .ok w
  | .treasury none m => runTreasury P x w P.me m
  | .treasury (some d) m => runOther P x w (.treasury (some d) m)
  | .enterprise (.updateMetadata m) => runOther P x w (.enterprise (.updateMetadata m))
  | .enterprise (.upgradeDao v) => x.free w (.enterprise (.upgradeDao v))
  | .enterprise (.executeMsgs l) => x.free w (.enterprise (.executeMsgs l))
  | .council l => runOther P x w (.council l)
  | .unlocking d => runOther P x w (.unlocking d)
  | .members l => runOther P x w (.members l)
  | .distributor m => runDis P x w P.me m
  | .deploy d => runOther P x w (.deploy d)
  | .custom m => x.free w (.custom m)

/-- `ExecuteProposalActions`, sent by the controller to itself. -/
def runActions (P : Parties) (x : Ext) (w : World) (id : Nat) : Except Err World := do
  let r ← Controller.exec (P.env x) P.me w.st w.gov (.executeActions id)
  r.2.2.foldlM (runSub P x) { w with st := r.1, gov := r.2.1 }

/-- A sub-message of a message to the controller; the failure of the actions of a proposal is caught (contract.rs
802-809, 1484-1492). -/
def runTop (P : Parties) (x : Ext) (w : World) : Sub → Except Err World
  | .actions id =>
    if x.lucky = false then .ok w
    else
      match runActions P x w id with
      | .ok w' => .ok w'
      | .error _ => .ok w
  | s => runSub P x w s

/-- A message to the controller, once what was sent with it has arrived. -/
def handle (P : Parties) (x : Ext) (w : World) (sender : Addr) (m : Msg) : Except Err World := do
  let r ← Controller.exec (P.env x) sender w.st w.gov m
  r.2.2.foldlM (runTop P x) { w with st := r.1, gov := r.2.1, now := x.env.block.time }

/-- What can happen. -/
inductive Op
  | mint (a : AssetInfo) (dst : Addr) (n : Nat)
  | burn (a : AssetInfo) (src : Addr) (n : Nat)
  | transfer (a : AssetInfo) (src dst : Addr) (n : Nat)
  /-- cw20 `Send` to the controller -/
  | send (token src : Addr) (n : Nat) (p : Option Proposal) (x : Ext)
  /-- cw20 `Send` to the distributor -/
  | sendDis (token src : Addr) (n : Nat) (known : Bool) (x : Ext)
  /-- a message to the controller -/
  | call (x : Ext) (sender : Addr) (m : Msg)
  /-- a message to the treasury -/
  | callTre (x : Ext) (sender : Addr) (m : Treasury.Msg)
  /-- a message to the distributor -/
  | callDis (x : Ext) (sender : Addr) (m : Distributor.Msg)

/-- One operation, with its failures. The treasury moves nothing by itself, and the controller sends no messages by
itself: what they do is part of the operations that make them do it. -/
def exec (P : Parties) (w : World) : Op → Except Err World
  | .mint a dst n => do
    let l ← (w.led a).mint dst n
    pure { w with led := fun b => if b = a then l else w.led b }
  | .burn a src n =>
    if src = P.comps.treasury then .error .unauthorized
    else do
      let l ← (w.led a).burn src n
      pure { w with led := fun b => if b = a then l else w.led b }
  | .transfer a src dst n =>
    if src = P.comps.treasury then .error .unauthorized else pay w a src dst n
  | .send token src n p x =>
    if src = P.comps.treasury then .error .unauthorized
    else do
      let w1 ← pay w (.cw20 token) src P.me n
      handle P x w1 token (.receive src n p)
  | .sendDis token src n known x =>
    if src = P.comps.treasury then .error .unauthorized
    else do
      let w1 ← pay w (.cw20 token) src P.comps.distributor n
      runDis P x w1 token (.receiveCw20 known n)
  | .call x sender m =>
    if sender = P.me ∨ sender = P.comps.treasury ∨ Deposits.isReceive m = true then .error .unauthorized
    else do
      let l ← Rewards.attach P.me w.led sender (Deposits.attached m)
      handle P x { w with led := l } sender m
  | .callTre x sender m =>
    if sender = P.me ∨ sender = P.comps.treasury then .error .unauthorized else runTreasury P x w sender m
  | .callDis x sender m =>
    if sender = P.me ∨ sender = P.comps.treasury ∨ Rewards.isReceive m = true then .error .unauthorized
    else do
      let l ← Rewards.attach P.comps.distributor w.led sender (Rewards.attached m)
      runDis P x { w with led := l } sender m

/-- A failing operation changes nothing. -/
def step (P : Parties) (w : World) (o : Op) : World :=
  match exec P w o with
  | .ok w' => w'
  | .error _ => w

/-! ## Histories -/

/-- Custom messages and upgrades leave the controller, its governance contract, the admin of the treasury and the holdings
of the treasury alone (they may add to them). -/
structure Ext.Tame (P : Parties) (x : Ext) : Prop where
  free : ∀ {w s w'}, x.free w s = .ok w' → w'.st = w.st ∧ w'.gov = w.gov ∧ w'.now = w.now ∧
    w'.tre.admin = w.tre.admin ∧ ∀ a, (w.led a).bal P.comps.treasury ≤ (w'.led a).bal P.comps.treasury
  cosmos : ∀ {w m w'}, x.cosmos w m = .ok w' → w'.st = w.st ∧ w'.gov = w.gov ∧ w'.now = w.now ∧
    w'.tre.admin = w.tre.admin ∧ ∀ a, (w.led a).bal P.comps.treasury ≤ (w'.led a).bal P.comps.treasury

/-- The answers in a transaction after `w`: time does not go back, weights fit 128 bits, and there are less than 2^64
proposals. -/
structure Ext.Fair (P : Parties) (x : Ext) (w : World) : Prop where
  time : w.now ≤ x.env.block.time
  weights : Dao.EnvOk (P.env x)
  room : w.gov.pollCount + 1 < 2 ^ 64
  reports : ∀ s l, x.others s = some l → ∀ c ∈ l, c.new < 2 ^ 128

/-- Operations considered: fair answers, and no custom message that touches what is stated about. -/
def Op.Fine (P : Parties) (w : World) : Op → Prop
  | .send _ _ _ _ x => x.Fair P w ∧ x.Tame P
  | .call x _ m => x.Fair P w ∧ x.Tame P ∧ ∀ l, m = .weightsChanged l → ∀ c ∈ l, c.new < 2 ^ 128
  | .callTre x _ _ => x.Tame P
  | _ => True

/-- A new DAO: a controller as instantiated (whatever of its initial cross-chain treasuries is still to be deployed), and a
treasury that it administers, with any balances. -/
structure Start (P : Parties) (w : World) : Prop where
  ctl : ∃ b ent cfg council tr st y, Controller.init b ent P.type cfg council [] tr = .ok st ∧
    w.st = { st with treasuries := y }
  gov : w.gov = Gov.init P.me
  tre : ∃ assets nfts, Treasury.init P.me assets nfts = .ok w.tre

/-- `w` comes about from a new DAO `w0`. -/
inductive Reach (P : Parties) (w0 : World) : World → Prop
  | start (h : Start P w0) : Reach P w0 w0
  | step {w : World} {o : Op} (h : Reach P w0 w) (ho : o.Fine P w) : Reach P w0 (step P w o)

/-! ## Payments -/

/-- An amount of an asset goes from one account to another. -/
structure Payment where
  src : Addr
  dst : Addr
  asset : AssetInfo
  amount : Nat
  deriving DecidableEq

/-- The amount of an asset that an account gives away in some payments. -/
def given (a : AssetInfo) (v : Addr) (l : List Payment) : Nat :=
  (l.map (fun p => if p.src = v ∧ p.asset = a then p.amount else 0)).sum

/-- The amount of an asset that an account gets in some payments. -/
def gotten (a : AssetInfo) (v : Addr) (l : List Payment) : Nat :=
  (l.map (fun p => if p.dst = v ∧ p.asset = a then p.amount else 0)).sum

/-- The balances of all accounts changed by these payments, and by nothing else. -/
def Accounts (led led' : AssetInfo → Verif.Ledger) (l : List Payment) : Prop :=
  ∀ a v, (led' a).bal v + given a v l = (led a).bal v + gotten a v l

/-- The payments from the treasury on this chain that an action asks for: the funding of a recipient, and the
distribution of funds to the members, which goes through the distributor. -/
def actionAsks (P : Parties) : Action → List Payment
  | .requestFunding none dst l => l.map (fun a => ⟨P.comps.treasury, dst, a.info, a.amount⟩)
  | .distributeFunds l => l.map (fun a => ⟨P.comps.treasury, P.comps.distributor, a.info, a.amount⟩)
  | _ => []

/-- The payments from the treasury on this chain that a proposal asks for. -/
def asks (P : Parties) (i : Info) : List Payment := i.actions.flatMap (actionAsks P)

/-- Actions that can do anything: custom messages, and upgrades. -/
def isFree : Action → Bool
  | .executeMsgs _ | .executeTreasuryMsgs none _ | .executeEnterpriseMsgs _ | .upgradeDao _ => true
  | _ => false

/-- The coins or tokens of a deposit, paid by the controller to `dst`. -/
def depositPaid (P : Parties) (dst : Addr) : DepositAsset → List Payment
  | .denom d n => [⟨P.me, dst, .native d, n⟩]
  | .cw20 t n => [⟨P.me, dst, .cw20 t, n⟩]
  | .cw721 _ _ => []

/-- The payment of the deposit of a proposal, by the status of its poll: to the treasury when the quorum was missed or the
proposal vetoed, else to the depositor. -/
def depositDue (P : Parties) (i : Info) (st : Gov.Status) : List Payment :=
  match i.deposit with
  | none => []
  | some d =>
    depositPaid P (if st = .rejected .quorumNotReached ∨ st = .rejected .isVetoOutcome then P.comps.treasury
      else d.depositor) d.asset

/-- A passed poll. -/
def Passed (p : Gov.Poll) : Prop := ∃ y n, p.status = .passed y n

/-- The payments that the proposal with this id was approved for: none as long as it is not executed, and none if it did
not pass. -/
def approved (P : Parties) (w : World) (id : Nat) (i : Info) : List Payment :=
  match i.executedAt, (w.gov.polls.get id).map (fun p => p.status) with
  | some _, some (Gov.Status.passed _ _) => asks P i
  | _, _ => []

/-- The amount of an asset that all the executed proposals together were approved to take from the treasury. -/
def spent (P : Parties) (w : World) (a : AssetInfo) : Nat :=
  w.st.infos.sum (fun id i => given a P.comps.treasury (approved P w id i))

end Verif.Custody.Spending
