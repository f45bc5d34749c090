import Verif.Base.Paging
import Verif.Base.Except
import Verif.Base.Num
import Mathlib.Order.Nat

/-!
# Treasuries on other chains (`contracts/enterprise-outposts`)

Chain ids, channels, addresses on other chains and message contents are natural numbers.
-/

namespace Verif.Outposts
open Verif

/-- `CrossChainMsgSpec`, packages/enterprise-outposts-api/src/api.rs 23-34. -/
structure Spec where
  chain : Nat
  prefix_ : Nat
  srcPort : Nat
  srcChannel : Nat
  destPort : Nat
  destChannel : Nat
  denom : Nat
  timeout : Option Nat
  deriving DecidableEq

/-- `DeployCrossChainTreasuryMsg`, api.rs 12-20. Whitelists are opaque. -/
structure Deploy where
  spec : Spec
  assets : Option Nat
  nfts : Option Nat
  proxyCode : Nat
  treasuryCode : Nat
  globalProxy : Nat
  deriving DecidableEq

/-- `IcsProxyCallbackType`, ibc_hooks.rs 165-173. -/
inductive Kind
  | proxy (d : Deploy)
  | treasury (spec : Spec)
  deriving DecidableEq

/-- `IcsProxyCallback`, ibc_hooks.rs 156-163. -/
structure Callback where
  spec : Spec
  proxy : Nat
  kind : Kind
  deriving DecidableEq

/-- Storage: state.rs, and ibc_hooks.rs 151-154. `lastId` is 0 while not stored. -/
structure State where
  enterprise : Addr
  proxies : Map Nat Nat
  treasuries : Map Nat Nat
  callbacks : Map Nat Callback
  lastId : Nat

/-- `derive_intermediate_sender`, ibc_hooks.rs 188-198: a hash of channel and sender in bech32 with a prefix, which fails
for some prefixes. -/
abbrev Derive := Nat → Nat → Nat → Option Addr

/-- `TERRA_CHAIN_BECH32_PREFIX`, ibc_hooks.rs 176. -/
def terra : Nat := 0

/-- What the contract sees of the chain: own address, block time, and the governance controller as the enterprise
contract tells it (`none` if that query fails). -/
structure Env where
  self : Addr
  time : Nat
  controller : Option Addr
  derive_ : Derive

/-- Errors of the contract. -/
inductive Err
  | unauthorized
  | treasuryExists
  | proxyExists
  | noDeployment
  | queryFailed
  | encoding
  | parse
  deriving DecidableEq

/-- What the proxy on the other chain is told to do. -/
inductive Act
  /-- instantiate a proxy with an owner -/
  | proxy (code : Nat) (owner : Addr)
  /-- instantiate a treasury with an admin -/
  | treasury (code admin : Nat) (assets nfts : Option Nat)
  /-- send a message to a treasury -/
  | run (treasury msg : Nat)
  deriving DecidableEq

/-- The transfer with a memo that is sent, ibc_hooks.rs 95-149: to which proxy, what to do, the id of the callback if any
(with the route of the answer), and the route. -/
structure Out where
  proxy : Nat
  act : Act
  callback : Option (Nat × Nat × Nat × Nat)
  srcPort : Nat
  srcChannel : Nat
  timeout : Nat
  deriving DecidableEq

/-- `ibc_hooks_msg_to_ics_proxy_contract`, ibc_hooks.rs 95-149; default timeout of line 13. Serialization of the memo is
taken to succeed. -/
def toProxy (e : Env) (a : Act) (proxy : Nat) (s : Spec) (callback : Option Nat) : Out :=
  { proxy := proxy, act := a, callback := callback.map (fun id => (id, s.destPort, s.destChannel, s.denom)),
    srcPort := s.srcPort, srcChannel := s.srcChannel, timeout := wadd64 e.time (s.timeout.getD (15 * 60 * 10 ^ 9)) }

/-- `instantiate`, contract.rs 48-62. -/
def init (enterprise : Addr) : State := ⟨enterprise, Map.empty, Map.empty, Map.empty, 0⟩

/-- `enterprise_governance_controller_caller_only`, validate.rs 9-22. -/
def controllerOnly (e : Env) (sender : Addr) : Except Err Unit :=
  match e.controller with
  | none => .error .queryFailed
  | some c => if sender ≠ c then .error .unauthorized else .ok ()

/-- The next callback id: a `u32`, added without overflow check. -/
def nextId (s : State) : Nat := (s.lastId + 1) % 2 ^ 32

/-- A callback is stored under the next id: contract.rs 126-142 and 215-233. -/
def issue (s : State) (c : Callback) : State :=
  { s with callbacks := s.callbacks.set (nextId s) c, lastId := nextId s }

/-- `instantiate_remote_treasury`, contract.rs 205-253. -/
def remoteTreasury (e : Env) (s : State) (d : Deploy) (globalProxy proxy : Nat) : State × Out :=
  (issue s ⟨d.spec, globalProxy, .treasury d.spec⟩,
    toProxy e (.treasury d.treasuryCode proxy d.assets d.nfts) globalProxy d.spec (some (nextId s)))

/-- `deploy_cross_chain_treasury`, contract.rs 80-173. -/
def deploy (e : Env) (s : State) (sender : Addr) (d : Deploy) : Except Err (State × List Out) := do
  controllerOnly e sender
  if (s.treasuries.get d.spec.chain).isSome then .error .treasuryExists
  else match s.proxies.get d.spec.chain with
    | some p => .ok ((remoteTreasury e s d d.globalProxy p).1, [(remoteTreasury e s d d.globalProxy p).2])
    | none =>
      match e.derive_ d.spec.destChannel e.self d.spec.prefix_ with
      | none => .error .encoding
      | some owner =>
        .ok (issue s ⟨d.spec, d.globalProxy, .proxy d⟩,
          [toProxy e (.proxy d.proxyCode owner) d.globalProxy d.spec (some (nextId s))])

/-- `execute_cross_chain_treasury`, contract.rs 255-288. The message to the treasury is opaque. -/
def execTreasury (e : Env) (s : State) (sender : Addr) (spec : Spec) (msg : Nat) : Except Err (List Out) := do
  controllerOnly e sender
  match s.proxies.get spec.chain with
  | none => .error .noDeployment
  | some p =>
    match s.treasuries.get spec.chain with
    | none => .error .noDeployment
    | some t => .ok [toProxy e (.run t msg) p spec none]

/-- `handle_instantiate_proxy_reply_callback` with `add_cross_chain_proxy`, contract.rs 345-375 and 175-187. The address
in the answer is `none` if it does not parse. -/
def proxyReply (e : Env) (s : State) (c : Callback) (d : Deploy) (answer : Option Nat) :
    Except Err (State × List Out) :=
  match answer with
  | none => .error .parse
  | some p =>
    if s.proxies.has c.spec.chain then .error .proxyExists
    else
      let s1 := { s with proxies := s.proxies.set c.spec.chain p }
      if e.controller = none then .error .queryFailed
      else .ok ((remoteTreasury e s1 d c.proxy p).1, [(remoteTreasury e s1 d c.proxy p).2])

/-- `handle_instantiate_treasury_reply_callback` with `add_cross_chain_treasury`, contract.rs 377-393 and 189-201. -/
def treasuryReply (e : Env) (s : State) (c : Callback) (answer : Option Nat) : Except Err (State × List Out) :=
  match answer with
  | none => .error .parse
  | some t =>
    if s.treasuries.has c.spec.chain then .error .treasuryExists
    else if e.controller = none then .error .queryFailed
    else .ok ({ s with treasuries := s.treasuries.set c.spec.chain t }, [])

/-- `execute_msg_reply_callback`, contract.rs 290-343. -/
def callback (e : Env) (s : State) (sender : Addr) (id : Nat) (answer : Option Nat) : Except Err (State × List Out) :=
  match s.callbacks.get id with
  | none => .error .unauthorized
  | some c =>
    match e.derive_ c.spec.srcChannel c.proxy terra with
    | none => .error .encoding
    | some a =>
      if sender ≠ a then .error .unauthorized
      else
        let s1 := { s with callbacks := s.callbacks.remove id }
        match c.kind with
        | .proxy d => proxyReply e s1 c d answer
        | .treasury _ => treasuryReply e s1 c answer

/-- `ExecuteMsg`. -/
inductive Msg
  | deploy (d : Deploy)
  | execTreasury (spec : Spec) (msg : Nat)
  | callback (id : Nat) (answer : Option Nat)
  deriving DecidableEq

/-- `execute`, contract.rs 65-78. -/
def exec (e : Env) (s : State) (sender : Addr) : Msg → Except Err (State × List Out)
  | .deploy d => deploy e s sender d
  | .execTreasury spec m => do let o ← execTreasury e s sender spec m; pure (s, o)
  | .callback id a => callback e s sender id a

/-- `query_cross_chain_treasuries`, contract.rs 415-437; limits of lines 44-45. -/
def queryTreasuries (s : State) (after : Option Nat) (limit : Option Nat) : List (Nat × Nat) :=
  s.treasuries.page after (min (limit.getD 50) 100)

/-- `query_cross_chain_deployments`, contract.rs 439-452: proxy and treasury of a chain. -/
def queryDeployments (s : State) (chain : Nat) : Option Nat × Option Nat :=
  (s.proxies.get chain, s.treasuries.get chain)

/-- A message, its sender, and what the contract sees when it comes. -/
structure Call where
  env : Env
  sender : Addr
  msg : Msg

/-- A message that fails changes nothing. -/
def step (s : State) (c : Call) : State :=
  match exec c.env s c.sender c.msg with
  | .ok r => r.1
  | .error _ => s

/-- Whether a message succeeds. -/
def accepted (s : State) (c : Call) : Bool := (exec c.env s c.sender c.msg).isOk

/-- The state after a history of messages. -/
def run (s : State) : List Call → State
  | [] => s
  | c :: t => run (step s c) t

/-- The messages of a history that succeed. -/
def succeeded (s : State) : List Call → List Call
  | [] => []
  | c :: t => (if accepted s c then [c] else []) ++ succeeded (step s c) t

end Verif.Outposts
