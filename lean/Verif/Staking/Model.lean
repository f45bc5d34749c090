import Verif.Membership.Model

/-!
# Token and denom staking (packages/token-staking-impl, packages/denom-staking-impl)

The two packages share most of their code by copy. The functions common to both are modelled once and cite both.
-/

namespace Verif.Staking
open Verif

/-- `cw_utils::Duration`: blocks or seconds. -/
inductive Duration
  | height (blocks : Nat)
  | time (seconds : Nat)
  deriving DecidableEq

/-- `ReleaseAt` (packages/common/src/cw.rs): a height, or a time in nanoseconds. -/
inductive ReleaseAt
  | height (h : Nat)
  | timestamp (t : Nat)
  deriving DecidableEq

/-- `TokenClaim` (token-staking-api/src/api.rs), `DenomClaim` (denom-staking-api/src/api.rs). -/
structure Claim where
  id : Nat
  user : Addr
  amount : Nat
  release : ReleaseAt
  deriving DecidableEq

/-- Storage of a staking contract. `asset` is the token contract (config.rs) or the denom (config.rs). -/
structure State where
  mem : Members
  claims : Map Nat Claim
  nextClaim : Nat
  asset : Addr
  unlocking : Duration
  deriving DecidableEq

/-- A coin sent along with a message. -/
structure Coin where
  denom : Addr
  amount : Nat
  deriving DecidableEq

/-- `instantiate`, token-staking-impl/src/instantiate.rs 10-35; denom-staking-impl/src/instantiate.rs 10-27 (which has
no checkpoints, that is, empty lists). -/
def init (b : Block) (asset : Addr) (unlocking : Duration) (hooks : List Addr)
    (byHeight bySeconds : List (Nat × Nat)) : State :=
  { mem := ((Members.empty.saveCheckpoints byHeight bySeconds).saveTotal 0 b).saveHooks hooks
    claims := Map.empty
    nextClaim := 0
    asset := asset
    unlocking := unlocking }

/-- `add_claim`, token-staking-impl/src/claims.rs 34-53; denom-staking-impl/src/claims.rs 34-53. -/
def addClaim (s : State) (user : Addr) (amount : Nat) (r : ReleaseAt) : Except Err State := do
  let next ← cadd64 s.nextClaim 1
  return { s with
    nextClaim := next
    claims := s.claims.set s.nextClaim ⟨s.nextClaim, user, amount, r⟩ }

/-- `is_releasable`, claims.rs 55-60 of both packages. -/
def isReleasable (c : Claim) (b : Block) : Bool :=
  match c.release with
  | .timestamp t => decide (t ≤ b.time)
  | .height h => decide (h ≤ b.height)

/-- `get_claims`, claims.rs 62-72 of both packages. -/
def getClaims (s : State) (user : Addr) : List Claim := s.claims.values.filter (fun c => decide (c.user = user))

/-- `get_releasable_claims`, claims.rs 74-96 of both packages. -/
def getReleasable (s : State) (b : Block) (user : Addr) : List Claim :=
  (getClaims s user).filter (fun c => isReleasable c b)

/-- `calculate_release_at`, token-staking-impl/src/execute.rs 178-186; denom-staking-impl/src/execute.rs 98-106.
`u64` additions and the multiplication by 10^9 in `Timestamp::plus_seconds` wrap. -/
def releaseAt (u : Duration) (b : Block) : ReleaseAt :=
  match u with
  | .height n => .height (wadd64 b.height n)
  | .time n => .timestamp (wadd64 b.time (n * 10 ^ 9 % M64))

/-- The part common to `stake_token` (token-staking-impl/src/execute.rs 47-68) and `stake_denom`
(denom-staking-impl/src/execute.rs 39-58). -/
def stakeFor (s : State) (e : Env) (user : Addr) (amount : Nat) : Except Err (State × List Out) :=
  if e.restricted user then .error .restricted
  else do
    let old := s.mem.weight user
    let (m1, new) ← s.mem.incWeight user amount
    let m2 ← m1.incTotal amount e.block
    return ({ s with mem := m2 }, m2.report [⟨user, old, new⟩])

/-- One iteration of the loop of `add_stakes`, token-staking-impl/src/execute.rs 82-103. The accumulator holds the
members, the sum and the reported changes. -/
def addStake (e : Env) (acc : Members × Nat × List WeightChange) (st : Addr × Nat) :
    Except Err (Members × Nat × List WeightChange) :=
  if st.2 = 0 then .ok acc
  else if e.restricted st.1 then .error .restricted
  else do
    let old := acc.1.weight st.1
    let new ← cadd128 old st.2
    let sum ← cadd128 acc.2.1 st.2
    return (acc.1.setWeight st.1 new, sum, acc.2.2 ++ [⟨st.1, old, new⟩])

/-- `add_stakes`, token-staking-impl/src/execute.rs 73-117. -/
def addStakes (s : State) (e : Env) (amount : Nat) (stakers : List (Addr × Nat)) :
    Except Err (State × List Out) := do
  let (m1, sum, changes) ← stakers.foldlM (addStake e) (s.mem, 0, [])
  if sum ≠ amount then .error .invalidArgument
  else
    let m2 ← m1.incTotal sum e.block
    return ({ s with mem := m2 }, m2.report changes)

/-- `UserClaim` (token-staking-api/src/api.rs). -/
structure UserClaim where
  user : Addr
  amount : Nat
  release : ReleaseAt
  deriving DecidableEq

/-- One iteration of the loop of `add_token_claims`, token-staking-impl/src/execute.rs 126-132. -/
def addTokenClaim (acc : State × Nat) (c : UserClaim) : Except Err (State × Nat) := do
  let s1 ← addClaim acc.1 c.user c.amount c.release
  let sum ← cadd128 acc.2 c.amount
  return (s1, sum)

/-- `add_token_claims`, token-staking-impl/src/execute.rs 119-139. -/
def addTokenClaims (s : State) (amount : Nat) (cs : List UserClaim) : Except Err (State × List Out) := do
  let (s1, sum) ← cs.foldlM addTokenClaim (s, 0)
  if sum ≠ amount then .error .invalidArgument
  else return (s1, [])

/-- `unstake`, token-staking-impl/src/execute.rs 142-175; denom-staking-impl/src/execute.rs 62-95. -/
def unstake (s : State) (e : Env) (amount : Nat) : Except Err (State × List Out) :=
  let user := e.sender
  let stake := s.mem.weight user
  if stake < amount then .error .insufficient
  else do
    let (m1, new) ← s.mem.decWeight user amount
    let m2 ← m1.decTotal amount e.block
    let s1 ← addClaim { s with mem := m2 } user amount (releaseAt s.unlocking e.block)
    return (s1, s1.mem.report [⟨user, stake, new⟩])

/-- `update_unlocking_period`, token-staking-impl/src/execute.rs 189-205; denom-staking-impl/src/execute.rs 109-125. -/
def updateUnlocking (s : State) (e : Env) (new : Option Duration) : Except Err (State × List Out) :=
  if e.sender ≠ e.controller then .error .unauthorized
  else .ok ({ s with unlocking := new.getD s.unlocking }, [])

/-- One iteration of the loop of `claim`, token-staking-impl/src/execute.rs 226-230; denom-staking-impl/src/execute.rs
146-150. -/
def takeClaim (acc : State × Nat) (c : Claim) : Except Err (State × Nat) := do
  let sum ← cadd128 acc.2 c.amount
  return ({ acc.1 with claims := acc.1.claims.remove c.id }, sum)

/-- `claim`, token-staking-impl/src/execute.rs 208-244; denom-staking-impl/src/execute.rs 128-160. -/
def claim (s : State) (e : Env) (user : Option Addr) : Except Err (State × List Out) :=
  let user := user.getD e.sender
  if e.sender ≠ user then .error .unauthorized
  else do
    let (s1, sum) ← (getReleasable s e.block user).foldlM takeClaim (s, 0)
    return (s1, [.pay user sum])

/-- `Cw20HookMsg` (token-staking-api/src/msg.rs); `unknown` stands for bytes that do not parse. -/
inductive Hook
  | stake (user : Addr)
  | addStakes (stakers : List (Addr × Nat))
  | addClaims (claims : List UserClaim)
  | unknown

/-- `receive_cw20`, token-staking-impl/src/execute.rs 26-40; `stake_token` 42-69. -/
def receive (s : State) (e : Env) (amount : Nat) (h : Hook) : Except Err (State × List Out) :=
  if e.sender ≠ s.asset then .error .unauthorized
  else
    match h with
    | .stake user => stakeFor s e user amount
    | .addStakes l => addStakes s e amount l
    | .addClaims l => addTokenClaims s amount l
    | .unknown => .error .other

/-- `stake_denom`, denom-staking-impl/src/execute.rs 21-59. -/
def stakeDenom (s : State) (e : Env) (funds : List Coin) (user : Option Addr) : Except Err (State × List Out) :=
  match funds with
  | [coin] =>
    if coin.denom ≠ s.asset then .error .invalidArgument
    else stakeFor s e (user.getD e.sender) coin.amount
  | _ => .error .invalidArgument

/-- Messages of both contracts: contracts/token-staking-membership/src/contract.rs 36-54 (`token`),
contracts/denom-staking-membership/src/contract.rs 36-54 (`denom`). -/
inductive Msg
  | receive (amount : Nat) (h : Hook)
  | stakeDenom (funds : List Coin) (user : Option Addr)
  | unstake (amount : Nat)
  | claim (user : Option Addr)
  | updateUnlocking (new : Option Duration)
  | addHook (h : Addr)
  | removeHook (h : Addr)

/-- Which of the two contracts. -/
inductive Kind
  | token
  | denom
  deriving DecidableEq

/-- A message with its environment. `delivered` is false when one of the sub-messages fails. -/
structure Call where
  env : Env
  msg : Msg
  delivered : Bool

/-- `execute` of either contract; a message the contract does not know is refused. -/
def exec (k : Kind) (s : State) (e : Env) : Msg → Except Err (State × List Out)
  | .receive a h => if k = .token then receive s e a h else .error .unsupported
  | .stakeDenom f u => if k = .denom then stakeDenom s e f u else .error .unsupported
  | .unstake a => unstake s e a
  | .claim u => claim s e u
  | .updateUnlocking p => updateUnlocking s e p
  | .addHook h => do
    let m ← s.mem.addHook e h
    return ({ s with mem := m }, [])
  | .removeHook h => do
    let m ← s.mem.removeHook e h
    return ({ s with mem := m }, [])

/-- A message takes effect when it and its sub-messages succeed; otherwise everything is reverted. -/
def step (k : Kind) (s : State) (c : Call) : State × List Out :=
  match exec k s c.env c.msg with
  | .ok r => if c.delivered then r else (s, [])
  | .error _ => (s, [])

/-- State after a history. -/
def run (k : Kind) (s : State) : List Call → State
  | [] => s
  | c :: t => run k (step k s c).1 t

/-- Sub-messages sent during a history. -/
def sent (k : Kind) (s : State) : List Call → List Out
  | [] => []
  | c :: t => (step k s c).2 ++ sent k (step k s c).1 t

/-- `query_user_weight`, query.rs 35-47 of both packages. -/
def queryWeight (s : State) (u : Addr) : Nat := s.mem.weight u

/-- `query_total_weight`, query.rs 49-62 of both packages. -/
inductive At
  | height (h : Nat)
  | time (t : Nat)
  | never

/-- `query_total_weight`, query.rs 49-62 of both packages. -/
def queryTotal (s : State) : At → Nat
  | .height h => s.mem.totalAtHeight h
  | .time t => s.mem.totalAtTime t
  | .never => s.mem.total

end Verif.Staking
