import Verif.Staking.Model

/-!
# NFT staking (packages/nft-staking-impl, contracts/nft-staking-membership)

Token ids are modelled as natural numbers (the code uses strings, only compared and ordered).
-/

namespace Verif.Nft
open Verif
open Verif.Staking (Duration ReleaseAt releaseAt At)

/-- `NftContractAddr`, config.rs 14-18. The class id is irrelevant to the model: the answer of the ICS721 proxy is part
of the environment. -/
inductive NftAddr
  | cw721 (contract : Addr)
  | ics721 (proxy : Addr)
  deriving DecidableEq

/-- `NftClaim` (nft-staking-api/src/api.rs). -/
structure Claim where
  id : Nat
  user : Addr
  nfts : List Nat
  release : ReleaseAt
  deriving DecidableEq

/-- Storage. `stakes` maps a token id to its staker (`NFT_STAKES`, nft_staking.rs 6-33). -/
structure State where
  mem : Members
  stakes : Map Nat Addr
  claims : Map Nat Claim
  nextClaim : Nat
  nft : NftAddr
  unlocking : Duration
  deriving DecidableEq

/-- Environment, with the answer of the ICS721 proxy (`query_ics721_proxy_nft_addr`, ics721_query.rs 5-16). -/
structure NEnv where
  env : Env
  proxyNft : Option Addr

/-- `instantiate`, instantiate.rs 11-44. -/
def init (b : Block) (nft : NftAddr) (unlocking : Duration) (hooks : List Addr)
    (byHeight bySeconds : List (Nat × Nat)) : State :=
  { mem := ((Members.empty.saveCheckpoints byHeight bySeconds).saveTotal 0 b).saveHooks hooks
    stakes := Map.empty
    claims := Map.empty
    nextClaim := 0
    nft := nft
    unlocking := unlocking }

/-- `add_claim`, claims.rs 33-52. -/
def addClaim (s : State) (user : Addr) (nfts : List Nat) (r : ReleaseAt) : Except Err State := do
  let next ← cadd64 s.nextClaim 1
  return { s with
    nextClaim := next
    claims := s.claims.set s.nextClaim ⟨s.nextClaim, user, nfts, r⟩ }

/-- `is_releasable`, claims.rs 54-59. -/
def isReleasable (c : Claim) (b : Block) : Bool :=
  match c.release with
  | .timestamp t => decide (t ≤ b.time)
  | .height h => decide (h ≤ b.height)

/-- `get_releasable_claims`, claims.rs 75-99. -/
def getReleasable (s : State) (b : Block) (user : Addr) : List Claim :=
  (s.claims.values.filter (fun c => decide (c.user = user))).filter (fun c => isReleasable c b)

/-- `stake_nft`, execute.rs 68-106. -/
def stakeNft (s : State) (e : Env) (token : Nat) (user : Addr) : Except Err (State × List Out) :=
  if e.restricted user then .error .restricted
  else if s.stakes.has token then .error .invalidArgument
  else do
    let old := s.mem.weight user
    let (m1, new) ← s.mem.incWeight user 1
    let m2 ← m1.incTotal 1 e.block
    return ({ s with stakes := s.stakes.set token user, mem := m2 }, m2.report [⟨user, old, new⟩])

/-- `add_nft_claim`, execute.rs 108-123. -/
def addNftClaim (s : State) (token : Nat) (user : Addr) (r : ReleaseAt) : Except Err (State × List Out) := do
  let s1 ← addClaim s user [token] r
  return (s1, [])

/-- `Cw721HookMsg` (nft-staking-api/src/msg.rs); `unknown` stands for bytes that do not parse. -/
inductive Hook
  | stake (user : Addr)
  | addClaim (user : Addr) (r : ReleaseAt)
  | unknown

/-- The NFT contract as `receive_nft` finds it, execute.rs 30-52. -/
def nftContract (s : State) (proxyNft : Option Addr) : Option Addr :=
  match s.nft with
  | .cw721 c => some c
  | .ics721 _ => proxyNft

/-- `receive_nft`, execute.rs 26-66. The address given by the ICS721 proxy is stored (lines 40-48). -/
def receiveNft (s : State) (e : NEnv) (token : Nat) (h : Hook) : Except Err (State × List Out) :=
  match nftContract s e.proxyNft with
  | none => .error .other
  | some c =>
    if e.env.sender ≠ c then .error .unauthorized
    else
      match h with
      | .stake user => stakeNft { s with nft := .cw721 c } e.env token user
      | .addClaim user r => addNftClaim { s with nft := .cw721 c } token user r
      | .unknown => .error .other

/-- One iteration of the loop of `unstake`, execute.rs 131-148. -/
def takeStake (user : Addr) (st : Map Nat Addr) (token : Nat) : Except Err (Map Nat Addr) :=
  match st.get token with
  | none => .error .notFound
  | some a => if a ≠ user then .error .unauthorized else .ok (st.remove token)

/-- `unstake`, execute.rs 126-175. -/
def unstake (s : State) (e : Env) (nfts : List Nat) : Except Err (State × List Out) := do
  let user := e.sender
  let old := s.mem.weight user
  let st ← nfts.foldlM (takeStake user) s.stakes
  let (m1, new) ← s.mem.decWeight user nfts.length
  let m2 ← m1.decTotal nfts.length e.block
  let s1 ← addClaim { s with stakes := st, mem := m2 } user nfts (releaseAt s.unlocking e.block)
  return (s1, m2.report [⟨user, old, new⟩])

/-- `update_unlocking_period`, execute.rs 189-205. -/
def updateUnlocking (s : State) (e : Env) (new : Option Duration) : Except Err (State × List Out) :=
  if e.sender ≠ e.controller then .error .unauthorized
  else .ok ({ s with unlocking := new.getD s.unlocking }, [])

/-- `claim`, execute.rs 208-249; `require_cw721_addr`, config.rs 23-29. -/
def claim (s : State) (e : Env) (user : Option Addr) : Except Err (State × List Out) :=
  match s.nft with
  | .ics721 _ => .error .other
  | .cw721 _ =>
    if e.sender ≠ user.getD e.sender then .error .unauthorized
    else
      let cs := getReleasable s e.block (user.getD e.sender)
      .ok ({ s with claims := cs.foldl (fun m c => m.remove c.id) s.claims },
        (cs.flatMap (·.nfts)).map (fun t => .sendNft (user.getD e.sender) t))

/-- Messages of contracts/nft-staking-membership/src/contract.rs 45-52. -/
inductive Msg
  | receiveNft (token : Nat) (h : Hook)
  | unstake (nfts : List Nat)
  | claim (user : Option Addr)
  | updateUnlocking (new : Option Duration)
  | addHook (h : Addr)
  | removeHook (h : Addr)

/-- A message with its environment. `delivered` is false when one of the sub-messages fails. -/
structure Call where
  env : NEnv
  msg : Msg
  delivered : Bool

/-- `execute`, contracts/nft-staking-membership/src/contract.rs 37-55. -/
def exec (s : State) (e : NEnv) : Msg → Except Err (State × List Out)
  | .receiveNft t h => receiveNft s e t h
  | .unstake l => unstake s e.env l
  | .claim u => claim s e.env u
  | .updateUnlocking p => updateUnlocking s e.env p
  | .addHook h => do
    let m ← s.mem.addHook e.env h
    return ({ s with mem := m }, [])
  | .removeHook h => do
    let m ← s.mem.removeHook e.env h
    return ({ s with mem := m }, [])

/-- A message takes effect when it and its sub-messages succeed; otherwise everything is reverted. -/
def step (s : State) (c : Call) : State × List Out :=
  match exec s c.env c.msg with
  | .ok r => if c.delivered then r else (s, [])
  | .error _ => (s, [])

/-- State after a history. -/
def run (s : State) : List Call → State
  | [] => s
  | c :: t => run (step s c).1 t

/-- `query_user_weight`, query.rs 110-119. -/
def queryWeight (s : State) (u : Addr) : Nat := s.mem.weight u

/-- `query_total_weight`, query.rs 121-132. -/
def queryTotal (s : State) : At → Nat
  | .height h => s.mem.totalAtHeight h
  | .time t => s.mem.totalAtTime t
  | .never => s.mem.total

/-- `get_claims`, claims.rs 61-73. -/
def getClaims (s : State) (user : Addr) : List Claim := s.claims.values.filter (fun c => decide (c.user = user))

/-- `query_staked_nfts`, query.rs 174-191. -/
def queryStaked (s : State) (after : Option Nat) (limit : Option Nat) : List Nat :=
  (s.stakes.page after (Members.limitOf limit)).map (·.1)

/-- `query_user_nft_stake`, query.rs 79-108: the tokens of one page, and the weight of the user. The index prefix is the
part of `NFT_STAKES` with this staker, in the order of token ids. -/
def queryUserStake (s : State) (user : Addr) (after : Option Nat) (limit : Option Nat) : List Nat × Nat :=
  (((s.stakes.filter (fun _ v => decide (v = user))).page after (Members.limitOf limit)).map (·.1), s.mem.weight user)

end Verif.Nft
