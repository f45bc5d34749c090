import Verif.Treasury.Model

/-!
# Model of the funds distributor (contracts/funds-distributor/src)

The code keeps the same pair of stores, global indices and user distributions, once for native assets and once for
cw20 assets, with identical algorithms. `Ledger` models one such pair and is used twice. Addresses in messages are
validated already. `Decimal` indices are counted in units of 10^-18.
-/

namespace Verif.Distributor
open Verif

/-- `NativeDistribution` (native_distributions.rs 12-19) and `Cw20Distribution` (cw20_distributions.rs 12-19);
user and asset are the key. -/
structure Dist where
  index : Nat
  pending : Nat
  deriving DecidableEq

/-- Global indices (state.rs 11-18) and user distributions (native_distributions.rs 21-43, cw20_distributions.rs
21-43) of one kind of assets. -/
structure Ledger where
  idx : Map Nat Nat
  dist : Map (Addr ×ₗ Nat) Dist
  deriving DecidableEq

/-- Distributor state: admin and total (state.rs 4-9), minimum weight (eligibility.rs 16), weights
(user_weights.rs 18-24), and the two ledgers. -/
structure State where
  admin : Addr
  min : Nat
  weights : Map Addr Nat
  effective : Map Addr Nat
  total : Nat
  native : Ledger
  cw20 : Ledger
  deriving DecidableEq

/-- Sender, the answer of `IsRestrictedUser`, the treasury's whitelist and the factory's global whitelist. -/
structure Env where
  sender : Addr
  restricted : Addr → Bool
  treasury : Treasury.Whitelist
  global : List AssetInfo

/-- A transfer to a user (claim.rs 58-59, 94-95). -/
structure Out where
  to : Addr
  asset : AssetInfo
  amount : Nat
  deriving DecidableEq

/-- `calculate_effective_weight`, user_weights.rs 133-139. -/
def effWeight (w min : Nat) : Nat := if w ≥ min then w else 0

/-- `calculate_new_user_reward`, rewards.rs 31-41; `checked_multiply_ratio` has a 256-bit product. -/
def newReward (g i w : Nat) : Except Err Nat := do
  let diff ← csub g i
  if w * diff / ONE < M128 then .ok (w * diff / ONE) else .error .overflow

/-- `calculate_user_reward`, rewards.rs 15-27. -/
def reward (g : Nat) (d : Option Dist) (w : Nat) : Except Err Nat := do
  let x := d.getD ⟨0, 0⟩
  let r ← newReward g x.index w
  cadd128 r x.pending

/-- `Decimal::from_ratio` (`cosmwasm_std`): panics on overflow and on a zero denominator. -/
def fromRatio (num den : Nat) : Except Err Nat :=
  match checkedFromRatio num den with
  | some r => .ok r
  | none => .error .panic

namespace Ledger

/-- Global index of an asset, zero when there is none (claim.rs 42-44, distributing.rs 37-39, rewards.rs 64-66). -/
def global (L : Ledger) (a : Nat) : Nat := (L.idx.get a).getD 0

/-- One round of the loop of `update_user_native_distributions`, native_distributions.rs 64-80. -/
def settleOne (u : Addr) (w : Nat) (L : Ledger) (e : Nat × Nat) : Except Err Ledger := do
  let r ← reward e.2 (L.dist.get (toLex (u, e.1))) w
  return { L with dist := L.dist.set (toLex (u, e.1)) ⟨e.2, r⟩ }

/-- `update_user_native_distributions`, native_distributions.rs 55-83; `update_user_cw20_distributions`,
cw20_distributions.rs 55-83. -/
def settle (L : Ledger) (u : Addr) (w : Nat) : Except Err Ledger := L.idx.entries.foldlM (settleOne u w) L

/-- One round of the loops of `initialize_user_indices`, user_weights.rs 150-166 and 172-188. -/
def initOne (u : Addr) (L : Ledger) (e : Nat × Nat) : Ledger :=
  match L.dist.get (toLex (u, e.1)) with
  | none => { L with dist := L.dist.set (toLex (u, e.1)) ⟨e.2, 0⟩ }
  | some d => { L with dist := L.dist.set (toLex (u, e.1)) d }

/-- `initialize_user_indices` for one kind of assets, user_weights.rs 145-191. -/
def initUser (L : Ledger) (u : Addr) : Ledger := L.idx.entries.foldl (initOne u) L

/-- One round of the loop of `distribute_native`, distributing.rs 36-50; `distribute_cw20`, distributing.rs 67-79. -/
def distributeOne (total : Nat) (L : Ledger) (f : Nat × Nat) : Except Err Ledger := do
  let inc ← fromRatio f.2 total
  let g ← cadd128 (L.global f.1) inc
  return { L with idx := L.idx.set f.1 g }

/-- One round of the loops of `claim_rewards`, claim.rs 39-71 and 73-107: ledger and amounts to pay. -/
def claimOne (u : Addr) (w : Nat) (x : Ledger × List (Nat × Nat)) (a : Nat) : Except Err (Ledger × List (Nat × Nat)) :=
  if x.1.global a = 0 then .ok x else do
    let r ← reward (x.1.global a) (x.1.dist.get (toLex (u, a))) w
    if r = 0 then .ok x
    else .ok ({ x.1 with dist := x.1.dist.set (toLex (u, a)) ⟨x.1.global a, 0⟩ }, x.2 ++ [(a, r)])

/-- Amounts claimable by a user of weight `w`, for the listed assets, each once; rewards.rs 55-77 and 81-105. `seen`
are the assets met so far. -/
def rewards (L : Ledger) (u : Addr) (w : Nat) (seen : List Nat) : List Nat → Except Err (List (Nat × Nat))
  | [] => .ok []
  | a :: t =>
    if a ∈ seen then rewards L u w seen t else do
      let r ← reward (L.global a) (L.dist.get (toLex (u, a))) w
      let l ← rewards L u w (a :: seen) t
      return (a, r) :: l

/-- No asset distributed yet. -/
def empty : Ledger := ⟨Map.empty, Map.empty⟩

end Ledger

/-- One round of the loop of `save_initial_weights`, user_weights.rs 39-55 (`+=` on `Uint128` panics on overflow). -/
def initOne (s : State) (p : Addr × Nat) : Except Err State :=
  if s.weights.has p.1 || s.effective.has p.1 then .error .duplicate else do
    let t ← cadd128 s.total (effWeight p.2 s.min)
    return { s with
      weights := s.weights.set p.1 p.2, effective := s.effective.set p.1 (effWeight p.2 s.min), total := t }

/-- `instantiate`, contract.rs 25-47, with `save_initial_weights`, user_weights.rs 30-60. -/
def init (admin : Addr) (min : Option Nat) (weights : List (Addr × Nat)) : Except Err State :=
  weights.foldlM initOne ⟨admin, min.getD 0, Map.empty, Map.empty, 0, Ledger.empty, Ledger.empty⟩

/-- Settling the rewards of a user before a change of weight, user_weights.rs 88-112: a user without an effective
weight gets the current indices, another one has the rewards accrued with the old weight added to the pending ones. -/
def refresh (s : State) (u : Addr) : Except Err (Ledger × Ledger) :=
  match s.effective.get u with
  | none => .ok (s.native.initUser u, s.cw20.initUser u)
  | some old => do
    let n ← s.native.settle u old
    let c ← s.cw20.settle u old
    return (n, c)

/-- One round of the loop of `update_user_weights_checked`, user_weights.rs 85-124. The running total is kept in
`total`, which the code stores at the end (126). -/
def updateOne (s : State) (p : Addr × Nat) : Except Err State := do
  let ls ← refresh s p.1
  let t ← csub s.total ((s.effective.get p.1).getD 0)
  let t ← cadd128 t (effWeight p.2 s.min)
  return { s with
    native := ls.1, cw20 := ls.2, weights := s.weights.set p.1 p.2,
    effective := s.effective.set p.1 (effWeight p.2 s.min), total := t }

/-- `update_user_weights`, user_weights.rs 64-129. -/
def updateWeights (s : State) (e : Env) (l : List (Addr × Nat)) : Except Err State :=
  if e.sender ≠ s.admin then .error .unauthorized else l.foldlM updateOne s

/-- One round of the loop of `update_minimum_eligible_weight`, eligibility.rs 87-109. -/
def minOne (useActual : Bool) (s : State) (p : Addr × Nat) : Except Err State := do
  let old := (s.effective.get p.1).getD 0
  let n ← s.native.settle p.1 old
  let c ← s.cw20.settle p.1 old
  let new := if useActual then p.2 else 0
  let t ← csub s.total old
  let t ← cadd128 t new
  return { s with native := n, cw20 := c, effective := s.effective.set p.1 new, total := t }

/-- Users whose weight lies between the two minimums, eligibility.rs 53-79. -/
def affected (s : State) (old new : Nat) : List (Addr × Nat) :=
  s.weights.entries.filter (fun p =>
    if old < new then decide (old ≤ p.2) && decide (p.2 < new) else decide (new ≤ p.2) && decide (p.2 < old))

/-- `execute_update_minimum_eligible_weight` with `update_minimum_eligible_weight`, eligibility.rs 18-116. -/
def updateMin (s : State) (e : Env) (new : Nat) : Except Err State :=
  if e.sender ≠ s.admin then .error .unauthorized
  else if s.min = new then .ok s
  else do
    let s' ← (affected s s.min new).foldlM (minOne (decide (s.min > new))) s
    return { s' with min := new }

/-- The `while` loop of `assert_assets_whitelisted`, distributing.rs 122-139: assets not found so far, last asset of
the last page. The fuel bounds the number of pages; `whitelisted_iff` (Lemmas) shows it is never reached. -/
def whitelistLoop (w : Treasury.Whitelist) : Nat → List AssetInfo → Option AssetInfo → Option (List AssetInfo)
  | _, [], _ => some []
  | _, l, none => some l
  | 0, _, some _ => none
  | n + 1, l, some a =>
    let page := Treasury.queryAssets w (some a) none
    whitelistLoop w n (l.filter (fun x => decide (x ∉ page))) page.getLast?

/-- `assert_assets_whitelisted`, distributing.rs 88-146. -/
def assertWhitelisted (e : Env) (l : List AssetInfo) : Except Err Unit :=
  let page := Treasury.queryAssets e.treasury none none
  let l := l.filter (fun x => decide (x ∉ page ++ e.global))
  let fuel := e.treasury.native.size + e.treasury.cw20.size + e.treasury.cw1155.size
  match whitelistLoop e.treasury fuel l page.getLast? with
  | some [] => .ok ()
  | some _ => .error .invalidArgument
  | none => .error .other

/-- `distribute_native`, distributing.rs 22-53; `funds` are the attached coins. -/
def distributeNative (s : State) (e : Env) (funds : List (Nat × Nat)) : Except Err State := do
  assertWhitelisted e (funds.map (fun f => .native f.1))
  if s.total = 0 then .error .zero else do
    let n ← funds.foldlM (Ledger.distributeOne s.total) s.native
    return { s with native := n }

/-- `receive_cw20`, contract.rs 68-73, with `distribute_cw20`, distributing.rs 57-86; the sender is the token.
`known` says whether the attached message is `Distribute`. -/
def receiveCw20 (s : State) (e : Env) (known : Bool) (amount : Nat) : Except Err State :=
  if known = false then .error .unsupported else do
    assertWhitelisted e [.cw20 e.sender]
    if s.total = 0 then .error .zero else do
      let c ← s.cw20.distributeOne s.total (e.sender, amount)
      return { s with cw20 := c }

/-- `claim_rewards`, claim.rs 22-110. -/
def claim (s : State) (e : Env) (user : Addr) (denoms tokens : List Nat) : Except Err (State × List Out) :=
  if e.restricted user then .error .restricted
  else if e.sender ≠ user then .error .unauthorized
  else do
    let w := (s.effective.get user).getD 0
    let n ← denoms.foldlM (Ledger.claimOne user w) (s.native, [])
    let c ← tokens.foldlM (Ledger.claimOne user w) (s.cw20, [])
    return ({ s with native := n.1, cw20 := c.1 },
      n.2.map (fun p => ⟨user, .native p.1, p.2⟩) ++ c.2.map (fun p => ⟨user, .cw20 p.1, p.2⟩))

/-- `ExecuteMsg`. -/
inductive Msg
  | updateWeights (l : List (Addr × Nat))
  | updateMin (m : Nat)
  | distributeNative (funds : List (Nat × Nat))
  | claim (user : Addr) (denoms tokens : List Nat)
  | receiveCw20 (known : Bool) (amount : Nat)
  deriving DecidableEq

/-- `execute`, contract.rs 50-66. -/
def exec (s : State) (e : Env) : Msg → Except Err (State × List Out)
  | .updateWeights l => do
    let s' ← updateWeights s e l
    return (s', [])
  | .updateMin m => do
    let s' ← updateMin s e m
    return (s', [])
  | .distributeNative f => do
    let s' ← distributeNative s e f
    return (s', [])
  | .claim u d t => claim s e u d t
  | .receiveCw20 k a => do
    let s' ← receiveCw20 s e k a
    return (s', [])

/-- A message with its environment; `delivered` says whether its sub-messages (transfers) succeed. -/
structure Call where
  env : Env
  msg : Msg
  delivered : Bool

/-- A message takes effect when it and its sub-messages succeed; otherwise everything is reverted. -/
def step (s : State) (c : Call) : State × List Out :=
  match exec s c.env c.msg with
  | .ok r => if c.delivered then r else (s, [])
  | .error _ => (s, [])

/-- State after a history. -/
def run (s : State) : List Call → State
  | [] => s
  | c :: t => run (step s c).1 t

/-- `query_user_rewards`, rewards.rs 43-111: claimable native amounts and cw20 amounts. -/
def queryRewards (s : State) (u : Addr) (denoms tokens : List Nat) :
    Except Err (List (Nat × Nat) × List (Nat × Nat)) := do
  let w := (s.effective.get u).getD 0
  let n ← s.native.rewards u w [] denoms
  let c ← s.cw20.rewards u w [] tokens
  return (n, c)

end Verif.Distributor
