import Mathlib.Data.Prod.Lex
import Verif.Base.Asset
import Verif.Base.Map
import Verif.Base.Paging

/-!
# Model of the treasury (contracts/enterprise-treasury/src), without the migration of old DAOs
-/

namespace Verif.Treasury
open Verif

/-- The three asset whitelist stores, asset_whitelist.rs 8-10. -/
structure Whitelist where
  native : Map Nat Unit
  cw20 : Map Addr Unit
  cw1155 : Map (Addr ×ₗ Nat) Unit
  deriving DecidableEq

/-- Treasury state: admin (state.rs 7-12), asset whitelist, NFT whitelist (state.rs 5). -/
structure State where
  admin : Addr
  assets : Whitelist
  nfts : Map Addr Unit
  deriving DecidableEq

/-- One round of `add_whitelisted_assets_checked`, asset_whitelist.rs 28-39. -/
def addAsset (w : Whitelist) : AssetInfo → Except Err Whitelist
  | .native d => .ok { w with native := w.native.set d () }
  | .cw20 a => .ok { w with cw20 := w.cw20.set a () }
  | .cw1155 _ _ => .error .unsupported

/-- `add_whitelisted_assets`, asset_whitelist.rs 12-42 (addresses are valid). -/
def addAssets (w : Whitelist) (l : List AssetInfo) : Except Err Whitelist := l.foldlM addAsset w

/-- One round of `remove_whitelisted_assets`, asset_whitelist.rs 48-61. -/
def removeAsset (w : Whitelist) : AssetInfo → Whitelist
  | .native d => { w with native := w.native.remove d }
  | .cw20 a => { w with cw20 := w.cw20.remove a }
  | .cw1155 a i => { w with cw1155 := w.cw1155.remove (toLex (a, i)) }

/-- `remove_whitelisted_assets`, asset_whitelist.rs 44-64 (addresses are valid). -/
def removeAssets (w : Whitelist) (l : List AssetInfo) : Whitelist := l.foldl removeAsset w

/-- `instantiate`, contract.rs 63-87. -/
def init (admin : Addr) (assets : List AssetInfo) (nfts : List Addr) : Except Err State := do
  let w ← addAssets ⟨Map.empty, Map.empty, Map.empty⟩ assets
  return ⟨admin, w, nfts.foldl (fun m a => m.set a ()) Map.empty⟩

/-- Messages sent by the treasury. A `cosmos` message is one given by the admin, kept opaque. -/
inductive Out
  | bankSend (to : Addr) (denom amount : Nat)
  | cw20Transfer (token to : Addr) (amount : Nat)
  | cw20SendDistribute (token to : Addr) (amount : Nat)
  | distributeNative (to : Addr) (coins : List (Nat × Nat))
  | cosmos (msg : Nat)
  deriving DecidableEq

/-- `set_admin`, contract.rs 112-125. -/
def setAdmin (s : State) (sender newAdmin : Addr) : Except Err (State × List Out) :=
  if sender ≠ s.admin then .error .unauthorized else .ok ({ s with admin := newAdmin }, [])

/-- `update_asset_whitelist`, contract.rs 127-137. -/
def updateAssets (s : State) (sender : Addr) (add remove : List AssetInfo) : Except Err (State × List Out) :=
  if sender ≠ s.admin then .error .unauthorized else do
    let w ← addAssets s.assets add
    return ({ s with assets := removeAssets w remove }, [])

/-- `update_nft_whitelist`, contract.rs 139-156. -/
def updateNfts (s : State) (sender : Addr) (add remove : List Addr) : Except Err (State × List Out) :=
  if sender ≠ s.admin then .error .unauthorized else
    let m := add.foldl (fun m a => m.set a ()) s.nfts
    .ok ({ s with nfts := remove.foldl (fun m a => m.remove a) m }, [])

/-- `Asset::transfer_msg` (cw-asset): not available for cw1155 (contract.rs 161). -/
def transferMsg (to : Addr) (a : Asset) : Except Err Out :=
  match a.info with
  | .native d => .ok (.bankSend to d a.amount)
  | .cw20 t => .ok (.cw20Transfer t to a.amount)
  | .cw1155 _ _ => .error .unsupported

/-- `spend`, contract.rs 158-173. -/
def spend (s : State) (sender recipient : Addr) (assets : List Asset) : Except Err (State × List Out) :=
  if sender ≠ s.admin then .error .unauthorized else do
    let outs ← assets.mapM (transferMsg recipient)
    return (s, outs)

/-- One round of the loop of `distribute_funds`, contract.rs 189-209: native funds and sub-messages so far. -/
def distributeOne (to : Addr) (x : List (Nat × Nat) × List Out) (a : Asset) :
    Except Err (List (Nat × Nat) × List Out) :=
  match a.info with
  | .native d => .ok (x.1 ++ [(d, a.amount)], x.2)
  | .cw20 t => .ok (x.1, x.2 ++ [.cw20SendDistribute t to a.amount])
  | .cw1155 _ _ => .error .unsupported

/-- `distribute_funds`, contract.rs 175-220; `to` is the funds distributor. -/
def distribute (s : State) (sender to : Addr) (funds : List Asset) : Except Err (State × List Out) :=
  if sender ≠ s.admin then .error .unauthorized else do
    let r ← funds.foldlM (distributeOne to) ([], [])
    return (s, if r.1.isEmpty then r.2 else r.2 ++ [.distributeNative to r.1])

/-- `execute_cosmos_msgs`, contract.rs 222-237; `none` is a message that does not parse. -/
def cosmosMsgs (s : State) (sender : Addr) (msgs : List (Option Nat)) : Except Err (State × List Out) :=
  if sender ≠ s.admin then .error .unauthorized else do
    let outs ← msgs.mapM (fun
      | some m => .ok (Out.cosmos m)
      | none => .error Err.invalidArgument)
    return (s, outs)

/-- `ExecuteMsg` without `PerformNextMigrationStep`, which is modelled in Verif/Migration/Model.lean; treasuries made by
the factory refuse it (C129). -/
inductive Msg
  | setAdmin (a : Addr)
  | updateAssets (add remove : List AssetInfo)
  | updateNfts (add remove : List Addr)
  | spend (recipient : Addr) (assets : List Asset)
  | distribute (to : Addr) (funds : List Asset)
  | cosmosMsgs (msgs : List (Option Nat))
  deriving DecidableEq

/-- `execute`, contract.rs 90-110. -/
def exec (s : State) (sender : Addr) : Msg → Except Err (State × List Out)
  | .setAdmin a => setAdmin s sender a
  | .updateAssets a r => updateAssets s sender a r
  | .updateNfts a r => updateNfts s sender a r
  | .spend to l => spend s sender to l
  | .distribute to l => distribute s sender to l
  | .cosmosMsgs l => cosmosMsgs s sender l

/-- A message with its sender; `delivered` says whether its sub-messages succeed. -/
structure Call where
  sender : Addr
  msg : Msg
  delivered : Bool

/-- A message takes effect when it and its sub-messages succeed; otherwise everything is reverted. -/
def step (s : State) (c : Call) : State × List Out :=
  match exec s c.sender c.msg with
  | .ok r => if c.delivered then r else (s, [])
  | .error _ => (s, [])

/-- State after a history. -/
def run (s : State) : List Call → State
  | [] => s
  | c :: t => run (step s c).1 t

/-- `get_whitelisted_assets_starting_with_cw1155`, asset_whitelist.rs 120-136. -/
def fromCw1155 (w : Whitelist) (after : Option (Addr ×ₗ Nat)) (limit : Nat) : List AssetInfo :=
  (w.cw1155.page after limit).map (fun e => .cw1155 (ofLex e.1).1 (ofLex e.1).2)

/-- `get_whitelisted_assets_starting_with_cw20`, asset_whitelist.rs 93-118. -/
def fromCw20 (w : Whitelist) (after : Option Addr) (limit : Nat) : List AssetInfo :=
  let l := (w.cw20.page after limit).map (fun e => AssetInfo.cw20 e.1)
  if l.length < limit then l ++ fromCw1155 w none (limit - l.length) else l

/-- `get_whitelisted_assets_starting_with_native`, asset_whitelist.rs 66-91. -/
def fromNative (w : Whitelist) (after : Option Nat) (limit : Nat) : List AssetInfo :=
  let l := (w.native.page after limit).map (fun e => AssetInfo.native e.1)
  if l.length < limit then l ++ fromCw20 w none (limit - l.length) else l

/-- Page size, contract.rs 59-60 and 285-288. -/
def limitOf (l : Option Nat) : Nat := min (l.getD 30) 100

/-- `query_asset_whitelist`, contract.rs 281-310. -/
def queryAssets (w : Whitelist) (after : Option AssetInfo) (limit : Option Nat) : List AssetInfo :=
  match after with
  | some (.native d) => fromNative w (some d) (limitOf limit)
  | some (.cw20 a) => fromCw20 w (some a) (limitOf limit)
  | some (.cw1155 a i) => fromCw1155 w (some (toLex (a, i))) (limitOf limit)
  | none => fromNative w none (limitOf limit)

/-- `query_nft_whitelist`, contract.rs 312-336. -/
def queryNfts (s : State) (after : Option Addr) (limit : Option Nat) : List Addr :=
  (s.nfts.page after (limitOf limit)).map (·.1)

end Verif.Treasury
