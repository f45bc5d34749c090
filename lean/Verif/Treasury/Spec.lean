import Verif.Treasury.Model

/-!
# Treasury: vocabulary of the property statements
-/

namespace Verif.Treasury
open Verif

/-- The asset is on the whitelist. -/
def Whitelist.Has (w : Whitelist) : AssetInfo → Prop
  | .native d => w.native.has d = true
  | .cw20 a => w.cw20.has a = true
  | .cw1155 a i => w.cw1155.has (toLex (a, i)) = true

instance (w : Whitelist) (a : AssetInfo) : Decidable (w.Has a) := by
  unfold Whitelist.Has
  cases a <;> infer_instance

/-- A cw1155 asset. -/
def _root_.Verif.AssetInfo.isCw1155 : AssetInfo → Bool
  | .cw1155 _ _ => true
  | _ => false

/-- Amount of native `denom` that a message moves out of the treasury to `to`. -/
def movedNative (to : Addr) (denom : Nat) : Out → Nat
  | .bankSend t d a => if t = to ∧ d = denom then a else 0
  | .distributeNative t l => if t = to then (l.map (fun c => if c.1 = denom then c.2 else 0)).sum else 0
  | _ => 0

/-- Amount of cw20 `token` that a message moves out of the treasury to `to`. -/
def movedCw20 (to token : Addr) : Out → Nat
  | .cw20Transfer t r a => if r = to ∧ t = token then a else 0
  | .cw20SendDistribute t r a => if r = to ∧ t = token then a else 0
  | _ => 0

/-- Amount of asset `i` in a list of assets. -/
def amountOf (i : AssetInfo) (l : List Asset) : Nat := (l.map (fun a => if a.info = i then a.amount else 0)).sum

end Verif.Treasury
