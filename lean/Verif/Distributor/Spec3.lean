import Verif.Distributor.Spec
import Mathlib.Algebra.Order.Field.Rat

/-!
# Funds distributor: exact shares of the users
-/

namespace Verif.Distributor
open Verif

/-- A user's exact share of what is distributed of an asset over a history: of every accepted distribution the part that
the user's weight is of the weight of all the users, at that time. -/
def exactShare (u : Addr) (a : AssetInfo) : State → List Call → ℚ
  | _, [] => 0
  | s, c :: t =>
    (if accepted s c then (funds c a : ℚ) * effective s u / (s.effective.sum (fun _ w => w) : Nat) else 0) +
      exactShare u a (step s c).1 t

/-- What a user can lose to rounding with an accepted message: less than a unit for each change of the user's weight, for
a change of the minimum that makes the user eligible or not, and for a claim of the user for that asset; for each coin
distributed, the weight of the user over 10^18. -/
def rounding (u : Addr) (a : AssetInfo) (s : State) (e : Env) : Msg → ℚ
  | .updateWeights l => (l.filter (fun p => decide (p.1 = u))).length
  | .updateMin m => if (s.min ≤ weight s u ↔ m ≤ weight s u) then 0 else 1
  | .distributeNative l =>
    (effective s u : ℚ) * (l.filter (fun f => decide (AssetInfo.native f.1 = a))).length / 10 ^ 18
  | .receiveCw20 _ _ => if AssetInfo.cw20 e.sender = a then (effective s u : ℚ) / 10 ^ 18 else 0
  | .claim v ds ts => if v = u ∧ a ∈ ds.map AssetInfo.native ++ ts.map AssetInfo.cw20 then 1 else 0

/-- What a user can lose to rounding over a history. -/
def roundings (u : Addr) (a : AssetInfo) : State → List Call → ℚ
  | _, [] => 0
  | s, c :: t => (if accepted s c then rounding u a s c.env c.msg else 0) + roundings u a (step s c).1 t

end Verif.Distributor
