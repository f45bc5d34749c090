import Verif.Distributor.Spec

/-!
# Funds distributor: rounding losses
-/

namespace Verif.Distributor
open Verif

/-- Rounding loss of an accepted message, at most, in units of 10^-18 of the asset: less than one unit for each user whose
rewards are brought up to date or paid, and for a distribution less than the total weight for each coin. -/
def loss (s : State) (e : Env) (a : AssetInfo) : Msg → Nat
  | .updateWeights l => 10 ^ 18 * l.length
  | .updateMin m => 10 ^ 18 *
    (s.weights.entries.filter (fun p => decide (s.min ≤ p.2) != decide (m ≤ p.2))).length
  | .distributeNative l => s.total * (l.filter (fun f => decide (AssetInfo.native f.1 = a))).length
  | .receiveCw20 _ _ => if AssetInfo.cw20 e.sender = a then s.total else 0
  | .claim _ ds ts => if a ∈ ds.map AssetInfo.native ++ ts.map AssetInfo.cw20 then 10 ^ 18 else 0

/-- Rounding losses of a history. -/
def losses (a : AssetInfo) : State → List Call → Nat
  | _, [] => 0
  | s, c :: t => (if accepted s c then loss s c.env a c.msg else 0) + losses a (step s c).1 t

end Verif.Distributor
