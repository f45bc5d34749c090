import Verif.Base.Num

/-!
# Assets (`cw_asset`, dependency)
-/

namespace Verif

/-- `cw_asset::AssetInfo`. -/
inductive AssetInfo
  | native (denom : Nat)
  | cw20 (contract : Addr)
  | cw1155 (contract : Addr) (id : Nat)
  deriving DecidableEq

/-- `cw_asset::Asset`. -/
structure Asset where
  info : AssetInfo
  amount : Nat
  deriving DecidableEq

end Verif
