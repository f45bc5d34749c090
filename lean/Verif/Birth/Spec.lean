import Verif.Birth.Model
import Verif.Factory.Props
import Verif.Dao.Period

/-!
# The membership contract that a new DAO is asked to have
-/

namespace Verif.Birth
open Verif
open Verif.Dao (Member)

/-- A multisig with exactly these members and weights. -/
def Lists (l : List (Addr × Nat)) (s : Members) : Prop :=
  (∀ u n, (u, n) ∈ l → s.weight u = n) ∧ ∀ u, u ∉ l.map (·.1) → s.weight u = 0

/-- The membership contract that a creation asks for: the asset and the unlocking period of the message, and nobody has
staked anything; or the members of the message, or of the multisig named. `free` are the addresses that had no contract. -/
def Begins (e : Factory.Env) (free : Addr → Prop) : Factory.Membership → Member → Prop
  | .newDenom d u, .staking .denom s => s.asset = d ∧ s.unlocking = u ∧ ∀ a, s.mem.weight a = 0
  | .importCw20 c u, .staking .token s => s.asset = c ∧ s.unlocking = u ∧ ∀ a, s.mem.weight a = 0
  | .newCw20 _ _ _ _ _ u, .staking .token s => free s.asset ∧ s.unlocking = u ∧ ∀ a, s.mem.weight a = 0
  | .importCw721 c u, .nft s => s.nft = .cw721 c ∧ s.unlocking = u ∧ ∀ a, s.mem.weight a = 0
  | .newCw721 _ _ u, .nft s => (∃ c, s.nft = .cw721 c ∧ free c) ∧ s.unlocking = u ∧ ∀ a, s.mem.weight a = 0
  | .newIcs721 p _ u, .nft s => s.nft = .ics721 p ∧ s.unlocking = u ∧ ∀ a, s.mem.weight a = 0
  | .importCw3 c, .multisig s => ∀ M n, Factory.Answers e c M n → ∀ u, s.weight u = (M.get u).getD 0
  | .newMultisig l, .multisig s => (l.map (·.1)).Nodup ∧ Lists l s
  | _, _ => False

end Verif.Birth
