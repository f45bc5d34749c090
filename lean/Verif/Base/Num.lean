/-!
# Machine arithmetic

* `u64` / `u128` operators wrap: the workspace `Cargo.toml` (lines 11-25) sets `overflow-checks = false`
  for every profile.
* `Uint64` / `Uint128` (`cosmwasm_std`, dependency) operators are checked and panic; a panic reverts the message.
* `Decimal` (`cosmwasm_std`) is a 128-bit count of 10^-18 units.
-/

namespace Verif

/-- Addresses, denoms, strings: opaque identifiers. -/
abbrev Addr := Nat

/-- Errors of all the modelled contracts. `panic` stands for an abort of the wasm instance. -/
inductive Err
  | unauthorized
  | notFound
  | alreadyEnded
  | outsideVotingPeriod
  | withinVotingPeriod
  | earlyQuorum
  | earlyThreshold
  | invalidArgument
  | insufficient
  | restricted
  | duplicate
  | zero
  | overflow
  | panic
  | unsupported
  | other
  deriving DecidableEq, Repr

abbrev M64 : Nat := 2 ^ 64
abbrev M128 : Nat := 2 ^ 128

/-- `a + b` on `u64` without overflow checks. -/
def wadd64 (a b : Nat) : Nat := (a + b) % M64
/-- `a + b` on `u128` without overflow checks. -/
def wadd128 (a b : Nat) : Nat := (a + b) % M128
/-- `a - b` on `u128` without overflow checks. -/
def wsub128 (a b : Nat) : Nat := (a + (M128 - b % M128)) % M128

/-- `Uint128 + Uint128`: checked, panics on overflow. -/
def cadd128 (a b : Nat) : Except Err Nat := if a + b < M128 then .ok (a + b) else .error .overflow
/-- `Uint128 - Uint128`: checked, panics on underflow. -/
def csub (a b : Nat) : Except Err Nat := if b ≤ a then .ok (a - b) else .error .overflow
/-- `Uint64 + Uint64`: checked, panics on overflow. -/
def cadd64 (a b : Nat) : Except Err Nat := if a + b < M64 then .ok (a + b) else .error .overflow

/-- One, in units of 10^-18 (`Decimal::one`). -/
abbrev ONE : Nat := 10 ^ 18

/-- `Decimal::checked_from_ratio`: rounds down, errors on a zero denominator or on overflow. -/
def checkedFromRatio (num den : Nat) : Option Nat :=
  if den = 0 then none
  else
    let r := num * ONE / den
    if r < M128 then some r else none

theorem wadd128_lt (a b : Nat) : wadd128 a b < M128 := Nat.mod_lt _ (by decide)
theorem wsub128_lt (a b : Nat) : wsub128 a b < M128 := Nat.mod_lt _ (by decide)

theorem wadd128_mod_left (a b : Nat) : wadd128 (a % M128) b = wadd128 a b := by
  unfold wadd128 M128; omega

theorem wadd128_of_lt {a b : Nat} (h : a + b < M128) : wadd128 a b = a + b :=
  Nat.mod_eq_of_lt h

theorem wadd64_of_lt {a b : Nat} (h : a + b < M64) : wadd64 a b = a + b :=
  Nat.mod_eq_of_lt h

/-- Subtracting (with wrap) a summand of a wrapped sum gives the rest of the sum. -/
theorem wsub128_mod_add (a b : Nat) : wsub128 ((a + b) % M128) b = a % M128 := by
  unfold wsub128 M128; omega

theorem wsub128_of_le {a b : Nat} (h : b ≤ a) (ha : a < M128) : wsub128 a b = a - b := by
  unfold wsub128; unfold M128 at *; omega

@[simp] theorem cadd128_ok {a b c : Nat} : cadd128 a b = .ok c ↔ a + b < M128 ∧ c = a + b := by
  unfold cadd128; split <;> simp [*, eq_comm] <;> omega

@[simp] theorem csub_ok {a b c : Nat} : csub a b = .ok c ↔ b ≤ a ∧ c = a - b := by
  unfold csub; split <;> simp [*, eq_comm] <;> omega

@[simp] theorem cadd64_ok {a b c : Nat} : cadd64 a b = .ok c ↔ a + b < M64 ∧ c = a + b := by
  unfold cadd64; split <;> simp [*, eq_comm] <;> omega

end Verif
