import Verif.Base.Except
import Verif.Base.Map
import Verif.Base.Num
import Mathlib.Order.Nat

/-!
# A ledger of one fungible asset

The balances of one cw20 token (`cw20-base`, dependency) or of one denom (the bank module of the chain). This is a model
of the environment, not of code in the repository; it is used to state that the contracts can pay what they owe.
-/

namespace Verif

/-- Balances; an account without entry has balance 0. -/
abbrev Ledger := Map Addr Nat

namespace Ledger

/-- Balance of an account. -/
def bal (l : Ledger) (a : Addr) : Nat := (l.get a).getD 0

/-- Sum of all balances. -/
def supply (l : Ledger) : Nat := l.sum (fun _ n => n)

/-- A transfer: `execute_transfer` of cw20-base, or a bank send. It fails without funds; balances are `Uint128`, whose
additions are checked. -/
def transfer (l : Ledger) (src dst : Addr) (a : Nat) : Except Err Ledger := do
  let b ← csub (bal l src) a
  let l1 := l.set src b
  let c ← cadd128 (bal l1 dst) a
  pure (l1.set dst c)

/-- Minting, refused above a supply of 2^128 - 1. -/
def mint (l : Ledger) (dst : Addr) (a : Nat) : Except Err Ledger := do
  let _ ← cadd128 (supply l) a
  pure (l.set dst (bal l dst + a))

/-- Burning of own funds. -/
def burn (l : Ledger) (src : Addr) (a : Nat) : Except Err Ledger := do
  let b ← csub (bal l src) a
  pure (l.set src b)

theorem bal_set (l : Ledger) (x y : Addr) (n : Nat) : bal (l.set x n) y = if x = y then n else bal l y := by
  unfold bal
  rw [Map.get_set]
  split <;> rfl

theorem supply_set (l : Ledger) (x : Addr) (n : Nat) : supply (l.set x n) + bal l x = supply l + n := by
  have := Map.sum_set l (fun _ n => n) x n
  unfold supply bal
  cases h : l.get x with
  | none => rw [h] at this; simpa using this
  | some v => rw [h] at this; simpa using this

theorem bal_le_supply (l : Ledger) (x : Addr) : bal l x ≤ supply l := by
  have := Map.contrib_le_sum l (fun _ n => n) x
  unfold bal supply
  cases h : l.get x with
  | none => simp
  | some v => rw [h] at this; simpa using this

/-- As long as the supply fits 128 bits, a transfer succeeds exactly with enough funds. -/
theorem transfer_ok_iff {l l' : Ledger} (hs : supply l < 2 ^ 128) {src dst : Addr} {a : Nat} :
    transfer l src dst a = .ok l' ↔ a ≤ bal l src ∧
      l' = (l.set src (bal l src - a)).set dst (bal (l.set src (bal l src - a)) dst + a) := by
  unfold transfer
  simp only [bind_ok_iff, csub_ok, cadd128_ok, pure_ok_iff]
  constructor
  · rintro ⟨b, ⟨h1, rfl⟩, c, ⟨_, rfl⟩, rfl⟩; exact ⟨h1, rfl⟩
  · rintro ⟨h1, rfl⟩
    refine ⟨_, ⟨h1, rfl⟩, _, ⟨?_, rfl⟩, rfl⟩
    have h2 := bal_le_supply (l.set src (bal l src - a)) dst
    have h3 := supply_set l src (bal l src - a)
    unfold M128
    omega

/-- What a transfer does to balances and supply. -/
theorem transfer_effect {l l' : Ledger} {src dst : Addr} {a : Nat} (h : transfer l src dst a = .ok l') :
    a ≤ bal l src ∧ supply l' = supply l ∧
    (src = dst → ∀ x, bal l' x = bal l x) ∧
    (src ≠ dst → bal l' src = bal l src - a ∧ bal l' dst = bal l dst + a ∧
      ∀ x, x ≠ src → x ≠ dst → bal l' x = bal l x) := by
  unfold transfer at h
  simp only [bind_ok_iff, csub_ok, cadd128_ok, pure_ok_iff] at h
  obtain ⟨b, ⟨h1, rfl⟩, c, ⟨_, rfl⟩, rfl⟩ := h
  have h3 := supply_set l src (bal l src - a)
  have h4 := supply_set (l.set src (bal l src - a)) dst (bal (l.set src (bal l src - a)) dst + a)
  refine ⟨h1, by omega, ?_, ?_⟩
  · rintro rfl x
    simp only [bal_set]
    split
    · rename_i hx; subst hx; simp only [if_true]; omega
    · rfl
  · intro hne
    simp only [bal_set]
    have hne' : ¬ dst = src := fun hh => hne hh.symm
    refine ⟨?_, ?_, ?_⟩
    · simp [hne']
    · simp [hne]
    · intro x h5 h6
      rw [if_neg (fun hh => h6 hh.symm), if_neg (fun hh => h5 hh.symm)]

theorem mint_effect {l l' : Ledger} {dst : Addr} {a : Nat} (h : mint l dst a = .ok l') :
    supply l' = supply l + a ∧ supply l' < 2 ^ 128 ∧ bal l' dst = bal l dst + a ∧
      ∀ x, x ≠ dst → bal l' x = bal l x := by
  unfold mint at h
  simp only [bind_ok_iff, cadd128_ok, pure_ok_iff] at h
  obtain ⟨b, ⟨h1, rfl⟩, rfl⟩ := h
  have h3 := supply_set l dst (bal l dst + a)
  unfold M128 at h1
  refine ⟨by omega, by omega, by rw [bal_set, if_pos rfl], fun x hx => ?_⟩
  rw [bal_set, if_neg (fun hh => hx hh.symm)]

theorem burn_effect {l l' : Ledger} {src : Addr} {a : Nat} (h : burn l src a = .ok l') :
    supply l' ≤ supply l ∧ bal l' src ≤ bal l src ∧ ∀ x, x ≠ src → bal l' x = bal l x := by
  unfold burn at h
  simp only [bind_ok_iff, csub_ok, pure_ok_iff] at h
  obtain ⟨b, ⟨h1, rfl⟩, rfl⟩ := h
  have h3 := supply_set l src (bal l src - a)
  refine ⟨by omega, by rw [bal_set, if_pos rfl]; omega, fun x hx => ?_⟩
  rw [bal_set, if_neg (fun hh => hx hh.symm)]

end Ledger

end Verif
