import Verif.Versioning.Model

/-!
# Versions as text (packages/enterprise-versioning-api/src/api.rs 31-66)

A string is the list of its characters.
-/

namespace Verif.Versioning
open Verif

/-- `char::to_digit(10)` (dependency). -/
def toDigit (c : Char) : Option Nat := if 48 ≤ c.toNat ∧ c.toNat ≤ 57 then some (c.toNat - 48) else none

/-- The loop of `u64::from_str_radix` (dependency): fails on a character that is no digit, and on overflow of the
product and of the sum. -/
def parseDigits : Nat → List Char → Option Nat
  | acc, [] => some acc
  | acc, c :: t =>
    match toDigit c with
    | none => none
    | some d =>
      if M64 ≤ acc * 10 then none
      else if M64 ≤ acc * 10 + d then none
      else parseDigits (acc * 10 + d) t

/-- `str::parse::<u64>` (dependency): no empty text, no lone sign; a leading plus is skipped, a minus is no digit. -/
def parseU64 : List Char → Option Nat
  | [] => none
  | c :: t =>
    if t = [] ∧ (c = '+' ∨ c = '-') then none
    else if c = '+' then parseDigits 0 t
    else parseDigits 0 (c :: t)

/-- `str::split('.')` (dependency): the parts between the dots. -/
def splitDots : List Char → List (List Char)
  | [] => [[]]
  | c :: t =>
    if c = '.' then [] :: splitDots t
    else
      match splitDots t with
      | [] => [[c]]
      | p :: ps => (c :: p) :: ps

/-- `Version::from_str`, api.rs 37-66; `none` is an error. -/
def fromStr (s : List Char) : Option Version :=
  match splitDots s with
  | [a, b, c] => do
    let major ← parseU64 a
    let minor ← parseU64 b
    let patch ← parseU64 c
    return ver major minor patch
  | _ => none

/-- The digit of a number under 10. -/
def digitChar (d : Nat) : Char := Char.ofNat (48 + d)

/-- `Display` of `u64` (dependency): decimal, without leading zeros. -/
def showU64 (n : Nat) : List Char :=
  if n < 10 then [digitChar n] else showU64 (n / 10) ++ [digitChar (n % 10)]
  decreasing_by omega

/-- `Display` of `Version`, api.rs 31-35. -/
def toStr (v : Version) : List Char :=
  showU64 (ofLex v).1 ++ '.' :: (showU64 (ofLex (ofLex v).2).1 ++ '.' :: showU64 (ofLex (ofLex v).2).2)

end Verif.Versioning
