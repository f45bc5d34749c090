import Verif.Multisig.Model

/-!
# Multisig membership: vocabulary of the property statements
-/

namespace Verif.Multisig
open Verif

/-- The message and its sub-messages succeed. -/
def accepted (s : Members) (c : Call) : Prop :=
  c.delivered = true ∧ ∃ r, exec s c.env c.msg = .ok r

/-- States of a multisig membership contract after any history. -/
def Reachable (s : Members) : Prop :=
  ∃ b w hooks x y s0 h, init b w hooks x y = .ok s0 ∧ s = run s0 h

/-- No member is listed twice. -/
def Distinct (l : List (Addr × Nat)) : Prop := (l.map (·.1)).Nodup

instance (l : List (Addr × Nat)) : Decidable (Distinct l) := inferInstanceAs (Decidable (List.Nodup _))

/-- Sum of the listed weights. -/
def listed (l : List (Addr × Nat)) : Nat := (l.map (·.2)).sum

/-- Sum of the weights the listed members have in state `s`. -/
def held (s : Members) (l : List (Addr × Nat)) : Nat := (l.map (fun p => queryWeight s p.1)).sum

/-- Replacing the weights of the listed members one after the other, the total `t` stays below 2^128. -/
def Fit (s : Members) (t : Nat) (l : List (Addr × Nat)) : Prop :=
  ∀ n, n < l.length → t + listed (l.take (n + 1)) < 2 ^ 128 + held s (l.take (n + 1))

/-- The change of `u`'s weight from `old` to `new` is among the notified ones. -/
def Notified (outs : List Out) (hook u : Addr) (old new : Nat) : Prop :=
  ∃ cs, Out.notify hook cs ∈ outs ∧ ⟨u, old, new⟩ ∈ cs

end Verif.Multisig
