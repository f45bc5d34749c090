import Verif.Distributor.Model
import Verif.Treasury.Spec

/-!
# Funds distributor: vocabulary of the property statements
-/

namespace Verif.Distributor
open Verif

/-- The message and its sub-messages succeed. -/
def accepted (s : State) (c : Call) : Prop := c.delivered = true ∧ ∃ r, exec s c.env c.msg = .ok r

instance (s : State) (c : Call) : Decidable (accepted s c) :=
  match h : exec s c.env c.msg with
  | .ok r => if hd : c.delivered = true then isTrue ⟨hd, r, h⟩ else isFalse (fun x => hd x.1)
  | .error e => isFalse (fun x => by obtain ⟨_, r, hr⟩ := x; rw [h] at hr; cases hr)

/-- States of a funds distributor after any history. -/
def Reachable (s : State) : Prop := ∃ a m w s0 h, init a m w = .ok s0 ∧ s = run s0 h

/-- What the reward query answers for one user and one asset; zero when it answers nothing. -/
def claimable (s : State) (u : Addr) : AssetInfo → Nat
  | .native d => match queryRewards s u [d] [] with
    | .ok ([(_, n)], _) => n
    | _ => 0
  | .cw20 t => match queryRewards s u [] [t] with
    | .ok (_, [(_, n)]) => n
    | _ => 0
  | .cw1155 _ _ => 0

/-- Amount of an asset that the messages pay to a user. -/
def paid (u : Addr) (a : AssetInfo) (outs : List Out) : Nat :=
  (outs.map (fun o => if o.to = u ∧ o.asset = a then o.amount else 0)).sum

/-- Amount of an asset handed to the distributor by a message. -/
def funds (c : Call) (a : AssetInfo) : Nat :=
  match c.msg with
  | .distributeNative l => (l.map (fun f => if AssetInfo.native f.1 = a then f.2 else 0)).sum
  | .receiveCw20 _ n => if AssetInfo.cw20 c.env.sender = a then n else 0
  | _ => 0

/-- Amount of an asset paid to a user over a history. -/
def claimed (u : Addr) (a : AssetInfo) : State → List Call → Nat
  | _, [] => 0
  | s, c :: t => paid u a (step s c).2 + claimed u a (step s c).1 t

/-- Amount of an asset distributed over a history: that of the accepted messages. -/
def distributed (a : AssetInfo) : State → List Call → Nat
  | _, [] => 0
  | s, c :: t => (if accepted s c then funds c a else 0) + distributed a (step s c).1 t

/-- Last weight reported for a user. -/
def weight (s : State) (u : Addr) : Nat := (s.weights.get u).getD 0

/-- Weight that counts for rewards. -/
def effective (s : State) (u : Addr) : Nat := (s.effective.get u).getD 0

/-- The asset may be distributed: it is whitelisted by the treasury or globally. -/
def Allowed (e : Env) (a : AssetInfo) : Prop := e.treasury.Has a ∨ a ∈ e.global

end Verif.Distributor
