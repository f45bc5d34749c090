import Verif.Staking.Model

/-!
# Staking: vocabulary of the property statements
-/

namespace Verif.Staking
open Verif

/-- The message and its sub-messages succeed. -/
def accepted (k : Kind) (s : State) (c : Call) : Prop :=
  c.delivered = true ∧ ∃ r, exec k s c.env c.msg = .ok r

instance (k : Kind) (s : State) (c : Call) : Decidable (accepted k s c) := by
  unfold accepted
  cases exec k s c.env c.msg with
  | ok r => exact decidable_of_iff (c.delivered = true) ⟨fun h => ⟨h, r, rfl⟩, fun h => h.1⟩
  | error e => exact isFalse (by rintro ⟨_, r, h⟩; cases h)

/-- Amount of the staked asset that a message transfers to the contract. -/
def Msg.transferred (asset : Addr) : Msg → Nat
  | .receive a _ => a
  | .stakeDenom funds _ => ((funds.filter (fun c => decide (c.denom = asset))).map (·.amount)).sum
  | _ => 0

/-- Amount of the staked asset that accepted stake and import messages of a history transferred to the contract. -/
def received (k : Kind) (s : State) : List Call → Nat
  | [] => 0
  | c :: t => (if accepted k s c then c.msg.transferred s.asset else 0) + received k (step k s c).1 t

/-- Amount of the staked asset that a list of sub-messages pays out. -/
def paid (l : List Out) : Nat := (l.map (fun o => match o with | .pay _ a => a | _ => 0)).sum

/-- Sum of all member weights. -/
def weightSum (s : State) : Nat := s.mem.weights.sum (fun _ w => w)

/-- Sum of all outstanding claims. -/
def claimSum (s : State) : Nat := s.claims.sum (fun _ c => c.amount)

/-- States of a staking contract after any history. -/
def Reachable (k : Kind) (s : State) : Prop :=
  ∃ b asset unlocking hooks byHeight bySeconds h, s = run k (init b asset unlocking hooks byHeight bySeconds) h

/-- What the entries of a list give to a user. -/
def shareOf (l : List (Addr × Nat)) (u : Addr) : Nat := ((l.filter (fun e => decide (e.1 = u))).map (·.2)).sum

/-- The sum of the entries of a list. -/
def listSum (l : List (Addr × Nat)) : Nat := (l.map (·.2)).sum

/-- The claim belongs to `u` and its release height or time is reached in block `b`. -/
def Due (u : Addr) (b : Block) (c : Claim) : Prop :=
  c.user = u ∧ ((∃ h, c.release = .height h ∧ h ≤ b.height) ∨ (∃ t, c.release = .timestamp t ∧ t ≤ b.time))

instance (u : Addr) (b : Block) (c : Claim) : Decidable (Due u b c) := by
  unfold Due
  cases c.release with
  | height h => exact decidable_of_iff (c.user = u ∧ h ≤ b.height) (by simp)
  | timestamp t => exact decidable_of_iff (c.user = u ∧ t ≤ b.time) (by simp)

/-- Sum of the claims of `u` that are due in block `b`. -/
def dueSum (s : State) (u : Addr) (b : Block) : Nat := s.claims.sum (fun _ c => if Due u b c then c.amount else 0)

/-- Heights (times) along a history do not decrease. -/
def Monotone (h : List Call) : Prop :=
  (h.map (·.env.block.height)).Pairwise (· ≤ ·) ∧ (h.map (·.env.block.time)).Pairwise (· ≤ ·)

/-- Whether the unlocking period `d` has passed at `later` for something started at `start`. -/
def Elapsed (d : Duration) (start later : Block) : Prop :=
  match d with
  | .height n => start.height + n ≤ later.height
  | .time n => start.time + n * 10 ^ 9 ≤ later.time

/-- The end of a period started at `start` fits 64 bits. -/
def Fits (d : Duration) (start : Block) : Prop :=
  match d with
  | .height n => start.height + n < 2 ^ 64
  | .time n => start.time + n * 10 ^ 9 < 2 ^ 64

instance (d : Duration) (a b : Block) : Decidable (Elapsed d a b) := by
  unfold Elapsed; cases d <;> exact Nat.decLe _ _

instance (d : Duration) (a : Block) : Decidable (Fits d a) := by
  unfold Fits; cases d <;> exact Nat.decLt _ _

/-- A list of reported changes leads from weights `w` to weights `w'`: each change names the weight at that
moment as the old one, and after all of them the weights are `w'`. -/
def Explains (w : Addr → Nat) : List WeightChange → (Addr → Nat) → Prop
  | [], w' => ∀ u, w' u = w u
  | c :: t, w' => c.old = w c.user ∧ Explains (fun u => if u = c.user then c.new else w u) t w'

end Verif.Staking
