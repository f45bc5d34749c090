import Verif.Base.Rename
import Verif.Membership.Model
import Verif.Membership.Rename

/-!
# Membership contracts with the clock set forward
-/

set_option linter.unusedSimpArgs false

namespace Verif

/-- How far the clock is set forward: a number of blocks, and a time in nanoseconds. -/
structure Forward where
  blocks : Nat
  nanos : Nat
  deriving DecidableEq

/-- The time is a whole number of seconds. -/
def Forward.Whole (d : Forward) : Prop := 10 ^ 9 ∣ d.nanos

/-- The block with the clock set forward. -/
def Block.fwd (d : Forward) (b : Block) : Block := ⟨b.height + d.blocks, b.time + d.nanos⟩

/-- The environment with the clock set forward. -/
def Env.fwd (d : Forward) (e : Env) : Env := { e with block := e.block.fwd d }

/-- Checkpoints (weight, height or second) moved by a number of blocks or seconds. -/
def cpFwd (n : Nat) (l : List (Nat × Nat)) : List (Nat × Nat) := l.map (fun p => (p.1, p.2 + n))

theorem Block.fwd_seconds {d : Forward} (hd : d.Whole) (b : Block) : (b.fwd d).seconds = b.seconds + d.nanos / 10 ^ 9 := by
  obtain ⟨k, hk⟩ := hd
  unfold Block.seconds Block.fwd
  dsimp only
  rw [hk]
  omega

namespace Map
variable {V : Type}

/-- The same values, every key raised by `n`. -/
def up (m : Map Nat V) (n : Nat) : Map Nat V :=
  ⟨m.entries.map (fun e => (e.1 + n, e.2)), by
    have := m.sorted
    unfold SortedL at *
    rw [List.pairwise_map]
    exact this.imp (fun h => Nat.add_lt_add_right h n)⟩

theorem get_up (m : Map Nat V) (n k : Nat) : (m.up n).get (k + n) = m.get k := by
  have h : ∀ v, (m.up n).get (k + n) = some v ↔ m.get k = some v := by
    intro v
    rw [get_eq_some_iff, get_eq_some_iff]
    show (k + n, v) ∈ m.entries.map (fun e => (e.1 + n, e.2)) ↔ _
    rw [List.mem_map]
    constructor
    · rintro ⟨⟨a, w⟩, ha, he⟩
      simp only [Prod.mk.injEq] at he
      obtain ⟨h1, rfl⟩ := he
      obtain rfl : a = k := by omega
      exact ha
    · exact fun hm => ⟨_, hm, rfl⟩
  cases h1 : m.get k with
  | some v => exact (h v).2 h1
  | none =>
    cases h2 : (m.up n).get (k + n) with
    | none => rfl
    | some v => rw [(h v).1 h2] at h1; cases h1

theorem get_up_low (m : Map Nat V) {n k : Nat} (hk : k < n) : (m.up n).get k = none := by
  cases h2 : (m.up n).get k with
  | none => rfl
  | some v =>
    have := get_eq_some_iff.1 h2
    obtain ⟨⟨a, w⟩, _, he⟩ := List.mem_map.1 this
    simp only [Prod.mk.injEq] at he
    omega

theorem has_up (m : Map Nat V) (n k : Nat) : (m.up n).has (k + n) = m.has k := by
  unfold has
  rw [get_up]

theorem up_set (m : Map Nat V) (n k : Nat) (v : V) : (m.set k v).up n = (m.up n).set (k + n) v := by
  refine ext_get fun j => ?_
  by_cases hj : j < n
  · rw [get_up_low _ hj, get_set, if_neg (by omega), get_up_low _ hj]
  · obtain ⟨i, rfl⟩ : ∃ i, j = i + n := ⟨j - n, by omega⟩
    rw [get_up, get_set, get_set, get_up]
    by_cases h : k = i
    · rw [if_pos h, if_pos (by omega)]
    · rw [if_neg h, if_neg (by omega)]

end Map

namespace Snap

/-- The history of a value with every height raised by `n`. -/
def up (s : Snap) (n : Nat) : Snap := ⟨s.cur, s.log.up n⟩

theorem up_save (s : Snap) (v h n : Nat) : (s.save v h).up n = (s.up n).save v (h + n) := by
  unfold save up
  dsimp only
  rw [Map.has_up]
  split
  · rfl
  · rw [Map.up_set]

theorem up_saves (n : Nat) : ∀ (l : List (Nat × Nat)) (s : Snap), (s.saves l).up n = (s.up n).saves (cpFwd n l)
  | [], _ => rfl
  | e :: t, s => by
    show ((s.save e.1 e.2).saves t).up n = ((s.up n).save e.1 (e.2 + n)).saves (cpFwd n t)
    rw [up_saves n t, up_save]

theorem up_loadAt (s : Snap) (n h : Nat) : (s.up n).loadAt (h + n) = s.loadAt h := by
  unfold loadAt mayLoadAt up
  dsimp only
  show ((match (s.log.entries.map (fun e : Nat × Option Nat => (e.1 + n, e.2))).find? (fun e : Nat × Option Nat => decide (h + n ≤ e.1)) with | some e => e.2 | none => s.cur)).getD 0 = _
  rw [List.find?_map]
  have : ((fun e : Nat × Option Nat => decide (h + n ≤ e.1)) ∘ (fun e : Nat × Option Nat => (e.1 + n, e.2))) =
      fun e : Nat × Option Nat => decide (h ≤ e.1) := by
    funext e
    simp
  rw [this]
  cases s.log.entries.find? (fun e => decide (h ≤ e.1)) <;> rfl

end Snap

namespace Members

/-- Members whose history of totals is moved forward. -/
def fwd (d : Forward) (m : Members) : Members :=
  { m with byHeight := m.byHeight.up d.blocks, bySeconds := m.bySeconds.up (d.nanos / 10 ^ 9) }

theorem fwd_saveTotal {d : Forward} (hd : d.Whole) (m : Members) (w : Nat) (b : Block) :
    (m.fwd d).saveTotal w (b.fwd d) = (m.saveTotal w b).fwd d := by
  unfold saveTotal fwd
  rw [Block.fwd_seconds hd, Snap.up_save, Snap.up_save]
  rfl

theorem fwd_incTotal {d : Forward} (hd : d.Whole) (m : Members) (a : Nat) (b : Block) :
    (m.fwd d).incTotal a (b.fwd d) = (m.incTotal a b).map (fwd d) := by
  unfold incTotal
  rw [show (m.fwd d).total = m.total from rfl]
  cases cadd128 m.total a with
  | error e => rfl
  | ok w => exact congrArg Except.ok (fwd_saveTotal hd m w b)

theorem fwd_decTotal {d : Forward} (hd : d.Whole) (m : Members) (a : Nat) (b : Block) :
    (m.fwd d).decTotal a (b.fwd d) = (m.decTotal a b).map (fwd d) := by
  unfold decTotal
  rw [show (m.fwd d).total = m.total from rfl]
  cases csub m.total a with
  | error e => rfl
  | ok w => exact congrArg Except.ok (fwd_saveTotal hd m w b)

theorem fwd_incWeight (d : Forward) (m : Members) (u : Addr) (a : Nat) :
    (m.fwd d).incWeight u a = (m.incWeight u a).map (fun r => (r.1.fwd d, r.2)) := by
  unfold incWeight
  rw [show (m.fwd d).weight u = m.weight u from rfl]
  cases cadd128 (m.weight u) a <;> rfl

theorem fwd_decWeight (d : Forward) (m : Members) (u : Addr) (a : Nat) :
    (m.fwd d).decWeight u a = (m.decWeight u a).map (fun r => (r.1.fwd d, r.2)) := by
  unfold decWeight
  rw [show (m.fwd d).weight u = m.weight u from rfl]
  cases csub (m.weight u) a <;> rfl

theorem fwd_checkpoints (d : Forward) (m : Members) (bh bs : List (Nat × Nat)) :
    (m.saveCheckpoints bh bs).fwd d = (m.fwd d).saveCheckpoints (cpFwd d.blocks bh) (cpFwd (d.nanos / 10 ^ 9) bs) := by
  unfold saveCheckpoints fwd
  rw [Snap.up_saves, Snap.up_saves]

theorem fwd_addHook (d : Forward) (m : Members) (e : Env) (h : Addr) :
    (m.fwd d).addHook (e.fwd d) h = (m.addHook e h).map (fwd d) := by
  unfold addHook Env.fwd
  by_cases hc : e.sender = e.controller
  · simp [hc, Except.map]
    rfl
  · simp [hc, Except.map]

theorem fwd_removeHook (d : Forward) (m : Members) (e : Env) (h : Addr) :
    (m.fwd d).removeHook (e.fwd d) h = (m.removeHook e h).map (fwd d) := by
  unfold removeHook Env.fwd
  by_cases hc : e.sender = e.controller
  · simp [hc, Except.map]
    rfl
  · simp [hc, Except.map]

theorem fwd_totalAtHeight (d : Forward) (m : Members) (h : Nat) : (m.fwd d).totalAtHeight (h + d.blocks) = m.totalAtHeight h :=
  Snap.up_loadAt m.byHeight d.blocks h

theorem fwd_totalAtTime {d : Forward} (hd : d.Whole) (m : Members) (t : Nat) :
    (m.fwd d).totalAtTime (t + d.nanos) = m.totalAtTime t := by
  have := Block.fwd_seconds hd ⟨0, t⟩
  unfold Block.seconds Block.fwd at this
  dsimp only at this
  unfold totalAtTime
  rw [this]
  exact Snap.up_loadAt m.bySeconds _ _

end Members

end Verif
