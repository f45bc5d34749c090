import Verif.Membership.Model

/-!
# The member query shared by the membership contracts
-/

namespace Verif.Members
open Verif

theorem limitOf_pos {l : Option Nat} (h : l ≠ some 0) : 0 < limitOf l := by
  unfold limitOf
  cases l with
  | none => simp
  | some n =>
    have : n ≠ 0 := fun hn => h (by rw [hn])
    simp only [Option.getD_some]
    omega

/-- Paging through the members gives the stored entries. -/
theorem queryMembers_all (m : Members) {limit : Option Nat} (hl : limit ≠ some 0) :
    (∃ ps, Reads (fun a => m.queryMembers a limit) (·.1) none ps) ∧
    ∀ ps, Reads (fun a => m.queryMembers a limit) (·.1) none ps → ps.flatten = m.weights.entries := by
  have h := reads_all (m := m.weights) (g := fun e => (e.1, e.2)) (cur := fun x => x.1) (fun _ _ => rfl) (limitOf_pos hl)
  refine ⟨h.1, fun ps hps => ?_⟩
  rw [h.2 ps hps]
  simp

/-- What a client learns by paging through the members: every member of the store once, with the weight that the
weight query gives, and nobody else has a weight. -/
theorem queryMembers_spec (m : Members) {limit : Option Nat} (hl : limit ≠ some 0) {ps : List (List (Addr × Nat))}
    (h : Reads (fun a => m.queryMembers a limit) (·.1) none ps) :
    (ps.flatten.map (·.1)).Nodup ∧ (∀ p ∈ ps.flatten, m.weight p.1 = p.2) ∧
    (∀ u, m.weight u ≠ 0 → (u, m.weight u) ∈ ps.flatten) ∧
    (ps.flatten.map (·.2)).sum = m.weights.sum (fun _ w => w) := by
  rw [(m.queryMembers_all hl).2 ps h]
  refine ⟨m.weights.nodup_keys, fun p hp => ?_, fun u hu => ?_, rfl⟩
  · unfold weight
    rw [Map.get_eq_some_iff.2 (show (p.1, p.2) ∈ m.weights.entries from hp)]
    rfl
  · unfold weight at hu ⊢
    cases hg : m.weights.get u with
    | none => rw [hg] at hu; exact absurd rfl hu
    | some w => exact Map.get_eq_some_iff.1 hg

/-- Pages have at most 100 members, 50 unless asked otherwise. -/
theorem queryMembers_length (m : Members) (a : Option Addr) (limit : Option Nat) :
    (m.queryMembers a limit).length ≤ min (limit.getD 50) 100 := by
  unfold queryMembers Map.page limitOf
  rw [List.length_map, List.length_take]
  omega

theorem addHook_ok_iff {m m' : Members} {e : Env} {h : Addr} :
    m.addHook e h = .ok m' ↔ e.sender = e.controller ∧ m' = { m with hooks := m.hooks.set h () } := by
  unfold addHook
  split
  · rename_i hn
    constructor
    · intro hh; cases hh
    · rintro ⟨hh, _⟩; exact absurd hh hn
  · rename_i hn
    have hn := Classical.not_not.1 hn
    constructor
    · intro hh; cases hh; exact ⟨hn, rfl⟩
    · rintro ⟨_, rfl⟩; rfl

theorem removeHook_ok_iff {m m' : Members} {e : Env} {h : Addr} :
    m.removeHook e h = .ok m' ↔ e.sender = e.controller ∧ m' = { m with hooks := m.hooks.remove h } := by
  unfold removeHook
  split
  · rename_i hn
    constructor
    · intro hh; cases hh
    · rintro ⟨hh, _⟩; exact absurd hh hn
  · rename_i hn
    have hn := Classical.not_not.1 hn
    constructor
    · intro hh; cases hh; exact ⟨hn, rfl⟩
    · rintro ⟨_, rfl⟩; rfl

theorem has_set_hook (m : Map Addr Unit) (h g : Addr) : (m.set h ()).has g = true ↔ g = h ∨ m.has g = true := by
  rw [Map.has_set, Bool.or_eq_true, decide_eq_true_eq, eq_comm]

theorem has_remove_hook (m : Map Addr Unit) (h g : Addr) : (m.remove h).has g = true ↔ g ≠ h ∧ m.has g = true := by
  rw [Map.has_remove, Bool.and_eq_true, Bool.not_eq_true', decide_eq_false_iff_not, ne_comm]

theorem has_saveHooks (m : Members) (hs : List Addr) (g : Addr) :
    (m.saveHooks hs).hooks.has g = true ↔ g ∈ hs ∨ m.hooks.has g = true := by
  unfold saveHooks
  simp only
  generalize m.hooks = k
  induction hs generalizing k with
  | nil => simp
  | cons a l ih => rw [List.foldl_cons, ih, has_set_hook, List.mem_cons, or_left_comm, or_assoc]

end Verif.Members
