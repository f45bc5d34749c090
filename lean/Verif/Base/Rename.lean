import Mathlib.Logic.Equiv.Defs
import Mathlib.Data.Prod.Lex
import Verif.Base.Map

/-!
# Renaming the keys of a map
-/

namespace Verif

/-- A renaming of addresses: every address gets another name, different ones different names. -/
abbrev Renaming := Equiv.Perm Nat

/-- The renaming that swaps two names. -/
def swap2 (a b : Nat) : Renaming where
  toFun n := if n = a then b else if n = b then a else n
  invFun n := if n = a then b else if n = b then a else n
  left_inv n := by
    dsimp only
    split_ifs <;> simp_all
  right_inv n := by
    dsimp only
    split_ifs <;> simp_all

/-- Keys that begin with an address, with other names for the addresses. -/
def lexRen (π : Renaming) : (Nat ×ₗ Nat) ≃ (Nat ×ₗ Nat) where
  toFun k := toLex (π (ofLex k).1, (ofLex k).2)
  invFun k := toLex (π.symm (ofLex k).1, (ofLex k).2)
  left_inv k := by simp
  right_inv k := by simp

theorem lexRen_mk (π : Renaming) (u a : Nat) : lexRen π (toLex (u, a)) = toLex (π u, a) := rfl

namespace Map
variable {K K' V W : Type} [LinearOrder K] [LinearOrder K']

/-- The same map with other names for the keys, and a function applied to the values. -/
def rename (m : Map K V) (σ : K ≃ K') (f : V → W) : Map K' W :=
  m.entries.foldl (fun a e => a.set (σ e.1) (f e.2)) empty

theorem fold_rename (σ : K ≃ K') (f : V → W) : ∀ (l : List (K × V)) (a : Map K' W) (k : K), SortedL l →
    (l.foldl (fun a e => a.set (σ e.1) (f e.2)) a).get (σ k) = ((lookupL k l).map f).or (a.get (σ k))
  | [], a, k, _ => by simp [lookupL]
  | e :: t, a, k, h => by
    rw [List.foldl_cons, fold_rename σ f t _ k (List.pairwise_cons.1 h).2, get_set]
    simp only [lookupL, EmbeddingLike.apply_eq_iff_eq]
    by_cases hk : e.1 = k
    · subst hk
      rw [if_pos rfl, if_pos rfl, lookupL_eq_none_of_lt (List.pairwise_cons.1 h).1]
      rfl
    · rw [if_neg hk, if_neg hk]

theorem get_rename (m : Map K V) (σ : K ≃ K') (f : V → W) (k : K) : (m.rename σ f).get (σ k) = (m.get k).map f := by
  unfold rename
  rw [fold_rename σ f _ _ _ m.sorted]
  show (Option.map f (lookupL k m.entries)).or none = Option.map f (lookupL k m.entries)
  rw [Option.or_none]

theorem get_rename' (m : Map K V) (σ : K ≃ K') (f : V → W) (k : K') : (m.rename σ f).get k = (m.get (σ.symm k)).map f := by
  have := get_rename m σ f (σ.symm k)
  rwa [Equiv.apply_symm_apply] at this

theorem has_rename (m : Map K V) (σ : K ≃ K') (f : V → W) (k : K) : (m.rename σ f).has (σ k) = m.has k := by
  unfold has
  rw [get_rename]
  cases m.get k <;> rfl

theorem rename_set (m : Map K V) (σ : K ≃ K') (f : V → W) (k : K) (v : V) :
    (m.set k v).rename σ f = (m.rename σ f).set (σ k) (f v) := by
  refine ext_get fun k' => ?_
  obtain ⟨k', rfl⟩ := σ.surjective k'
  rw [get_rename, get_set, get_set, get_rename]
  simp only [EmbeddingLike.apply_eq_iff_eq]
  split <;> rfl

theorem rename_remove (m : Map K V) (σ : K ≃ K') (f : V → W) (k : K) :
    (m.remove k).rename σ f = (m.rename σ f).remove (σ k) := by
  refine ext_get fun k' => ?_
  obtain ⟨k', rfl⟩ := σ.surjective k'
  rw [get_rename, get_remove, get_remove, get_rename]
  simp only [EmbeddingLike.apply_eq_iff_eq]
  split <;> rfl

theorem rename_empty (σ : K ≃ K') (f : V → W) : (empty : Map K V).rename σ f = empty := rfl

theorem mem_rename (m : Map K V) (σ : K ≃ K') (f : V → W) (k : K') (w : W) :
    (k, w) ∈ (m.rename σ f).entries ↔ ∃ v, (σ.symm k, v) ∈ m.entries ∧ f v = w := by
  rw [← get_eq_some_iff, get_rename', Option.map_eq_some_iff]
  simp only [get_eq_some_iff]

/-- Only the values change. -/
theorem rename_refl_entries (m : Map K V) (f : V → W) :
    (m.rename (Equiv.refl K) f).entries = m.entries.map (fun e => (e.1, f e.2)) := by
  have : m.rename (Equiv.refl K) f = m.mapVals (fun _ v => f v) := by
    refine ext_get fun k => ?_
    rw [get_rename']
    show (m.get k).map f = _
    cases hg : (m.mapVals (fun _ v => f v)).get k with
    | none =>
      cases h2 : m.get k with
      | none => rfl
      | some v =>
        have := get_eq_some_iff.1 h2
        have h3 : (k, f v) ∈ (m.mapVals (fun _ v => f v)).entries := List.mem_map.2 ⟨_, this, rfl⟩
        rw [get_eq_some_iff.2 h3] at hg
        cases hg
    | some w =>
      have := get_eq_some_iff.1 hg
      obtain ⟨e, he, h3⟩ := List.mem_map.1 this
      have h4 : m.get e.1 = some e.2 := get_eq_some_iff.2 he
      simp only [Prod.mk.injEq] at h3
      rw [← h3.1, h4, ← h3.2]
      rfl
  rw [this]
  rfl

end Map

end Verif
