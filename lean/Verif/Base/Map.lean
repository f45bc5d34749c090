import Mathlib.Order.Defs.LinearOrder
import Mathlib.Order.Basic

/-!
# Storage maps

Model of `cw_storage_plus::Map` / the primary store of an `IndexedMap`
(dependency, not in /repo; semantics in the trusted base): a finite map iterated in ascending key order.
The representation is a strictly sorted association list, so that two maps with the same
contents are equal.
-/

set_option linter.unusedSectionVars false

namespace Verif

/-- Lookup in an association list. -/
def lookupL {K V : Type} [DecidableEq K] (k : K) : List (K × V) → Option V
  | [] => none
  | e :: t => if e.1 = k then some e.2 else lookupL k t

/-- Insert or replace in a sorted association list. -/
def insertL {K V : Type} [LinearOrder K] (k : K) (v : V) : List (K × V) → List (K × V)
  | [] => [(k, v)]
  | e :: t => if k < e.1 then (k, v) :: e :: t
              else if e.1 = k then (k, v) :: t else e :: insertL k v t

/-- Strictly ascending keys. -/
def SortedL {K V : Type} [LinearOrder K] (l : List (K × V)) : Prop :=
  l.Pairwise (fun a b => a.1 < b.1)

theorem mem_insertL {K V : Type} [LinearOrder K] {k : K} {v : V} {l : List (K × V)} {e : K × V}
    (h : e ∈ insertL k v l) : e = (k, v) ∨ e ∈ l := by
  induction l with
  | nil => simpa [insertL] using h
  | cons a t ih =>
    unfold insertL at h
    split at h
    · simpa using h
    · split at h
      · rcases List.mem_cons.1 h with h | h
        · exact Or.inl h
        · exact Or.inr (List.mem_cons_of_mem _ h)
      · rcases List.mem_cons.1 h with h | h
        · exact Or.inr (by simp [h])
        · rcases ih h with h | h
          · exact Or.inl h
          · exact Or.inr (List.mem_cons_of_mem _ h)

theorem sortedL_insertL {K V : Type} [LinearOrder K] (k : K) (v : V) (l : List (K × V))
    (h : SortedL l) : SortedL (insertL k v l) := by
  induction l with
  | nil => simp [insertL, SortedL]
  | cons a t ih =>
    unfold insertL
    have ht : SortedL t := (List.pairwise_cons.1 h).2
    have ha := (List.pairwise_cons.1 h).1
    split
    · rename_i hk
      refine List.pairwise_cons.2 ⟨?_, h⟩
      intro b hb
      rcases List.mem_cons.1 hb with hb | hb
      · simpa [hb] using hk
      · exact lt_trans hk (ha b hb)
    · split
      · rename_i hk
        refine List.pairwise_cons.2 ⟨?_, ht⟩
        intro b hb
        have := ha b hb
        simpa [hk] using this
      · rename_i h1 h2
        refine List.pairwise_cons.2 ⟨?_, ih ht⟩
        intro b hb
        rcases mem_insertL hb with hb | hb
        · subst hb
          exact lt_of_le_of_ne (not_lt.1 h1) h2
        · exact ha b hb

/-- A finite map iterated in ascending order of keys. -/
structure Map (K V : Type) [LinearOrder K] where
  entries : List (K × V)
  sorted : SortedL entries

namespace Map
variable {K V W : Type} [LinearOrder K]

instance [DecidableEq V] : DecidableEq (Map K V) := fun a b =>
  if h : a.entries = b.entries then
    isTrue (by cases a; cases b; simp_all)
  else isFalse (fun hab => h (by rw [hab]))

/-- The empty map. -/
def empty : Map K V := ⟨[], List.Pairwise.nil⟩

instance : Inhabited (Map K V) := ⟨empty⟩

/-- `may_load`. -/
def get (m : Map K V) (k : K) : Option V := lookupL k m.entries

/-- `has`. -/
def has (m : Map K V) (k : K) : Bool := (m.get k).isSome

/-- `save`. -/
def set (m : Map K V) (k : K) (v : V) : Map K V :=
  ⟨insertL k v m.entries, sortedL_insertL k v _ m.sorted⟩

/-- `remove`. -/
def remove (m : Map K V) (k : K) : Map K V :=
  ⟨m.entries.filter (fun e => decide (e.1 ≠ k)), List.Pairwise.filter _ m.sorted⟩

/-- Number of entries. -/
def size (m : Map K V) : Nat := m.entries.length

/-- Sum of a quantity over all the entries. -/
def sum (m : Map K V) (f : K → V → Nat) : Nat := (m.entries.map (fun e => f e.1 e.2)).sum

/-- Keys in ascending order. -/
def keys (m : Map K V) : List K := m.entries.map (·.1)

/-- Values in the order of keys. -/
def values (m : Map K V) : List V := m.entries.map (·.2)

/-- Keep the entries that satisfy a predicate. -/
def filter (m : Map K V) (p : K → V → Bool) : Map K V :=
  ⟨m.entries.filter (fun e => p e.1 e.2), List.Pairwise.filter _ m.sorted⟩

/-- Apply a function to all values. -/
def mapVals (m : Map K V) (f : K → V → W) : Map K W :=
  ⟨m.entries.map (fun e => (e.1, f e.1 e.2)), by
    have := m.sorted
    unfold SortedL at *
    rw [List.pairwise_map]
    exact this⟩

end Map

/-! ## Lemmas on association lists -/

section lists
variable {K V : Type} [LinearOrder K]

theorem lookupL_eq_none_of_lt {k : K} {l : List (K × V)} (h : ∀ e ∈ l, k < e.1) :
    lookupL k l = none := by
  induction l with
  | nil => rfl
  | cons a t ih =>
    have h1 := h a (by simp)
    have : a.1 ≠ k := ne_of_gt h1
    simp only [lookupL, this, if_false]
    exact ih (fun e he => h e (List.mem_cons_of_mem _ he))

theorem lookupL_eq_some_iff {k : K} {v : V} {l : List (K × V)} (h : SortedL l) :
    lookupL k l = some v ↔ (k, v) ∈ l := by
  induction l with
  | nil => simp [lookupL]
  | cons a t ih =>
    have ht : SortedL t := (List.pairwise_cons.1 h).2
    have ha := (List.pairwise_cons.1 h).1
    unfold lookupL
    split
    · rename_i hk
      constructor
      · intro hv
        have : a.2 = v := by simpa using hv
        have : a = (k, v) := by rw [← this, ← hk]
        simp [this]
      · intro hm
        rcases List.mem_cons.1 hm with hm | hm
        · simp [← hm]
        · have := ha _ hm
          simp [hk] at this
    · rename_i hk
      rw [ih ht]
      constructor
      · intro hm
        exact List.mem_cons_of_mem _ hm
      · intro hm
        rcases List.mem_cons.1 hm with hm | hm
        · exact absurd (by simp [← hm]) hk
        · exact hm

theorem lookupL_insertL {k k' : K} {v : V} {l : List (K × V)} (_h : SortedL l) :
    lookupL k' (insertL k v l) = if k = k' then some v else lookupL k' l := by
  induction l with
  | nil => simp [insertL, lookupL]
  | cons a t ih =>
    have ht : SortedL t := (List.pairwise_cons.1 _h).2
    unfold insertL
    split
    · simp only [lookupL]
    · split
      · rename_i h1 h2
        simp only [lookupL, h2]
        split <;> rfl
      · rename_i h1 h2
        simp only [lookupL, ih ht]
        split
        · rename_i h3
          have : k ≠ k' := by
            intro h4; exact h2 (by rw [h3, h4])
          simp [this]
        · rfl

theorem lookupL_filter_ne {k k' : K} {l : List (K × V)} :
    lookupL k' (l.filter (fun e => decide (e.1 ≠ k))) = if k = k' then none else lookupL k' l := by
  induction l with
  | nil => simp [lookupL]
  | cons a t ih =>
    by_cases h1 : a.1 = k
    · rw [List.filter_cons_of_neg (by simp [h1])]
      rw [ih]
      by_cases h2 : k = k'
      · simp [h2]
      · have : ¬ a.1 = k' := by rw [h1]; exact h2
        simp [h2, lookupL, this]
    · rw [List.filter_cons_of_pos (by simp [h1])]
      simp only [lookupL, ih]
      by_cases h3 : a.1 = k'
      · have : k ≠ k' := by intro h4; exact h1 (by rw [h3, h4])
        simp [h3, this]
      · simp [h3]

theorem sortedL_ext {l l' : List (K × V)} (h : SortedL l) (h' : SortedL l')
    (hm : ∀ e, e ∈ l ↔ e ∈ l') : l = l' := by
  induction l generalizing l' with
  | nil =>
    cases l' with
    | nil => rfl
    | cons b t' => exact absurd ((hm b).2 (by simp)) (by simp)
  | cons a t ih =>
    cases l' with
    | nil => exact absurd ((hm a).1 (by simp)) (by simp)
    | cons b t' =>
      have ha := List.pairwise_cons.1 h
      have hb := List.pairwise_cons.1 h'
      have hab : a = b := by
        rcases List.mem_cons.1 ((hm a).1 (by simp)) with h1 | h1
        · exact h1
        · rcases List.mem_cons.1 ((hm b).2 (by simp)) with h2 | h2
          · exact h2.symm
          · exact absurd (lt_trans (hb.1 _ h1) (ha.1 _ h2)) (lt_irrefl _)
      subst hab
      congr 1
      apply ih ha.2 hb.2
      intro e
      constructor
      · intro he
        rcases List.mem_cons.1 ((hm e).1 (List.mem_cons_of_mem _ he)) with h1 | h1
        · exact absurd (ha.1 e he) (by rw [h1]; exact lt_irrefl _)
        · exact h1
      · intro he
        rcases List.mem_cons.1 ((hm e).2 (List.mem_cons_of_mem _ he)) with h1 | h1
        · exact absurd (hb.1 e he) (by rw [h1]; exact lt_irrefl _)
        · exact h1

end lists

namespace Map
variable {K V W : Type} [LinearOrder K]

/-- Contribution of an optional entry to a sum. -/
def contrib (f : K → V → Nat) (k : K) (o : Option V) : Nat :=
  match o with
  | some v => f k v
  | none => 0

@[simp] theorem contrib_none (f : K → V → Nat) (k : K) : contrib f k none = 0 := rfl
@[simp] theorem contrib_some (f : K → V → Nat) (k : K) (v : V) : contrib f k (some v) = f k v := rfl

@[simp] theorem get_empty (k : K) : (empty : Map K V).get k = none := rfl

theorem get_eq_some_iff {m : Map K V} {k : K} {v : V} : m.get k = some v ↔ (k, v) ∈ m.entries :=
  lookupL_eq_some_iff m.sorted

theorem get_set (m : Map K V) (k k' : K) (v : V) :
    (m.set k v).get k' = if k = k' then some v else m.get k' :=
  lookupL_insertL m.sorted

@[simp] theorem get_set_self (m : Map K V) (k : K) (v : V) : (m.set k v).get k = some v := by
  rw [get_set]; simp

theorem get_set_ne (m : Map K V) {k k' : K} (v : V) (h : k ≠ k') :
    (m.set k v).get k' = m.get k' := by
  rw [get_set]; simp [h]

theorem get_remove (m : Map K V) (k k' : K) :
    (m.remove k).get k' = if k = k' then none else m.get k' :=
  lookupL_filter_ne

theorem ext_get {m m' : Map K V} (h : ∀ k, m.get k = m'.get k) : m = m' := by
  have : m.entries = m'.entries := by
    apply sortedL_ext m.sorted m'.sorted
    intro e
    rw [show e = (e.1, e.2) from rfl, ← get_eq_some_iff, ← get_eq_some_iff, h]
  cases m; cases m'; simp_all

theorem has_iff {m : Map K V} {k : K} : m.has k = true ↔ ∃ v, m.get k = some v := by
  unfold has
  cases m.get k <;> simp

theorem has_set (m : Map K V) (k k' : K) (v : V) :
    (m.set k v).has k' = (decide (k = k') || m.has k') := by
  unfold has
  rw [get_set]
  by_cases h : k = k' <;> simp [h]

theorem has_remove (m : Map K V) (k k' : K) :
    (m.remove k).has k' = (!decide (k = k') && m.has k') := by
  unfold has
  rw [get_remove]
  by_cases h : k = k' <;> simp [h]

theorem sum_insertL (f : K → V → Nat) (k : K) (v : V) (l : List (K × V)) (h : SortedL l) :
    ((insertL k v l).map (fun e => f e.1 e.2)).sum + contrib f k (lookupL k l)
      = (l.map (fun e => f e.1 e.2)).sum + f k v := by
  induction l with
  | nil => simp [insertL, lookupL]
  | cons a t ih =>
    have ht : SortedL t := (List.pairwise_cons.1 h).2
    have ha := (List.pairwise_cons.1 h).1
    unfold insertL
    split
    · rename_i hk
      have : lookupL k (a :: t) = none := by
        apply lookupL_eq_none_of_lt
        intro e he
        rcases List.mem_cons.1 he with he | he
        · simpa [he] using hk
        · exact lt_trans hk (ha e he)
      simp [this]; omega
    · split
      · rename_i h1 h2
        simp [lookupL, h2]; omega
      · rename_i h1 h2
        have := ih ht
        simp [lookupL, h2]
        omega

theorem sum_set (m : Map K V) (f : K → V → Nat) (k : K) (v : V) :
    (m.set k v).sum f + contrib f k (m.get k) = m.sum f + f k v :=
  sum_insertL f k v m.entries m.sorted

theorem sum_filter_ne (f : K → V → Nat) (k : K) (l : List (K × V)) (h : SortedL l) :
    ((l.filter (fun e => decide (e.1 ≠ k))).map (fun e => f e.1 e.2)).sum + contrib f k (lookupL k l)
      = (l.map (fun e => f e.1 e.2)).sum := by
  induction l with
  | nil => simp [lookupL]
  | cons a t ih =>
    have ht : SortedL t := (List.pairwise_cons.1 h).2
    have ha := (List.pairwise_cons.1 h).1
    have := ih ht
    by_cases hk : a.1 = k
    · rw [List.filter_cons_of_neg (by simp [hk])]
      have hn : lookupL k t = none := lookupL_eq_none_of_lt (fun e he => hk ▸ ha e he)
      rw [hn] at this
      simp [lookupL, hk] at this ⊢
      omega
    · rw [List.filter_cons_of_pos (by simp [hk])]
      simp [lookupL, hk] at this ⊢
      omega

theorem sum_remove (m : Map K V) (f : K → V → Nat) (k : K) :
    (m.remove k).sum f + contrib f k (m.get k) = m.sum f :=
  sum_filter_ne f k m.entries m.sorted

@[simp] theorem sum_empty (f : K → V → Nat) : (empty : Map K V).sum f = 0 := rfl

theorem sum_congr {m : Map K V} {f g : K → V → Nat}
    (h : ∀ k v, m.get k = some v → f k v = g k v) : m.sum f = m.sum g := by
  unfold sum
  congr 1
  apply List.map_congr_left
  intro e he
  exact h e.1 e.2 (get_eq_some_iff.2 he)

theorem sum_le_sum {m : Map K V} {f g : K → V → Nat}
    (h : ∀ k v, m.get k = some v → f k v ≤ g k v) : m.sum f ≤ m.sum g := by
  unfold sum
  have : ∀ l : List (K × V), (∀ e ∈ l, f e.1 e.2 ≤ g e.1 e.2) →
      (l.map (fun e => f e.1 e.2)).sum ≤ (l.map (fun e => g e.1 e.2)).sum := by
    intro l
    induction l with
    | nil => simp
    | cons a t ih =>
      intro hl
      have h1 := hl a (by simp)
      have h2 := ih (fun e he => hl e (List.mem_cons_of_mem _ he))
      simp; omega
  exact this _ (fun e he => h e.1 e.2 (get_eq_some_iff.2 he))

theorem sum_add (m : Map K V) (f g : K → V → Nat) :
    m.sum (fun k v => f k v + g k v) = m.sum f + m.sum g := by
  unfold sum
  induction m.entries with
  | nil => simp
  | cons a t ih => simp [ih]; omega

theorem sum_mul_left (m : Map K V) (c : Nat) (f : K → V → Nat) :
    m.sum (fun k v => c * f k v) = c * m.sum f := by
  unfold sum
  induction m.entries with
  | nil => simp
  | cons a t ih => simp [ih, Nat.mul_add]

@[simp] theorem sum_zero (m : Map K V) : m.sum (fun _ _ => 0) = 0 := by
  unfold sum
  induction m.entries with
  | nil => simp
  | cons a t ih => simpa using ih

theorem contrib_le_sum (m : Map K V) (f : K → V → Nat) (k : K) :
    contrib f k (m.get k) ≤ m.sum f := by
  have := sum_remove m f k
  omega

theorem le_sum {m : Map K V} {k : K} {v : V} (f : K → V → Nat) (h : m.get k = some v) :
    f k v ≤ m.sum f := by
  have := contrib_le_sum m f k
  rw [h] at this
  simpa using this

theorem get_filter (m : Map K V) (p : K → V → Bool) (k : K) :
    (m.filter p).get k = (m.get k).filter (p k) := by
  cases hm : m.get k with
  | none =>
    cases hf : (m.filter p).get k with
    | none => rfl
    | some v =>
      have h1 := get_eq_some_iff.1 hf
      have h2 : (k, v) ∈ m.entries := (List.mem_filter.1 h1).1
      rw [← get_eq_some_iff, hm] at h2
      cases h2
  | some v =>
    have h1 := get_eq_some_iff.1 hm
    by_cases hp : p k v = true
    · have : (m.filter p).get k = some v :=
        get_eq_some_iff.2 (List.mem_filter.2 ⟨h1, hp⟩)
      simp [this, hp, Option.filter]
    · cases hf : (m.filter p).get k with
      | none => simp [Option.filter, hp]
      | some w =>
        have h2 := get_eq_some_iff.1 hf
        have h3 := List.mem_filter.1 h2
        have h4 := get_eq_some_iff.2 h3.1
        rw [hm] at h4
        cases h4
        exact absurd h3.2 hp

theorem get_mapVals (m : Map K V) (f : K → V → W) (k : K) :
    (m.mapVals f).get k = (m.get k).map (f k) := by
  cases hm : m.get k with
  | none =>
    cases hf : (m.mapVals f).get k with
    | none => rfl
    | some v =>
      have h1 := get_eq_some_iff.1 hf
      obtain ⟨e, he, h2⟩ := List.mem_map.1 h1
      have : m.get e.1 = some e.2 := get_eq_some_iff.2 he
      have hk : e.1 = k := congrArg Prod.fst h2
      rw [hk, hm] at this
      cases this
  | some v =>
    apply get_eq_some_iff.2
    exact List.mem_map.2 ⟨(k, v), get_eq_some_iff.1 hm, rfl⟩

theorem sum_mapVals (m : Map K V) (f : K → V → W) (g : K → W → Nat) :
    (m.mapVals f).sum g = m.sum (fun k v => g k (f k v)) := by
  unfold sum mapVals
  simp [List.map_map, Function.comp_def]

theorem set_set (m : Map K V) (k : K) (v w : V) : (m.set k v).set k w = m.set k w := by
  apply ext_get
  intro k'
  simp only [get_set]
  split <;> rfl

theorem set_comm (m : Map K V) {k k' : K} (v v' : V) (h : k ≠ k') :
    (m.set k v).set k' v' = (m.set k' v').set k v := by
  apply ext_get
  intro x
  simp only [get_set]
  by_cases h1 : k' = x
  · have : k ≠ x := by rw [← h1]; exact h
    simp [h1, this]
  · simp [h1]

theorem set_get_self {m : Map K V} {k : K} {v : V} (h : m.get k = some v) : m.set k v = m := by
  apply ext_get
  intro x
  rw [get_set]
  split
  · rename_i hx; rw [← hx, h]
  · rfl

theorem mem_keys {m : Map K V} {k : K} : k ∈ m.keys ↔ ∃ v, m.get k = some v := by
  unfold keys
  constructor
  · intro h
    obtain ⟨e, he, hk⟩ := List.mem_map.1 h
    exact ⟨e.2, get_eq_some_iff.2 (by rw [← hk]; exact he)⟩
  · rintro ⟨v, hv⟩
    exact List.mem_map.2 ⟨(k, v), get_eq_some_iff.1 hv, rfl⟩

theorem nodup_keys (m : Map K V) : m.keys.Nodup := by
  unfold keys List.Nodup
  rw [List.pairwise_map]
  exact m.sorted.imp (fun h => ne_of_lt h)

theorem sorted_keys (m : Map K V) : m.keys.Pairwise (· < ·) := by
  unfold keys
  rw [List.pairwise_map]
  exact m.sorted

theorem size_set (m : Map K V) (k : K) (v : V) :
    (m.set k v).size = if m.has k then m.size else m.size + 1 := by
  have h := sum_set m (fun _ _ => 1) k v
  have e : ∀ m : Map K V, m.sum (fun _ _ => 1) = m.size := by
    intro m; unfold sum size; induction m.entries with
    | nil => rfl
    | cons a t ih => simp at ih ⊢; omega
  rw [e, e] at h
  unfold has
  cases hg : m.get k <;> simp [hg] at h ⊢ <;> omega

theorem size_remove (m : Map K V) (k : K) :
    (m.remove k).size = if m.has k then m.size - 1 else m.size := by
  have h := sum_remove m (fun _ _ => 1) k
  have e : ∀ m : Map K V, m.sum (fun _ _ => 1) = m.size := by
    intro m; unfold sum size; induction m.entries with
    | nil => rfl
    | cons a t ih => simp at ih ⊢; omega
  rw [e, e] at h
  unfold has
  cases hg : m.get k <;> simp [hg] at h ⊢ <;> omega

end Map
end Verif
