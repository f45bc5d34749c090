import Verif.Base.Map

/-!
# Paging

The list queries of the contracts share one shape: `range(start_after exclusive, ..)` then `take(limit)`.
-/

namespace Verif

/-- `map.range(start_after.map(Bound::exclusive), None, Ascending).take(limit)`. -/
def Map.page {K V : Type} [LinearOrder K] (m : Map K V) (after : Option K) (limit : Nat) : List (K × V) :=
  (m.entries.filter (fun e => match after with | none => true | some a => decide (a < e.1))).take limit

/-- What a client does: ask for a page, then for the page after the last item received, until a page comes empty.
`Reads q after ps` says that `ps` is the complete list of pages received, starting at cursor `after`. -/
inductive Reads {K X : Type} (q : Option K → List X) (cursor : X → K) : Option K → List (List X) → Prop
  | stop {after} : q after = [] → Reads q cursor after []
  | more {after x ps} : (q after).getLast? = some x → Reads q cursor (some (cursor x)) ps →
      Reads q cursor after (q after :: ps)

section
variable {K V : Type} [LinearOrder K]

/-- Entries strictly after a cursor. -/
def afterL (after : Option K) (l : List (K × V)) : List (K × V) :=
  l.filter (fun e => match after with | none => true | some a => decide (a < e.1))

theorem page_eq (m : Map K V) (after : Option K) (n : Nat) :
    m.page after n = (afterL after m.entries).take n := rfl

theorem afterL_sorted {after : Option K} {l : List (K × V)} (h : SortedL l) : SortedL (afterL after l) :=
  List.Pairwise.filter _ h

/-- In a sorted list what follows the `n`-th element is what is greater than it. -/
theorem afterL_last {l : List (K × V)} (h : SortedL l) (n : Nat) (x : K × V)
    (hx : (l.take n).getLast? = some x) : afterL (some x.1) l = l.drop n := by
  induction l generalizing n with
  | nil => simp at hx
  | cons a t ih =>
    have ht := (List.pairwise_cons.1 h).2
    have ha := (List.pairwise_cons.1 h).1
    cases n with
    | zero => simp at hx
    | succ n =>
      simp only [List.take_succ_cons, List.drop_succ_cons] at hx ⊢
      cases hl : (t.take n).getLast? with
      | none =>
        have he : t.take n = [] := List.getLast?_eq_none_iff.1 hl
        rw [he] at hx
        have hxa : a = x := by simpa using hx
        subst hxa
        have hd : t.drop n = t := by
          rcases List.take_eq_nil_iff.1 he with h1 | h1
          · simp [h1]
          · simp [h1]
        rw [hd]
        unfold afterL
        rw [List.filter_cons_of_neg (by simp)]
        apply List.filter_eq_self.2
        intro e he
        simpa using ha e he
      | some y =>
        have hxy : y = x := by
          cases ht' : t.take n with
          | nil => rw [ht'] at hl; simp at hl
          | cons b t' =>
            rw [ht'] at hl hx
            rw [List.getLast?_cons_cons] at hx
            rw [hl] at hx
            simpa using hx
        subst hxy
        have hmem : y ∈ t := List.mem_of_mem_take (List.mem_of_getLast? hl)
        have := ih ht n hl
        unfold afterL at this ⊢
        rw [List.filter_cons_of_neg (by simpa using le_of_lt (ha y hmem))]
        exact this

theorem afterL_afterL {l : List (K × V)} (after : Option K) (x : K × V)
    (hx : x ∈ afterL after l) :
    afterL (some x.1) l = afterL (some x.1) (afterL after l) := by
  unfold afterL at *
  rw [List.filter_filter]
  apply List.filter_congr
  intro e _
  cases after with
  | none => simp
  | some a =>
    have h1 : a < x.1 := by simpa using (List.mem_filter.1 hx).2
    by_cases h2 : x.1 < e.1
    · simp [h2, lt_trans h1 h2]
    · simp [h2]

/-- Reading all pages of any positive size from a cursor on returns exactly the entries after the cursor,
in order, without loss or repetition. `g` is the shape of the response items, `cur` the cursor read off an item,
`emb` the storage key made from a cursor. -/
theorem reads_page {X C : Type} {m : Map K V} {g : K × V → X} {cur : X → C} {emb : C → K}
    (hg : ∀ e ∈ m.entries, emb (cur (g e)) = e.1)
    {n : Nat} (hn : 0 < n) {after : Option C} {ps : List (List X)}
    (h : Reads (fun a => (m.page (a.map emb) n).map g) cur after ps) :
    ps.flatten = (afterL (after.map emb) m.entries).map g := by
  induction h with
  | @stop after h =>
    simp only [page_eq, List.map_eq_nil_iff] at h
    rcases List.take_eq_nil_iff.1 h with h1 | h1
    · omega
    · simp [h1]
  | @more after x ps hx _ ih =>
    simp only [page_eq, List.getLast?_map] at hx
    obtain ⟨e, he, hxe⟩ := Option.map_eq_some_iff.1 hx
    subst hxe
    have hmem : e ∈ afterL (after.map emb) m.entries := List.mem_of_mem_take (List.mem_of_getLast? he)
    have hin : e ∈ m.entries := (List.mem_filter.1 hmem).1
    rw [List.flatten_cons, ih, Option.map_some, hg e hin, afterL_afterL (after.map emb) e hmem,
      afterL_last (afterL_sorted m.sorted) n e he, page_eq, ← List.map_append, List.take_append_drop]

/-- Reading pages always comes to an end. -/
theorem reads_page_exists {X C : Type} {m : Map K V} {g : K × V → X} {cur : X → C} {emb : C → K}
    (hg : ∀ e ∈ m.entries, emb (cur (g e)) = e.1) {n : Nat} (hn : 0 < n) (after : Option C) :
    ∃ ps, Reads (fun a => (m.page (a.map emb) n).map g) cur after ps := by
  generalize hk : (afterL (after.map emb) m.entries).length = k
  induction k using Nat.strongRecOn generalizing after with
  | ind k ih =>
    cases hl : ((m.page (after.map emb) n).map g).getLast? with
    | none => exact ⟨[], .stop (List.getLast?_eq_none_iff.1 hl)⟩
    | some x =>
      have hl' := hl
      rw [page_eq, List.getLast?_map] at hl'
      obtain ⟨e, he, hxe⟩ := Option.map_eq_some_iff.1 hl'
      subst hxe
      have hmem : e ∈ afterL (after.map emb) m.entries := List.mem_of_mem_take (List.mem_of_getLast? he)
      have hin : e ∈ m.entries := (List.mem_filter.1 hmem).1
      have hlen : (afterL ((some (cur (g e))).map emb) m.entries).length < k := by
        rw [Option.map_some, hg e hin, afterL_afterL (after.map emb) e hmem,
          afterL_last (afterL_sorted m.sorted) n e he, List.length_drop]
        have : 0 < (afterL (after.map emb) m.entries).length := List.length_pos_of_mem hmem
        omega
      obtain ⟨ps, hps⟩ := ih _ hlen (some (cur (g e))) rfl
      exact ⟨_, .more hl hps⟩

@[simp] theorem afterL_none (l : List (K × V)) : afterL none l = l := by
  unfold afterL
  exact List.filter_eq_self.2 (fun _ _ => rfl)

/-- Paging through a whole map with keys as cursors: it comes to an end, and the pages together are the entries. -/
theorem reads_all {X : Type} {m : Map K V} {g : K × V → X} {cur : X → K} (hg : ∀ e ∈ m.entries, cur (g e) = e.1)
    {n : Nat} (hn : 0 < n) :
    (∃ ps, Reads (fun a => (m.page a n).map g) cur none ps) ∧
    ∀ ps, Reads (fun a => (m.page a n).map g) cur none ps → ps.flatten = m.entries.map g := by
  have hq : (fun a => (m.page a n).map g) = fun a => (m.page (a.map (fun v => v)) n).map g := by
    funext a
    cases a <;> rfl
  rw [hq]
  refine ⟨reads_page_exists (emb := fun v => v) hg hn none, fun ps h => ?_⟩
  rw [reads_page (emb := fun v => v) hg hn h]
  simp

end
end Verif
