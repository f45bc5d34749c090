import Verif.Treasury.Spec
import Verif.Base.Except

set_option linter.unusedSimpArgs false

/-!
# Treasury: helper lemmas
-/

namespace Verif.Treasury
open Verif

section paging
variable {K V : Type} [LinearOrder K]

theorem afterL_split {l i t : List (K × V)} {e : K × V} (h : SortedL l) (hl : l = i ++ e :: t) :
    afterL (some e.1) l = t := by
  have := afterL_last h (i.length + 1) e (by
    rw [hl, List.take_append, List.take_of_length_le (by omega), Nat.add_sub_cancel_left]
    simp)
  rw [this, hl]
  simp

/-- After the cursor taken from an item of a remaining list, the items following it remain. -/
theorem afterL_next (m : Map K V) (o : Option K) {i t : List (K × V)} {e : K × V}
    (hl : afterL o m.entries = i ++ e :: t) : afterL (some e.1) m.entries = t := by
  have hmem : e ∈ afterL o m.entries := by rw [hl]; simp
  rw [afterL_afterL o e hmem]
  exact afterL_split (afterL_sorted m.sorted) hl

end paging

/-- Assets of each kind after a cursor. -/
def restNative (w : Whitelist) (o : Option Nat) : List AssetInfo :=
  (afterL o w.native.entries).map (fun e => .native e.1)
def restCw20 (w : Whitelist) (o : Option Addr) : List AssetInfo :=
  (afterL o w.cw20.entries).map (fun e => .cw20 e.1)
def restCw1155 (w : Whitelist) (o : Option (Addr ×ₗ Nat)) : List AssetInfo :=
  (afterL o w.cw1155.entries).map (fun e => .cw1155 (ofLex e.1).1 (ofLex e.1).2)

/-- All the assets after a cursor. -/
def rest (w : Whitelist) : Option AssetInfo → List AssetInfo
  | none => restNative w none ++ restCw20 w none ++ restCw1155 w none
  | some (.native d) => restNative w (some d) ++ restCw20 w none ++ restCw1155 w none
  | some (.cw20 a) => restCw20 w (some a) ++ restCw1155 w none
  | some (.cw1155 a i) => restCw1155 w (some (toLex (a, i)))

theorem fromCw1155_eq (w : Whitelist) (o : Option (Addr ×ₗ Nat)) (n : Nat) :
    fromCw1155 w o n = (restCw1155 w o).take n := by
  unfold fromCw1155 restCw1155
  rw [page_eq, List.map_take]

theorem take_then {α : Type} (a b : List α) (n : Nat) (f : Nat → List α) (hf : ∀ k, f k = b.take k) :
    (if (a.take n).length < n then a.take n ++ f (n - (a.take n).length) else a.take n) = (a ++ b).take n := by
  rw [List.take_append, hf, List.length_take]
  by_cases h : min n a.length < n
  · have h2 : a.length < n := by omega
    rw [if_pos h, Nat.min_eq_right (le_of_lt h2)]
  · have h2 : n ≤ a.length := by omega
    rw [if_neg h]
    have : n - a.length = 0 := by omega
    rw [this]
    simp

theorem fromCw20_eq (w : Whitelist) (o : Option Addr) (n : Nat) :
    fromCw20 w o n = (restCw20 w o ++ restCw1155 w none).take n := by
  have h : (w.cw20.page o n).map (fun e => AssetInfo.cw20 e.1) = (restCw20 w o).take n := by
    unfold restCw20
    rw [page_eq, List.map_take]
  unfold fromCw20
  simp only [h]
  exact take_then _ _ _ (fun k => fromCw1155 w none k) (fun k => fromCw1155_eq w none k)

theorem fromNative_eq (w : Whitelist) (o : Option Nat) (n : Nat) :
    fromNative w o n = (restNative w o ++ restCw20 w none ++ restCw1155 w none).take n := by
  have h : (w.native.page o n).map (fun e => AssetInfo.native e.1) = (restNative w o).take n := by
    unfold restNative
    rw [page_eq, List.map_take]
  unfold fromNative
  simp only [h]
  rw [List.append_assoc]
  exact take_then _ _ _ (fun k => fromCw20 w none k) (fun k => fromCw20_eq w none k)

theorem queryAssets_eq (w : Whitelist) (o : Option AssetInfo) (limit : Option Nat) :
    queryAssets w o limit = (rest w o).take (limitOf limit) := by
  match o with
  | none => exact fromNative_eq w none _
  | some (.native d) => exact fromNative_eq w (some d) _
  | some (.cw20 a) => exact fromCw20_eq w (some a) _
  | some (.cw1155 a i) => exact fromCw1155_eq w _ _

theorem mem_afterL_none {K V : Type} [LinearOrder K] {m : Map K V} {k : K} :
    (∃ v, (k, v) ∈ afterL none m.entries) ↔ m.has k = true := by
  rw [Map.has_iff]
  simp only [afterL_none, Map.get_eq_some_iff]

theorem mem_rest_none {w : Whitelist} {a : AssetInfo} : a ∈ rest w none ↔ w.Has a := by
  unfold rest restNative restCw20 restCw1155 Whitelist.Has
  cases a with
  | native d =>
    simp only [List.mem_append, List.mem_map, reduceCtorEq, and_false, exists_false, or_false, AssetInfo.native.injEq,
      ← mem_afterL_none]
    constructor
    · rintro ⟨⟨k, v⟩, h, rfl⟩; exact ⟨v, h⟩
    · rintro ⟨v, h⟩; exact ⟨_, h, rfl⟩
  | cw20 d =>
    simp only [List.mem_append, List.mem_map, reduceCtorEq, and_false, exists_false, or_false, false_or,
      AssetInfo.cw20.injEq, ← mem_afterL_none]
    constructor
    · rintro ⟨⟨k, v⟩, h, rfl⟩; exact ⟨v, h⟩
    · rintro ⟨v, h⟩; exact ⟨_, h, rfl⟩
  | cw1155 x i =>
    simp only [List.mem_append, List.mem_map, reduceCtorEq, and_false, exists_false, or_false, false_or,
      AssetInfo.cw1155.injEq, ← mem_afterL_none]
    constructor
    · rintro ⟨⟨k, v⟩, h, rfl, rfl⟩; exact ⟨v, h⟩
    · rintro ⟨v, h⟩; exact ⟨_, h, rfl, rfl⟩

theorem nodup_map_key {K V A : Type} [LinearOrder K] (m : Map K V) (o : Option K) (f : K → A)
    (hf : Function.Injective f) : ((afterL o m.entries).map (fun e => f e.1)).Nodup := by
  have h : ((afterL o m.entries).map (·.1)).Nodup := by
    refine List.Nodup.sublist ?_ m.nodup_keys
    exact List.Sublist.map _ (List.filter_sublist)
  have : (afterL o m.entries).map (fun e => f e.1) = ((afterL o m.entries).map (·.1)).map f := by
    rw [List.map_map]; rfl
  rw [this]
  exact List.Pairwise.map f (fun a b hab hfab => hab (hf hfab)) h

theorem nodup_rest_none (w : Whitelist) : (rest w none).Nodup := by
  unfold rest
  have h1 : (restNative w none).Nodup := nodup_map_key w.native none AssetInfo.native (fun a b h => by cases h; rfl)
  have h2 : (restCw20 w none).Nodup := nodup_map_key w.cw20 none AssetInfo.cw20 (fun a b h => by cases h; rfl)
  have h3 : (restCw1155 w none).Nodup :=
    nodup_map_key w.cw1155 none (fun k => AssetInfo.cw1155 (ofLex k).1 (ofLex k).2) (fun a b h => by
      simp only [AssetInfo.cw1155.injEq] at h
      exact Prod.ext h.1 h.2)
  rw [List.nodup_append, List.nodup_append]
  refine ⟨⟨h1, h2, ?_⟩, h3, ?_⟩
  · intro a ha b hb hab
    subst hab
    obtain ⟨x, _, rfl⟩ := List.mem_map.1 ha
    obtain ⟨y, _, hy⟩ := List.mem_map.1 hb
    cases hy
  · intro a ha b hb hab
    subst hab
    obtain ⟨y, _, rfl⟩ := List.mem_map.1 hb
    rcases List.mem_append.1 ha with ha | ha
    · obtain ⟨x, _, hx⟩ := List.mem_map.1 ha
      cases hx
    · obtain ⟨x, _, hx⟩ := List.mem_map.1 ha
      cases hx

/-- An element not in the second list splits the first. -/
theorem split_left {α : Type} {a b i t : List α} {x : α} (h : a ++ b = i ++ x :: t) (hx : x ∉ b) :
    ∃ t1, a = i ++ x :: t1 ∧ t = t1 ++ b := by
  rcases List.append_eq_append_iff.1 h with ⟨c, h1, h2⟩ | ⟨c, h1, h2⟩
  · cases c with
    | nil => exact absurd (by rw [List.nil_append] at h2; rw [h2]; simp) hx
    | cons y c => exact absurd (by rw [h2]; simp) hx
  · cases c with
    | nil => exact absurd (by rw [List.nil_append] at h2; rw [← h2]; simp) hx
    | cons y c =>
      simp only [List.cons_append, List.cons.injEq] at h2
      obtain ⟨rfl, rfl⟩ := h2
      exact ⟨c, h1, rfl⟩

/-- An element not in the first list splits the second. -/
theorem split_right {α : Type} {a b i t : List α} {x : α} (h : a ++ b = i ++ x :: t) (hx : x ∉ a) :
    ∃ i1, b = i1 ++ x :: t := by
  rcases List.append_eq_append_iff.1 h with ⟨c, h1, h2⟩ | ⟨c, h1, h2⟩
  · exact ⟨c, h2⟩
  · cases c with
    | nil => exact ⟨[], h2.symm⟩
    | cons y c =>
      simp only [List.cons_append, List.cons.injEq] at h2
      exact absurd (by rw [h1, ← h2.1]; simp) hx

theorem map_split {α β : Type} {f : α → β} {l : List α} {i t : List β} {x : β} (h : l.map f = i ++ x :: t) :
    ∃ i1 e t1, l = i1 ++ e :: t1 ∧ f e = x ∧ t1.map f = t := by
  obtain ⟨i1, l2, rfl, h1, h2⟩ := List.map_eq_append_iff.1 h
  obtain ⟨e, t1, rfl, h3, h4⟩ := List.map_eq_cons_iff.1 h2
  exact ⟨i1, e, t1, rfl, h3, h4⟩

theorem native_notin_cw20 (w : Whitelist) (o : Option Addr) (d : Nat) : AssetInfo.native d ∉ restCw20 w o := by
  intro h; obtain ⟨x, _, hx⟩ := List.mem_map.1 h; cases hx
theorem native_notin_cw1155 (w : Whitelist) (o : Option (Addr ×ₗ Nat)) (d : Nat) :
    AssetInfo.native d ∉ restCw1155 w o := by
  intro h; obtain ⟨x, _, hx⟩ := List.mem_map.1 h; cases hx
theorem cw20_notin_native (w : Whitelist) (o : Option Nat) (d : Addr) : AssetInfo.cw20 d ∉ restNative w o := by
  intro h; obtain ⟨x, _, hx⟩ := List.mem_map.1 h; cases hx
theorem cw20_notin_cw1155 (w : Whitelist) (o : Option (Addr ×ₗ Nat)) (d : Addr) :
    AssetInfo.cw20 d ∉ restCw1155 w o := by
  intro h; obtain ⟨x, _, hx⟩ := List.mem_map.1 h; cases hx
theorem cw1155_notin_native (w : Whitelist) (o : Option Nat) (a : Addr) (d : Nat) :
    AssetInfo.cw1155 a d ∉ restNative w o := by
  intro h; obtain ⟨x, _, hx⟩ := List.mem_map.1 h; cases hx
theorem cw1155_notin_cw20 (w : Whitelist) (o : Option Addr) (a : Addr) (d : Nat) :
    AssetInfo.cw1155 a d ∉ restCw20 w o := by
  intro h; obtain ⟨x, _, hx⟩ := List.mem_map.1 h; cases hx

theorem restNative_next {w : Whitelist} {o : Option Nat} {i t : List AssetInfo} {d : Nat}
    (h : restNative w o = i ++ .native d :: t) : restNative w (some d) = t := by
  obtain ⟨i1, e, t1, h1, h2, h3⟩ := map_split h
  cases h2
  unfold restNative
  rw [afterL_next _ _ h1, h3]

theorem restCw20_next {w : Whitelist} {o : Option Addr} {i t : List AssetInfo} {d : Addr}
    (h : restCw20 w o = i ++ .cw20 d :: t) : restCw20 w (some d) = t := by
  obtain ⟨i1, e, t1, h1, h2, h3⟩ := map_split h
  cases h2
  unfold restCw20
  rw [afterL_next _ _ h1, h3]

theorem restCw1155_next {w : Whitelist} {o : Option (Addr ×ₗ Nat)} {i t : List AssetInfo} {a : Addr} {d : Nat}
    (h : restCw1155 w o = i ++ .cw1155 a d :: t) : restCw1155 w (some (toLex (a, d))) = t := by
  obtain ⟨i1, e, t1, h1, h2, h3⟩ := map_split h
  simp only [AssetInfo.cw1155.injEq] at h2
  obtain ⟨rfl, rfl⟩ := h2
  have := afterL_next _ _ h1
  unfold restCw1155
  rw [← h3, ← this]
  rfl

/-- The cursor read off an item leads to the items following it. -/
theorem rest_next {w : Whitelist} {o : Option AssetInfo} {i t : List AssetInfo} {x : AssetInfo}
    (h : rest w o = i ++ x :: t) : rest w (some x) = t := by
  have case20 : ∀ (o' : Option Addr) (i : List AssetInfo), restCw20 w o' ++ restCw1155 w none = i ++ x :: t →
      (∀ d, x ≠ .native d) → rest w (some x) = t := by
    intro o' i h hn
    cases x with
    | native d => exact absurd rfl (hn d)
    | cw20 d =>
      obtain ⟨t1, h1, rfl⟩ := split_left h (cw20_notin_cw1155 w none d)
      show restCw20 w (some d) ++ restCw1155 w none = _
      rw [restCw20_next h1]
    | cw1155 a d =>
      obtain ⟨i1, h1⟩ := split_right h (cw1155_notin_cw20 w o' a d)
      exact restCw1155_next h1
  have caseN : ∀ (o' : Option Nat), restNative w o' ++ restCw20 w none ++ restCw1155 w none = i ++ x :: t →
      rest w (some x) = t := by
    intro o' h
    rw [List.append_assoc] at h
    cases x with
    | native d =>
      obtain ⟨t1, h1, rfl⟩ := split_left h (by
        rw [List.mem_append]
        rintro (h | h)
        · exact native_notin_cw20 w none d h
        · exact native_notin_cw1155 w none d h)
      show restNative w (some d) ++ restCw20 w none ++ restCw1155 w none = _
      rw [restNative_next h1, List.append_assoc]
    | cw20 d =>
      obtain ⟨i1, h1⟩ := split_right h (cw20_notin_native w o' d)
      exact case20 none i1 h1 (by intro _ hh; cases hh)
    | cw1155 a d =>
      obtain ⟨i1, h1⟩ := split_right h (cw1155_notin_native w o' a d)
      exact case20 none i1 h1 (by intro _ hh; cases hh)
  match o with
  | none => exact caseN none h
  | some (.native d) => exact caseN (some d) h
  | some (.cw20 a) =>
    refine case20 (some a) i h ?_
    rintro d rfl
    have : AssetInfo.native d ∈ restCw20 w (some a) ++ restCw1155 w none := by
      have h' : restCw20 w (some a) ++ restCw1155 w none = i ++ .native d :: t := h
      rw [h']; simp
    rcases List.mem_append.1 this with h | h
    · exact native_notin_cw20 w _ d h
    · exact native_notin_cw1155 w _ d h
  | some (.cw1155 a k) =>
    have h' : restCw1155 w (some (toLex (a, k))) = i ++ x :: t := h
    cases x with
    | native d => exact absurd (by rw [h']; simp) (native_notin_cw1155 w (some (toLex (a, k))) d)
    | cw20 d => exact absurd (by rw [h']; simp) (cw20_notin_cw1155 w (some (toLex (a, k))) d)
    | cw1155 b d => exact restCw1155_next h'

/-- What remains after a page. -/
theorem rest_after_page {w : Whitelist} {o : Option AssetInfo} {n : Nat} {x : AssetInfo}
    (h : ((rest w o).take n).getLast? = some x) : rest w (some x) = (rest w o).drop n := by
  obtain ⟨i, hi⟩ := List.getLast?_eq_some_iff.1 h
  refine rest_next (o := o) (i := i) ?_
  conv_lhs => rw [← List.take_append_drop n (rest w o), hi]
  simp

theorem reads_rest {w : Whitelist} {limit : Option Nat} (hn : 0 < limitOf limit) {o : Option AssetInfo}
    {ps : List (List AssetInfo)} (h : Reads (fun a => queryAssets w a limit) id o ps) : ps.flatten = rest w o := by
  induction h with
  | @stop o h =>
    rw [queryAssets_eq] at h
    rcases List.take_eq_nil_iff.1 h with h1 | h1
    · omega
    · rw [h1]; rfl
  | @more o x ps hx _ ih =>
    rw [queryAssets_eq] at hx
    rw [List.flatten_cons, ih, queryAssets_eq, id, rest_after_page hx, List.take_append_drop]

theorem reads_rest_exists (w : Whitelist) {limit : Option Nat} (hn : 0 < limitOf limit) (o : Option AssetInfo) :
    ∃ ps, Reads (fun a => queryAssets w a limit) id o ps := by
  generalize hk : (rest w o).length = k
  induction k using Nat.strongRecOn generalizing o with
  | ind k ih =>
    cases hl : (queryAssets w o limit).getLast? with
    | none => exact ⟨[], .stop (List.getLast?_eq_none_iff.1 hl)⟩
    | some x =>
      have hl' := hl
      rw [queryAssets_eq] at hl'
      have hr := rest_after_page hl'
      have hpos : 0 < (rest w o).length := by
        cases hr0 : rest w o with
        | nil => rw [hr0] at hl'; simp at hl'
        | cons a b => simp
      obtain ⟨ps, hps⟩ := ih _ (by rw [hr, List.length_drop]; omega) (some x) rfl
      exact ⟨_, .more hl hps⟩

/-! ### Updates -/

theorem has_set_iff {K V : Type} [LinearOrder K] {m : Map K V} {k k' : K} {v : V} :
    (m.set k v).has k' = true ↔ (k' = k ∨ m.has k' = true) := by
  rw [Map.has_set, Bool.or_eq_true, decide_eq_true_eq, eq_comm]

theorem has_remove_iff {K V : Type} [LinearOrder K] {m : Map K V} {k k' : K} :
    (m.remove k).has k' = true ↔ (k' ≠ k ∧ m.has k' = true) := by
  rw [Map.has_remove, Bool.and_eq_true, Bool.not_eq_true', decide_eq_false_iff_not, ne_comm]

theorem addAsset_ok {w w' : Whitelist} {a : AssetInfo} (h : addAsset w a = .ok w') :
    a.isCw1155 = false ∧ ∀ b, w'.Has b ↔ (b = a ∨ w.Has b) := by
  cases a with
  | native d =>
    cases h
    refine ⟨rfl, fun b => ?_⟩
    cases b <;> simp [Whitelist.Has, has_set_iff]
  | cw20 d =>
    cases h
    refine ⟨rfl, fun b => ?_⟩
    cases b <;> simp [Whitelist.Has, has_set_iff]
  | cw1155 x i => cases h

theorem addAsset_exists (w : Whitelist) {a : AssetInfo} (h : a.isCw1155 = false) : ∃ w', addAsset w a = .ok w' := by
  cases a with
  | native d => exact ⟨_, rfl⟩
  | cw20 d => exact ⟨_, rfl⟩
  | cw1155 x i => cases h

theorem addAssets_ok : ∀ (l : List AssetInfo) {w w' : Whitelist}, addAssets w l = .ok w' →
    (∀ a ∈ l, a.isCw1155 = false) ∧ ∀ b, w'.Has b ↔ (b ∈ l ∨ w.Has b)
  | [], w, w', h => by
    unfold addAssets at h
    rw [foldlM_nil_ok_iff] at h
    subst h
    exact ⟨fun _ h => by simp at h, fun b => by simp⟩
  | a :: l, w, w', h => by
    unfold addAssets at h
    rw [foldlM_cons_ok_iff] at h
    obtain ⟨w1, h1, h2⟩ := h
    obtain ⟨h3, h4⟩ := addAsset_ok h1
    obtain ⟨h5, h6⟩ := addAssets_ok l h2
    refine ⟨?_, ?_⟩
    · intro b hb
      rcases List.mem_cons.1 hb with rfl | hb
      · exact h3
      · exact h5 b hb
    · intro b
      rw [h6, h4, List.mem_cons]
      tauto

theorem addAssets_exists : ∀ (l : List AssetInfo) (w : Whitelist), (∀ a ∈ l, a.isCw1155 = false) →
    ∃ w', addAssets w l = .ok w'
  | [], w, _ => ⟨w, rfl⟩
  | a :: l, w, h => by
    obtain ⟨w1, h1⟩ := addAsset_exists w (h a List.mem_cons_self)
    obtain ⟨w2, h2⟩ := addAssets_exists l w1 (fun b hb => h b (List.mem_cons_of_mem _ hb))
    exact ⟨w2, foldlM_cons_ok_iff.2 ⟨w1, h1, h2⟩⟩

theorem removeAsset_has (w : Whitelist) (a b : AssetInfo) : (removeAsset w a).Has b ↔ (b ≠ a ∧ w.Has b) := by
  cases a <;> cases b <;> simp [removeAsset, Whitelist.Has, has_remove_iff]

theorem removeAssets_has : ∀ (l : List AssetInfo) (w : Whitelist) (b : AssetInfo),
    (removeAssets w l).Has b ↔ (b ∉ l ∧ w.Has b)
  | [], w, b => by simp [removeAssets]
  | a :: l, w, b => by
    have := removeAssets_has l (removeAsset w a) b
    unfold removeAssets at this ⊢
    rw [List.foldl_cons, this, removeAsset_has, List.mem_cons]
    tauto

theorem sets_has (l : List Addr) (m : Map Addr Unit) (b : Addr) :
    (l.foldl (fun m a => m.set a ()) m).has b = true ↔ (b ∈ l ∨ m.has b = true) := by
  induction l generalizing m with
  | nil => simp
  | cons a l ih =>
    rw [List.foldl_cons, ih, has_set_iff, List.mem_cons]
    tauto

theorem removes_has (l : List Addr) (m : Map Addr Unit) (b : Addr) :
    (l.foldl (fun m a => m.remove a) m).has b = true ↔ (b ∉ l ∧ m.has b = true) := by
  induction l generalizing m with
  | nil => simp
  | cons a l ih =>
    rw [List.foldl_cons, ih, has_remove_iff, List.mem_cons]
    tauto

end Verif.Treasury
