import Verif.Pages.Props
import Verif.Factory.Props
import Verif.Versioning.Props
import Verif.Outposts.Props

/-!
# Reading pages while the data changes (C167)

C14, C62, C67, C69, C75, C82 and C93 read all pages of one state. Here every page may be read in another state.
-/

set_option linter.unusedSimpArgs false

namespace Verif.Pages

/-! ## Specification -/

/-- What a client does over time: ask for a page, then for the page after the last item received, until a page comes
empty. Every page is read in the state of that moment. `ReadsOver q cursor after rs` says that `rs` are the states and the
pages received in them, from the cursor `after` on; `q s after page` says that `page` is the answer in the state `s`. -/
inductive ReadsOver {S K X : Type} (q : S → Option K → List X → Prop) (cursor : X → K) :
    Option K → List (S × List X) → Prop
  | stop {s after} : q s after [] → ReadsOver q cursor after [(s, [])]
  | more {s after page x rs} : q s after page → page.getLast? = some x → ReadsOver q cursor (some (cursor x)) rs →
      ReadsOver q cursor after ((s, page) :: rs)

/-- What is expected of such a reading: nothing is listed twice, every item listed was there when its page was read, as
listed, and what was there all the time is listed. -/
def Faithful {S K X : Type} (cursor : X → K) (there : S → X → Prop) (rs : List (S × List X)) : Prop :=
  ((rs.flatMap (·.2)).map cursor).Nodup ∧
  (∀ r ∈ rs, ∀ x ∈ r.2, there r.1 x) ∧
  ∀ k, (∀ r ∈ rs, ∃ x, there r.1 x ∧ cursor x = k) → ∃ r ∈ rs, ∃ x ∈ r.2, cursor x = k

/-- Each state comes from the one before. -/
def Successive {S X : Type} (next : S → S → Prop) : List (S × List X) → Prop
  | a :: b :: rs => next a.1 b.1 ∧ Successive next (b :: rs)
  | _ => True

/-! ## Lemmas -/

/-- One page: in order, only what is past the cursor, and what is past the cursor and left out comes after the last
item. -/
def Orderly {K X : Type} (lt : K → K → Prop) (cursor : X → K) (there : X → Prop) (after : Option K) (page : List X) : Prop :=
  page.Pairwise (fun x y => lt (cursor x) (cursor y)) ∧
  (∀ x ∈ page, there x ∧ ∀ a, after = some a → lt a (cursor x)) ∧
  ∀ x, there x → (∀ a, after = some a → lt a (cursor x)) →
    x ∈ page ∨ ∃ y, page.getLast? = some y ∧ lt (cursor y) (cursor x)

theorem orderly_take {K X : Type} {lt : K → K → Prop} {cursor : X → K} {there : X → Prop} {after : Option K} {l : List X}
    (hs : l.Pairwise (fun x y => lt (cursor x) (cursor y)))
    (hl : ∀ x, x ∈ l ↔ there x ∧ ∀ a, after = some a → lt a (cursor x)) {n : Nat} (hn : 0 < n) :
    Orderly lt cursor there after (l.take n) := by
  refine ⟨hs.sublist (List.take_sublist _ _), fun x hx => (hl x).1 (List.mem_of_mem_take hx), fun x h1 h2 => ?_⟩
  have hx := (hl x).2 ⟨h1, h2⟩
  rw [← List.take_append_drop n l] at hx hs
  rcases List.mem_append.1 hx with h | h
  · exact .inl h
  · right
    have hne : l.take n ≠ [] := by
      intro h0
      rcases List.take_eq_nil_iff.1 h0 with h1 | h1
      · omega
      · rw [h1] at h; simp at h
    obtain ⟨y, hy⟩ := Option.ne_none_iff_exists'.1 (fun h0 => hne (List.getLast?_eq_none_iff.1 h0))
    exact ⟨y, hy, (List.pairwise_append.1 hs).2.2 y (List.mem_of_getLast? hy) x h⟩

theorem readsOver_nodup {S K X : Type} {q : S → Option K → List X → Prop} {cursor : X → K} {lt : K → K → Prop}
    (htr : ∀ a b c, lt a b → lt b c → lt a c) {there : S → X → Prop}
    (hq : ∀ s after page, q s after page → Orderly lt cursor (there s) after page) {after : Option K}
    {rs : List (S × List X)} (h : ReadsOver q cursor after rs) :
    (rs.flatMap (·.2)).Pairwise (fun x y => lt (cursor x) (cursor y)) ∧
    ∀ x ∈ rs.flatMap (·.2), ∀ a, after = some a → lt a (cursor x) := by
  induction h with
  | stop h => simp
  | @more s after page x rs hp hx _ ih =>
    obtain ⟨h1, h2, _⟩ := hq _ _ _ hp
    obtain ⟨ih1, ih2⟩ := ih
    have hlast : ∀ y ∈ page, y = x ∨ lt (cursor y) (cursor x) := by
      intro y hy
      obtain ⟨i, hi⟩ := List.getLast?_eq_some_iff.1 hx
      rw [hi] at hy h1
      rcases List.mem_append.1 hy with h | h
      · exact .inr ((List.pairwise_append.1 h1).2.2 y h x (by simp))
      · exact .inl (by simpa using h)
    have hafter : ∀ y ∈ page, ∀ z ∈ rs.flatMap (·.2), lt (cursor y) (cursor z) := by
      intro y hy z hz
      have hxz := ih2 z hz _ rfl
      rcases hlast y hy with rfl | h
      · exact hxz
      · exact htr _ _ _ h hxz
    rw [List.flatMap_cons]
    refine ⟨List.pairwise_append.2 ⟨h1, ih1, hafter⟩, fun z hz a ha => ?_⟩
    rcases List.mem_append.1 hz with h | h
    · exact (h2 z h).2 a ha
    · exact htr _ _ _ ((h2 x (List.mem_of_getLast? hx)).2 a ha) (hafter x (List.mem_of_getLast? hx) z h)

theorem readsOver_there {S K X : Type} {q : S → Option K → List X → Prop} {cursor : X → K} {lt : K → K → Prop}
    {there : S → X → Prop} (hq : ∀ s after page, q s after page → Orderly lt cursor (there s) after page)
    {after : Option K} {rs : List (S × List X)} (h : ReadsOver q cursor after rs) :
    ∀ r ∈ rs, ∀ x ∈ r.2, there r.1 x := by
  induction h with
  | stop h => simp
  | @more s after page x rs hp hx _ ih =>
    intro r hr y hy
    rcases List.mem_cons.1 hr with rfl | hr
    · exact ((hq _ _ _ hp).2.1 y hy).1
    · exact ih r hr y hy

theorem readsOver_q {S K X : Type} {q : S → Option K → List X → Prop} {cursor : X → K} {after : Option K}
    {rs : List (S × List X)} (h : ReadsOver q cursor after rs) : ∀ r ∈ rs, ∃ after, q r.1 after r.2 := by
  induction h with
  | stop h =>
    intro r hr
    rw [List.mem_singleton.1 hr]
    exact ⟨_, h⟩
  | more hp _ _ ih =>
    intro r hr
    rcases List.mem_cons.1 hr with rfl | hr
    · exact ⟨_, hp⟩
    · exact ih r hr

theorem readsOver_all {S K X : Type} {q : S → Option K → List X → Prop} {cursor : X → K} {lt : K → K → Prop}
    {there : S → X → Prop} (hq : ∀ s after page, q s after page → Orderly lt cursor (there s) after page)
    {after : Option K} {rs : List (S × List X)} (h : ReadsOver q cursor after rs) {k : K}
    (hk : ∀ r ∈ rs, ∃ x, there r.1 x ∧ cursor x = k) (ha : ∀ a, after = some a → lt a k) :
    ∃ r ∈ rs, ∃ x ∈ r.2, cursor x = k := by
  induction h with
  | @stop s after h =>
    obtain ⟨x, hx, rfl⟩ := hk (s, []) (by simp)
    rcases (hq _ _ _ h).2.2 x hx ha with h | ⟨y, hy, _⟩
    · simp at h
    · simp at hy
  | @more s after page y rs hp hy _ ih =>
    obtain ⟨x, hx, rfl⟩ := hk (s, page) (by simp)
    rcases (hq _ _ _ hp).2.2 x hx ha with h | ⟨z, hz, hlt⟩
    · exact ⟨(s, page), by simp, x, h, rfl⟩
    · rw [hy] at hz
      cases hz
      obtain ⟨r, hr, x', hx', he⟩ := ih (fun r hr => hk r (by simp [hr])) (fun a ha => by cases ha; exact hlt)
      exact ⟨r, by simp [hr], x', hx', he⟩

theorem faithful {S K X : Type} {q : S → Option K → List X → Prop} {cursor : X → K} (lt : K → K → Prop)
    (hir : ∀ a, ¬ lt a a) (htr : ∀ a b c, lt a b → lt b c → lt a c) {there : S → X → Prop}
    (hq : ∀ s after page, q s after page → Orderly lt cursor (there s) after page) {rs : List (S × List X)}
    (h : ReadsOver q cursor none rs) : Faithful cursor there rs := by
  refine ⟨?_, readsOver_there hq h, fun k hk => readsOver_all hq h hk (fun _ h => by cases h)⟩
  rw [List.nodup_iff_pairwise_ne, List.pairwise_map]
  refine (readsOver_nodup htr hq h).1.imp fun {x y} hxy he => ?_
  rw [he] at hxy
  exact hir _ hxy

/-- What holds in the first state and is kept from state to state holds in all of them. -/
theorem successive_all {S X : Type} {next : S → S → Prop} {s : S} {page : List X} {rs : List (S × List X)}
    (h : Successive next ((s, page) :: rs)) {P : S → Prop} (hk : ∀ s s', next s s' → P s → P s') (h0 : P s) :
    ∀ r ∈ (s, page) :: rs, P r.1 := by
  induction rs generalizing s page with
  | nil =>
    intro r hr
    rw [List.mem_singleton] at hr
    rw [hr]; exact h0
  | cons r' rs ih =>
    intro r hr
    obtain ⟨s', page'⟩ := r'
    rcases List.mem_cons.1 hr with rfl | hr
    · exact h0
    · exact ih h.2 (hk _ _ h.1 h0) r hr

section
variable {K V : Type} [LinearOrder K]

theorem orderly_page {X : Type} (m : Map K V) (after : Option K) {n : Nat} (hn : 0 < n) (g : K × V → X) (cursor : X → K)
    (hg : ∀ e ∈ m.entries, cursor (g e) = e.1) :
    Orderly (· < ·) cursor (fun x => ∃ k v, m.get k = some v ∧ x = g (k, v)) after ((m.page after n).map g) := by
  rw [page_eq, List.map_take]
  refine orderly_take ?_ (fun x => ?_) hn
  · rw [List.pairwise_map]
    have hs := afterL_sorted (after := after) m.sorted
    refine List.Pairwise.imp_of_mem (fun {a b} ha hb hab => ?_) hs
    rw [hg a (List.mem_filter.1 ha).1, hg b (List.mem_filter.1 hb).1]
    exact hab
  · rw [List.mem_map]
    constructor
    · rintro ⟨e, he, rfl⟩
      have hin := (List.mem_filter.1 he).1
      obtain ⟨h1, h2⟩ := mem_afterL.1 he
      exact ⟨⟨e.1, e.2, h1, rfl⟩, by rw [hg e hin]; exact h2⟩
    · rintro ⟨⟨k, v, h1, rfl⟩, h2⟩
      rw [hg _ (Map.get_eq_some_iff.1 h1)] at h2
      exact ⟨(k, v), mem_afterL.2 ⟨h1, h2⟩, rfl⟩

theorem orderly_ranged {C : Type} [LinearOrder C] (m : Map K V) (emb : C → K) (hemb : ∀ a b, emb a < emb b ↔ a < b)
    (after : Option C) (endAt : Option K) {limit : Option Nat} (h0 : limit ≠ some 0)
    (hl : ∀ n, limit = some n → n < 2 ^ 32) (cursor : V → C) (hg : ∀ e ∈ m.entries, emb (cursor e.2) = e.1) :
    Orderly (· < ·) cursor (fun v => ∃ k, m.get k = some v ∧ Until endAt k) after
      ((Gov.ranged m.entries (after.map emb) endAt limit false).map (·.2)) := by
  unfold Gov.ranged
  extract_lets r
  have hr : ∀ e, e ∈ r ↔ m.get e.1 = some e.2 ∧ (∀ a, after = some a → emb a < e.1) ∧ Until endAt e.1 := by
    intro e
    simp only [r, List.mem_filter, Map.get_eq_some_iff, Until, Bool.and_eq_true]
    cases after <;> cases endAt <;> simp
  have hs : (r.map (·.2)).Pairwise (fun x y => cursor x < cursor y) := by
    rw [List.pairwise_map]
    refine List.Pairwise.imp_of_mem (fun {a b} ha hb hab => ?_) (m.sorted.filter _)
    rw [← hemb, hg a (Map.get_eq_some_iff.1 ((hr a).1 ha).1), hg b (Map.get_eq_some_iff.1 ((hr b).1 hb).1)]
    exact hab
  have hm : ∀ x, x ∈ r.map (·.2) ↔ (∃ k, m.get k = some x ∧ Until endAt k) ∧ ∀ a, after = some a → a < cursor x := by
    intro x
    rw [List.mem_map]
    constructor
    · rintro ⟨e, he, rfl⟩
      obtain ⟨h1, h2, h3⟩ := (hr e).1 he
      refine ⟨⟨e.1, h1, h3⟩, fun a ha => ?_⟩
      rw [← hemb, hg e (Map.get_eq_some_iff.1 h1)]
      exact h2 a ha
    · rintro ⟨⟨k, h1, h3⟩, h2⟩
      refine ⟨(k, x), (hr _).2 ⟨h1, fun a ha => ?_, h3⟩, rfl⟩
      have := (hemb a (cursor x)).2 (h2 a ha)
      rw [hg (k, x) (Map.get_eq_some_iff.1 h1)] at this
      exact this
  cases limit with
  | none =>
    have := orderly_take (n := (r.map (·.2)).length + 1) hs hm (by omega)
    rw [List.take_of_length_le (by omega)] at this
    exact this
  | some n =>
    have hn : n ≠ 0 := fun h => h0 (by rw [h])
    have := orderly_take (n := n) hs hm (by omega)
    rw [← List.map_take] at this
    show Orderly _ _ _ _ ((r.take (n % 2 ^ 32)).map (·.2))
    rw [Nat.mod_eq_of_lt (hl n rfl)]
    exact this

end

theorem orderly_congr {K X : Type} {lt : K → K → Prop} {cursor : X → K} {there there' : X → Prop} {after : Option K}
    {page : List X} (h : Orderly lt cursor there after page) (he : ∀ x, there x ↔ there' x) :
    Orderly lt cursor there' after page := by
  have : there = there' := funext fun x => propext (he x)
  rwa [← this]

theorem bound_pos {limit : Option Nat} (h : limit ≠ some 0) {d m : Nat} (hd : 0 < d) (hm : 0 < m) :
    0 < min (limit.getD d) m := by
  cases limit with
  | none => simp only [Option.getD_none]; omega
  | some n =>
    have : n ≠ 0 := fun h0 => h (by rw [h0])
    simp only [Option.getD_some]; omega

/-! ## C167 -/

/-- C167: members and their weights, of any of the membership contracts: read page by page with any positive limit while
members come, go and change their weights, nobody is listed twice, everybody is listed with the weight of that moment, and
whoever is a member all the time is listed. -/
theorem C167_members {limit : Option Nat} (hl : limit ≠ some 0) {rs : List (Members × List (Addr × Nat))}
    (h : ReadsOver (fun m after page => m.queryMembers after limit = page) (·.1) none rs) :
    Faithful (·.1) (fun m e => m.weights.get e.1 = some e.2) rs := by
  refine faithful (· < ·) lt_irrefl (fun _ _ _ => lt_trans) (fun m after page hp => ?_) h
  rw [← hp]
  refine orderly_congr (orderly_page m.weights after (bound_pos hl (d := 50) (m := 100) (by decide) (by decide))
    (fun e : Addr × Nat => e) (fun e => e.1) (fun _ _ => rfl)) fun x => ?_
  constructor
  · rintro ⟨k, v, h1, rfl⟩; exact h1
  · intro h1; exact ⟨x.1, x.2, h1, rfl⟩

/-- C167: staked NFTs, all or those of one user. -/
theorem C167_staked_nfts {limit : Option Nat} (hl : limit ≠ some 0) {rs : List (Nft.State × List Nat)} :
    (ReadsOver (fun s after page => Nft.queryStaked s after limit = page) id none rs →
      Faithful id (fun s t => ∃ u, s.stakes.get t = some u) rs) ∧
    ∀ u, ReadsOver (fun s after page => (Nft.queryUserStake s u after limit).1 = page) id none rs →
      Faithful id (fun s t => s.stakes.get t = some u) rs := by
  constructor
  · refine faithful (· < ·) lt_irrefl (fun _ _ _ => lt_trans) (fun s after page hp => ?_)
    rw [← hp]
    refine orderly_congr (orderly_page s.stakes after (bound_pos hl (by decide) (by decide)) _ id (fun _ _ => rfl))
      fun x => ?_
    constructor
    · rintro ⟨k, v, h1, rfl⟩; exact ⟨v, h1⟩
    · rintro ⟨v, h1⟩; exact ⟨x, v, h1, rfl⟩
  · intro u
    refine faithful (· < ·) lt_irrefl (fun _ _ _ => lt_trans) (fun s after page hp => ?_)
    rw [← hp]
    refine orderly_congr (orderly_page (s.stakes.filter (fun _ v => decide (v = u))) after
      (bound_pos hl (by decide) (by decide)) _ id (fun _ _ => rfl)) fun x => ?_
    constructor
    · rintro ⟨k, v, h1, rfl⟩
      rw [Map.get_eq_some_iff] at h1
      obtain ⟨h1, h3⟩ := List.mem_filter.1 h1
      have h3 : v = u := by simpa using h3
      rw [Map.get_eq_some_iff, ← h3]; exact h1
    · intro h1
      refine ⟨x, u, ?_, rfl⟩
      rw [Map.get_eq_some_iff] at h1 ⊢
      exact List.mem_filter.2 ⟨h1, by simp⟩

theorem later_irrefl (a : AssetInfo) : ¬ Later a a := by
  cases a <;> simp [Later]

theorem later_trans (a b c : AssetInfo) : Later a b → Later b c → Later a c := by
  cases a <;> cases b <;> cases c <;> simp only [Later, false_imp_iff, imp_true_iff, forall_true_left, implies_true,
    imp_self] <;> intro h1 h2
  all_goals first
    | exact lt_trans h1 h2
    | (rcases h1 with h1 | ⟨h1, h3⟩ <;> rcases h2 with h2 | ⟨h2, h4⟩
       · exact .inl (lt_trans h1 h2)
       · exact .inl (h2 ▸ h1)
       · exact .inl (h1 ▸ h2)
       · exact .inr ⟨h1.trans h2, lt_trans h3 h4⟩)

theorem rest_sorted (w : Treasury.Whitelist) (after : Option AssetInfo) : (Treasury.rest w after).Pairwise Later := by
  have h1 : ∀ o, (Treasury.restNative w o).Pairwise Later := fun o => by
    unfold Treasury.restNative
    rw [List.pairwise_map]
    exact (afterL_sorted w.native.sorted).imp fun h => h
  have h2 : ∀ o, (Treasury.restCw20 w o).Pairwise Later := fun o => by
    unfold Treasury.restCw20
    rw [List.pairwise_map]
    exact (afterL_sorted w.cw20.sorted).imp fun h => h
  have h3 : ∀ o, (Treasury.restCw1155 w o).Pairwise Later := fun o => by
    unfold Treasury.restCw1155
    rw [List.pairwise_map]
    exact (afterL_sorted w.cw1155.sorted).imp fun h => Prod.Lex.lt_iff.1 h
  have h12 : ∀ o o', ∀ a ∈ Treasury.restNative w o, ∀ b ∈ Treasury.restCw20 w o', Later a b := by
    intro o o' a ha b hb
    obtain ⟨_, _, rfl⟩ := List.mem_map.1 ha
    obtain ⟨_, _, rfl⟩ := List.mem_map.1 hb
    trivial
  have h13 : ∀ o o', ∀ a ∈ Treasury.restNative w o, ∀ b ∈ Treasury.restCw1155 w o', Later a b := by
    intro o o' a ha b hb
    obtain ⟨_, _, rfl⟩ := List.mem_map.1 ha
    obtain ⟨_, _, rfl⟩ := List.mem_map.1 hb
    trivial
  have h23 : ∀ o o', ∀ a ∈ Treasury.restCw20 w o, ∀ b ∈ Treasury.restCw1155 w o', Later a b := by
    intro o o' a ha b hb
    obtain ⟨_, _, rfl⟩ := List.mem_map.1 ha
    obtain ⟨_, _, rfl⟩ := List.mem_map.1 hb
    trivial
  have hn : ∀ o, (Treasury.restNative w o ++ Treasury.restCw20 w none ++ Treasury.restCw1155 w none).Pairwise Later := by
    intro o
    refine List.pairwise_append.2 ⟨List.pairwise_append.2 ⟨h1 o, h2 none, h12 o none⟩, h3 none, fun a ha b hb => ?_⟩
    rcases List.mem_append.1 ha with ha | ha
    · exact h13 _ _ a ha b hb
    · exact h23 _ _ a ha b hb
  rcases after with _ | d | a | ⟨a, i⟩
  · exact hn none
  · exact hn (some d)
  · exact List.pairwise_append.2 ⟨h2 _, h3 _, h23 _ _⟩
  · exact h3 _

/-- C167: the assets and the NFT collections on the whitelists of a treasury. -/
theorem C167_whitelists {limit : Option Nat} (hl : limit ≠ some 0) :
    (∀ rs, ReadsOver (fun (s : Treasury.State) after page => Treasury.queryAssets s.assets after limit = page) id none rs →
      Faithful id (fun s a => s.assets.Has a) rs) ∧
    ∀ rs, ReadsOver (fun (s : Treasury.State) after page => Treasury.queryNfts s after limit = page) id none rs →
      Faithful id (fun s a => s.nfts.has a = true) rs := by
  constructor
  · intro rs
    refine faithful Later later_irrefl later_trans (fun s after page hp => ?_)
    rw [← hp, Treasury.queryAssets_eq]
    have hrest : ∀ x, x ∈ Treasury.rest s.assets after ↔ s.assets.Has x ∧ ∀ b, after = some b → Later b (id x) := by
      intro x
      unfold Treasury.rest Treasury.restNative Treasury.restCw20 Treasury.restCw1155 Treasury.Whitelist.Has
      have hl : ∀ (a b : Addr) (i j : Nat), toLex (a, i) < toLex (b, j) ↔ a < b ∨ (a = b ∧ i < j) := by
        intro a b i j
        exact Prod.Lex.toLex_lt_toLex
      rcases after with _ | d | a | ⟨a, i⟩ <;> cases x <;>
        simp [mem_afterL, List.mem_append, List.mem_map, Past, Map.has_iff, Later, hl, Map.get_eq_some_iff]
    exact orderly_take (rest_sorted s.assets after) hrest (bound_pos hl (by decide) (by decide))
  · intro rs
    refine faithful (· < ·) lt_irrefl (fun _ _ _ => lt_trans) (fun s after page hp => ?_)
    rw [← hp]
    refine orderly_congr (orderly_page s.nfts after (bound_pos hl (by decide) (by decide)) _ id (fun _ _ => rfl))
      fun x => ?_
    constructor
    · rintro ⟨k, v, h1, rfl⟩; exact Map.has_iff.2 ⟨v, h1⟩
    · intro h1
      obtain ⟨v, h1⟩ := Map.has_iff.1 h1
      exact ⟨x, v, h1, rfl⟩

/-- C167: treasuries on other chains. None is ever removed or replaced, so that all those there at the start are listed. -/
theorem C167_treasuries {limit : Option Nat} (hl : limit ≠ some 0) {s : Outposts.State} {page : List (Nat × Nat)}
    {rs : List (Outposts.State × List (Nat × Nat))}
    (h : ReadsOver (fun s after page => Outposts.queryTreasuries s after limit = page) (·.1) none ((s, page) :: rs)) :
    Faithful (·.1) (fun s e => s.treasuries.get e.1 = some e.2) ((s, page) :: rs) ∧
    (Successive (fun s s' => ∃ l, s' = Outposts.run s l) ((s, page) :: rs) →
      ∀ chain t, s.treasuries.get chain = some t → ∃ r ∈ (s, page) :: rs, (chain, t) ∈ r.2) := by
  have hf : Faithful (·.1) (fun s e => s.treasuries.get e.1 = some e.2) ((s, page) :: rs) := by
    refine faithful (· < ·) lt_irrefl (fun _ _ _ => lt_trans) (fun s after page hp => ?_) h
    rw [← hp]
    have := orderly_page s.treasuries after (bound_pos hl (d := 50) (m := 100) (by decide) (by decide))
      (fun e : Nat × Nat => e) (fun e => e.1) (fun _ _ => rfl)
    rw [List.map_id'] at this
    refine orderly_congr this fun x => ?_
    constructor
    · rintro ⟨k, v, h1, rfl⟩; exact h1
    · intro h1; exact ⟨x.1, x.2, h1, rfl⟩
  refine ⟨hf, fun hsucc chain t h0 => ?_⟩
  have hstay := successive_all hsucc (P := fun s => s.treasuries.get chain = some t) (fun s s' ⟨l, hl⟩ hp => by
    rw [hl]; exact (Outposts.C68_never_replaced s l chain).2 t hp) h0
  obtain ⟨r, hr, x, hx, hk⟩ := hf.2.2 chain fun r hr => ⟨(chain, t), hstay r hr, rfl⟩
  have hx' : r.1.treasuries.get x.1 = some x.2 := hf.2.1 r hr x hx
  have hk : x.1 = chain := hk
  rw [hk, hstay r hr] at hx'
  cases hx'
  exact ⟨r, hr, by rw [← hk]; exact hx⟩

theorem orderly_daos {limit : Option Nat} (hl : limit ≠ some 0) (s : Factory.State) (after : Option Nat) :
    Orderly (· < ·) (·.1) (fun e => s.daos.get e.1 = some e.2) after (Factory.queryAllDaos s after limit) := by
  have := orderly_page s.daos after (bound_pos hl (d := 50) (m := 100) (by decide) (by decide))
    (fun e : Nat × Addr => e) (fun e => e.1) (fun _ _ => rfl)
  rw [List.map_id'] at this
  refine orderly_congr this fun x => ?_
  constructor
  · rintro ⟨k, v, h1, rfl⟩; exact h1
  · intro h1; exact ⟨x.1, x.2, h1, rfl⟩

/-- C167: the DAOs of the factory. -/
theorem C167_daos {limit : Option Nat} (hl : limit ≠ some 0) {rs : List (Factory.State × List (Nat × Addr))}
    (h : ReadsOver (fun s after page => Factory.queryAllDaos s after limit = page) (·.1) none rs) :
    Faithful (·.1) (fun s e => s.daos.get e.1 = some e.2) rs := by
  refine faithful (· < ·) lt_irrefl (fun _ _ _ => lt_trans) (fun s after page hp => ?_) h
  rw [← hp]
  exact orderly_daos hl s after

/-- C167: no DAO is ever removed from the factory or replaced, so that all those there at the start are listed. Here the
states are given with the histories that lead to them. (Fewer than 2^64 - 1 messages.) -/
theorem C167_all_daos {limit : Option Nat} (hl : limit ≠ some 0) {self : Addr} {config : Factory.Config}
    {a n : Option (List Nat)} {l : List (Factory.Msg × Factory.Trace)} {s : Factory.State} {page : List (Nat × Addr)}
    {rs : List ((List (Factory.Msg × Factory.Trace) × Factory.State) × List (Nat × Addr))}
    (h : ReadsOver (fun x after page => Factory.Hist self (Factory.init config a n) x.1 x.2 ∧ x.1.length < 2 ^ 64 - 1 ∧
      Factory.queryAllDaos x.2 after limit = page) (·.1) none (((l, s), page) :: rs))
    (hnext : Successive (fun x y => ∃ t, y.1 = x.1 ++ t) (((l, s), page) :: rs)) {i : Nat} {dao : Addr}
    (hi : s.daos.get i = some dao) : ∃ r ∈ ((l, s), page) :: rs, (i, dao) ∈ r.2 := by
  have hf : Faithful (·.1) (fun (x : List (Factory.Msg × Factory.Trace) × Factory.State) e => x.2.daos.get e.1 = some e.2)
      (((l, s), page) :: rs) := by
    refine faithful (· < ·) lt_irrefl (fun _ _ _ => lt_trans) (fun x after page hp => ?_) h
    rw [← hp.2.2]
    exact orderly_daos hl x.2 after
  have hwas := readsOver_q h
  have hnum : ∀ r ∈ ((l, s), page) :: rs, ∀ j d, r.1.2.daos.get j = some d ↔ 1 ≤ j ∧ (Factory.created r.1.1)[j - 1]? = some d :=
    fun r hr => by
      obtain ⟨_, h1, h2, _⟩ := hwas r hr
      exact (Factory.C69_numbers self config a n r.1.1 r.1.2 h1 h2).2
  have h1 := (hnum ((l, s), page) (by simp) i dao).1 hi
  have hstay := successive_all hnext (P := fun x => (Factory.created x.1)[i - 1]? = some dao) (fun x y ⟨t, ht⟩ hx => by
    have : Factory.created y.1 = Factory.created x.1 ++ Factory.created t := by
      rw [ht]; simp [Factory.created]
    rw [this, List.getElem?_append_left (List.getElem?_eq_some_iff.1 hx).1]
    exact hx) h1.2
  have hthere : ∀ r ∈ ((l, s), page) :: rs, r.1.2.daos.get i = some dao := fun r hr =>
    (hnum r hr i dao).2 ⟨h1.1, hstay r hr⟩
  obtain ⟨r, hr, x, hx, hk⟩ := hf.2.2 i fun r hr => ⟨(i, dao), hthere r hr, rfl⟩
  have hx' : r.1.2.daos.get x.1 = some x.2 := hf.2.1 r hr x hx
  have hk : x.1 = i := hk
  rw [hk, hthere r hr] at hx'
  cases hx'
  exact ⟨r, hr, by rw [← hk]; exact hx⟩

/-- C167: the versions of the registry, which are never removed either. -/
theorem C167_versions {limit : Option Nat} (hl : limit ≠ some 0) (a : Addr) {l : List Versioning.Call}
    {page : List Versioning.Info} {rs : List (List Versioning.Call × List Versioning.Info)}
    (h : ReadsOver (fun l after page => Versioning.queryVersions (Versioning.run (Versioning.init a) l) after limit = page)
      (·.version) none ((l, page) :: rs)) :
    Faithful (·.version) (fun l v => Versioning.queryVersion (Versioning.run (Versioning.init a) l) v.version = .ok v)
      ((l, page) :: rs) ∧
    (Successive (fun l l' => ∃ t, l' = l ++ t) ((l, page) :: rs) →
      ∀ k v, Versioning.queryVersion (Versioning.run (Versioning.init a) l) k = .ok v →
        ∃ r ∈ (l, page) :: rs, ∃ x ∈ r.2, x.version = k) := by
  have hq : ∀ (s : Versioning.State) k v, Versioning.queryVersion s k = .ok v ↔ s.versions.get k = some v := by
    intro s k v
    unfold Versioning.queryVersion
    cases s.versions.get k with
    | none => simp
    | some x => simp
  have hf : Faithful (·.version) (fun l v => Versioning.queryVersion (Versioning.run (Versioning.init a) l) v.version = .ok v)
      ((l, page) :: rs) := by
    refine faithful (· < ·) lt_irrefl (fun _ _ _ => lt_trans) (fun l after page hp => ?_) h
    rw [← hp]
    have hfl : Versioning.Filed (Versioning.run (Versioning.init a) l) := Versioning.run_filed _ (Versioning.init_filed a)
    generalize Versioning.run (Versioning.init a) l = s at hfl
    refine orderly_congr (orderly_page s.versions after (bound_pos hl (d := 10) (m := 50) (by decide) (by decide))
      (fun e => e.2) (fun v => v.version) (fun e he => hfl _ _ (Map.get_eq_some_iff.2 he))) fun x => ?_
    simp only [hq]
    constructor
    · rintro ⟨k, v, h1, rfl⟩
      show s.versions.get x.version = some x
      rw [hfl _ _ h1]; exact h1
    · intro h1; exact ⟨x.version, x, h1, rfl⟩
  refine ⟨hf, fun hsucc k v h0 => ?_⟩
  have hstay := successive_all hsucc
    (P := fun l => ∃ v : Versioning.Info,
      Versioning.queryVersion (Versioning.run (Versioning.init a) l) k = .ok v ∧ v.version = k)
    (fun s s' ⟨t, ht⟩ ⟨v, hv, _⟩ => by
      rw [ht]
      exact Versioning.C67_never_removed a s t k v hv)
    (by
      obtain ⟨v', h1, h2⟩ := Versioning.C67_never_removed a l [] k v h0
      rw [List.append_nil] at h1
      exact ⟨v', h1, h2⟩)
  exact hf.2.2 k fun r hr => by
    obtain ⟨v, h1, h2⟩ := hstay r hr
    refine ⟨v, ?_, h2⟩
    show Versioning.queryVersion _ v.version = _
    rw [h2]; exact h1

theorem queryPoll_iff {s : Gov.State} {i : Nat} {p : Gov.Poll} : Gov.queryPoll s i = .ok p ↔ s.polls.get i = some p := by
  unfold Gov.queryPoll
  cases s.polls.get i with
  | none => simp
  | some x => simp

theorem orderly_polls {limit : Option Nat} (h0 : limit ≠ some 0) (hl : ∀ n, limit = some n → n < 2 ^ 32)
    (f : Option Gov.StatusFilter) (endAt : Option Nat) {s : Gov.State} (hs : Gov.Reachable s) (after : Option Nat) :
    Orderly (· < ·) (·.id)
      (fun p => Gov.queryPoll s p.id = .ok p ∧ (∀ x, f = some x → p.status.shows x = true) ∧ Until endAt p.id) after
      (Gov.queryPolls s f after endAt limit false) := by
  simp only [Gov.shows_iff, queryPoll_iff]
  unfold Gov.queryPolls
  extract_lets m
  have hm : ∀ i p, m.get i = some p ↔ s.polls.get i = some p ∧ ∀ x, f = some x → p.status.toFilter = x := by
    intro i p
    simp only [m]
    cases f with
    | none => simp
    | some f =>
      simp only [Map.get_eq_some_iff, Option.some.injEq, forall_eq']
      show (i, p) ∈ List.filter _ _ ↔ _
      rw [List.mem_filter]
      simp
  have hid : ∀ i p, m.get i = some p → p.id = i := fun i p hp => (hs.inv.pid i p ((hm i p).1 hp).1).1
  have := orderly_ranged m (fun n : Nat => n) (fun _ _ => Iff.rfl) after endAt h0 hl (fun p => p.id)
    (fun e he => hid _ _ (Map.get_eq_some_iff.2 he))
  rw [Option.map_id'] at this
  refine orderly_congr this fun x => ?_
  constructor
  · rintro ⟨k, h1, h2⟩
    have hk := hid _ _ h1
    rw [hk]
    exact ⟨((hm _ _).1 h1).1, ((hm _ _).1 h1).2, h2⟩
  · rintro ⟨h1, h2, h3⟩
    exact ⟨x.id, (hm _ _).2 ⟨h1, h2⟩, h3⟩

/-- C167: polls, in ascending order, with any filter and any last number. A poll that has the status asked for all the time
is listed. -/
theorem C167_polls {limit : Option Nat} (h0 : limit ≠ some 0) (hl : ∀ n, limit = some n → n < 2 ^ 32)
    (f : Option Gov.StatusFilter) (endAt : Option Nat) {rs : List (Gov.State × List Gov.Poll)}
    (h : ReadsOver (fun s after page => Gov.Reachable s ∧ Gov.queryPolls s f after endAt limit false = page) (·.id) none rs) :
    Faithful (·.id) (fun s p => Gov.queryPoll s p.id = .ok p ∧ (∀ x, f = some x → p.status.shows x = true) ∧ Until endAt p.id)
      rs := by
  refine faithful (· < ·) lt_irrefl (fun _ _ _ => lt_trans) (fun s after page hp => ?_) h
  rw [← hp.2]
  exact orderly_polls h0 hl f endAt hp.1 after

/-- C167: polls are never removed, so that all those there at the start are listed, whatever happens meanwhile. -/
theorem C167_all_polls {limit : Option Nat} (h0 : limit ≠ some 0) (hl : ∀ n, limit = some n → n < 2 ^ 32)
    {s : Gov.State} {page : List Gov.Poll} {rs : List (Gov.State × List Gov.Poll)}
    (h : ReadsOver (fun s after page => Gov.Reachable s ∧ Gov.queryPolls s none after none limit false = page) (·.id) none
      ((s, page) :: rs))
    (hnext : Successive (fun s s' => ∃ l, (∀ c ∈ l, c.msg.typed) ∧ s.pollCount + Gov.creates l < 2 ^ 64 ∧ s' = Gov.run s l)
      ((s, page) :: rs))
    {i : Nat} {p : Gov.Poll} (hp : Gov.queryPoll s i = .ok p) :
    ∃ r ∈ (s, page) :: rs, ∃ x ∈ r.2, x.id = i ∧ x.terms = p.terms := by
  have hf := C167_polls h0 hl none none h
  have hre : ∀ r ∈ (s, page) :: rs, Gov.Reachable r.1 := fun r hr => by
    obtain ⟨_, h1, _⟩ := readsOver_q h r hr
    exact h1
  have hstay : ∀ r ∈ (s, page) :: rs, ∃ q, Gov.queryPoll r.1 i = .ok q ∧ q.terms = p.terms := by
    clear hf h
    induction rs generalizing s page p with
    | nil =>
      intro r hr
      rw [List.mem_singleton] at hr
      rw [hr]; exact ⟨p, hp, rfl⟩
    | cons r' rs ih =>
      intro r hr
      obtain ⟨s', page'⟩ := r'
      rcases List.mem_cons.1 hr with rfl | hr
      · exact ⟨p, hp, rfl⟩
      · obtain ⟨⟨l, h1, h2, h3⟩, h4⟩ := hnext
        have h3 : s' = Gov.run s l := h3
        obtain ⟨p', hp', ht⟩ := Gov.C04_terms_immutable (hre _ (List.mem_cons_self)) hp l h1 h2
        rw [← h3] at hp'
        obtain ⟨q, hq1, hq2⟩ := ih h4 hp' (fun r hr => hre r (List.mem_cons_of_mem _ hr)) r hr
        exact ⟨q, hq1, hq2.trans ht⟩
  obtain ⟨r, hr, x, hx, hk⟩ := hf.2.2 i fun r hr => by
    obtain ⟨q, hq, _⟩ := hstay r hr
    have hid := ((hre r hr).inv.pid _ _ (queryPoll_iff.1 hq)).1
    refine ⟨q, ⟨?_, (fun _ h => by cases h), (fun _ h => by cases h)⟩, hid⟩
    rw [hid]; exact hq
  obtain ⟨q, hq, ht⟩ := hstay r hr
  have hx' : Gov.queryPoll r.1 x.id = .ok x := (hf.2.1 r hr x hx).1
  have hk : x.id = i := hk
  rw [hk, hq] at hx'
  cases hx'
  exact ⟨r, hr, x, hx, hk, ht⟩

theorem orderly_poll_votes {limit : Option Nat} (h0 : limit ≠ some 0) (hl : ∀ n, limit = some n → n < 2 ^ 32) (i : Nat)
    (endAt : Option Addr) {s : Gov.State} (hs : Gov.Reachable s) (after : Option Addr) :
    Orderly (· < ·) (·.voter) (fun v => Gov.queryPollVoter s i v.voter = some v ∧ Until endAt v.voter) after
      (Gov.queryPollVoters s i after endAt limit false) := by
  unfold Gov.queryPollVoters
  have hlt : ∀ a b : Addr, Gov.vkey a i < Gov.vkey b i ↔ a < b := by
    intro a b
    show toLex (a, i) < toLex (b, i) ↔ _
    rw [Prod.Lex.toLex_lt_toLex]; simp
  have hle : ∀ a b : Addr, Gov.vkey a i ≤ Gov.vkey b i ↔ a ≤ b := by
    intro a b
    rw [← not_lt, hlt, not_lt]
  have hm : ∀ k v, (s.votes.filter (fun _ v => decide (v.pollId = i))).get k = some v ↔
      k = Gov.vkey v.voter i ∧ Gov.queryPollVoter s i v.voter = some v := by
    intro k v
    unfold Gov.queryPollVoter
    simp only [Map.get_eq_some_iff]
    show (k, v) ∈ List.filter _ _ ↔ _
    rw [List.mem_filter]
    constructor
    · rintro ⟨h1, h2⟩
      have h3 := (hs.inv.vkeys k v (Map.get_eq_some_iff.2 h1)).1
      have h2 : v.pollId = i := by simpa using h2
      rw [h2] at h3
      exact ⟨h3, by rw [← h3]; exact h1⟩
    · rintro ⟨rfl, h⟩
      have h3 := (hs.inv.vkeys _ v (Map.get_eq_some_iff.2 h)).1
      exact ⟨h, by simp [(Gov.vkey_inj.1 h3).2]⟩
  have hu : ∀ u, Until (endAt.map (Gov.vkey · i)) (Gov.vkey u i) ↔ Until endAt u := by
    intro u; cases endAt <;> simp [Until, hle]
  refine orderly_congr (orderly_ranged _ (Gov.vkey · i) hlt after _ h0 hl (fun v => v.voter)
    (fun e he => ((hm _ _).1 (Map.get_eq_some_iff.2 he)).1.symm)) fun x => ?_
  constructor
  · rintro ⟨k, h1, h2⟩
    obtain ⟨rfl, h3⟩ := (hm _ _).1 h1
    exact ⟨h3, (hu _).1 h2⟩
  · rintro ⟨h1, h2⟩
    exact ⟨_, (hm _ _).2 ⟨rfl, h1⟩, (hu _).2 h2⟩

/-- C167: the votes of a poll, up to any last voter. Whoever has a vote on the poll all the time is listed, also when the
vote changes. -/
theorem C167_poll_votes {limit : Option Nat} (h0 : limit ≠ some 0) (hl : ∀ n, limit = some n → n < 2 ^ 32) (i : Nat)
    (endAt : Option Addr) {rs : List (Gov.State × List Gov.Vote)}
    (h : ReadsOver (fun s after page => Gov.Reachable s ∧ Gov.queryPollVoters s i after endAt limit false = page) (·.voter)
      none rs) :
    Faithful (·.voter) (fun s v => Gov.queryPollVoter s i v.voter = some v ∧ Until endAt v.voter) rs := by
  refine faithful (· < ·) lt_irrefl (fun _ _ _ => lt_trans) (fun s after page hp => ?_) h
  rw [← hp.2]
  exact orderly_poll_votes h0 hl i endAt hp.1 after

/-- C167: the votes of one voter, over all polls. -/
theorem C167_voter_votes {limit : Option Nat} (h0 : limit ≠ some 0) (hl : ∀ n, limit = some n → n < 2 ^ 32) (voter : Addr)
    {rs : List (Gov.State × List Gov.Vote)}
    (h : ReadsOver (fun s after page => Gov.Reachable s ∧ Gov.queryVoter s voter after limit = page) (·.pollId) none rs) :
    Faithful (·.pollId) (fun s v => Gov.queryPollVoter s v.pollId voter = some v) rs := by
  refine faithful (· < ·) lt_irrefl (fun _ _ _ => lt_trans) (fun s after page hp => ?_) h
  obtain ⟨hs, hp⟩ := hp
  rw [← hp]
  unfold Gov.queryVoter
  have hlt : ∀ a b : Nat, Gov.vkey voter a < Gov.vkey voter b ↔ a < b := by
    intro a b
    show toLex (voter, a) < toLex (voter, b) ↔ _
    rw [Prod.Lex.toLex_lt_toLex]; simp
  have hm : ∀ k v, (s.votes.filter (fun k _ => decide ((ofLex k).1 = voter))).get k = some v ↔
      k = Gov.vkey voter v.pollId ∧ Gov.queryPollVoter s v.pollId voter = some v := by
    intro k v
    unfold Gov.queryPollVoter
    simp only [Map.get_eq_some_iff]
    show (k, v) ∈ List.filter _ _ ↔ _
    rw [List.mem_filter]
    constructor
    · rintro ⟨h1, h2⟩
      have h3 := (hs.inv.vkeys k v (Map.get_eq_some_iff.2 h1)).1
      have h2 : (ofLex k).1 = voter := by simpa using h2
      rw [h3, Gov.ofLex_vkey] at h2
      exact ⟨by rw [h3, ← h2], by rw [← h2, ← h3]; exact h1⟩
    · rintro ⟨rfl, h⟩
      exact ⟨h, by simp [Gov.ofLex_vkey]⟩
  refine orderly_congr (orderly_ranged _ (Gov.vkey voter ·) hlt after none h0 hl (fun v => v.pollId)
    (fun e he => ((hm _ _).1 (Map.get_eq_some_iff.2 he)).1.symm)) fun x => ?_
  constructor
  · rintro ⟨k, h1, h2⟩
    exact ((hm _ _).1 h1).2
  · intro h1
    exact ⟨_, (hm _ _).2 ⟨rfl, h1⟩, fun _ h => by cases h⟩

/-! ## Examples -/

/-- A reading of members in pages of one: after the first page member 5 leaves, member 6 gets another weight and member 7
joins; after the second page member 4 joins, behind the cursor, and member 9 leaves. Listed are 5, 6 and 7. -/
example :
    let m1 : Members := { Members.empty with weights := ((Map.empty.set 5 10).set 6 20).set 9 1 }
    let m2 : Members := { Members.empty with weights := ((Map.empty.set 6 30).set 7 2).set 9 1 }
    let m3 : Members := { Members.empty with weights := ((Map.empty.set 4 8).set 6 30).set 7 2 }
    ReadsOver (fun m after page => m.queryMembers after (some 1) = page) (·.1) none
      [(m1, [(5, 10)]), (m2, [(6, 30)]), (m3, [(7, 2)]), (m3, [])] := by
  refine .more (x := (5, 10)) (by decide +kernel) (by decide) ?_
  refine .more (x := (6, 30)) (by decide +kernel) (by decide) ?_
  refine .more (x := (7, 2)) (by decide +kernel) (by decide) ?_
  exact .stop (by decide +kernel)

/-- A reading of versions in pages of one while versions are added. -/
example :
    ReadsOver (fun l after page => Versioning.queryVersions (Versioning.run (Versioning.init 1) l) after (some 1) = page)
      (·.version) none
      [(Versioning.sampleCalls.take 2, [Versioning.sampleInfo (Versioning.ver 1 2 5) 21]),
       (Versioning.sampleCalls, [Versioning.sampleInfo (Versioning.ver 1 2 6) 24]),
       (Versioning.sampleCalls, [Versioning.sampleInfo (Versioning.ver 1 10 0) 20]), (Versioning.sampleCalls, [])] ∧
    Successive (fun l l' => ∃ t, l' = l ++ t)
      [(Versioning.sampleCalls.take 2, [Versioning.sampleInfo (Versioning.ver 1 2 5) 21]),
       (Versioning.sampleCalls, [Versioning.sampleInfo (Versioning.ver 1 2 6) 24]),
       (Versioning.sampleCalls, [Versioning.sampleInfo (Versioning.ver 1 10 0) 20]), (Versioning.sampleCalls, [])] := by
  constructor
  · refine .more (x := Versioning.sampleInfo (Versioning.ver 1 2 5) 21) (by decide +kernel) (by decide +kernel) ?_
    refine .more (x := Versioning.sampleInfo (Versioning.ver 1 2 6) 24) (by decide +kernel) (by decide +kernel) ?_
    refine .more (x := Versioning.sampleInfo (Versioning.ver 1 10 0) 20) (by decide +kernel) (by decide +kernel) ?_
    exact .stop (by decide +kernel)
  · exact ⟨⟨_, (List.take_append_drop 2 _).symm⟩, ⟨[], by simp⟩, ⟨[], by simp⟩, trivial⟩

/-- A reading of the votes on poll 1 in the sample history of the governance contract: voter 7 changes the option and the
weight between the two pages. -/
example : ∃ v w, ReadsOver (fun l after page =>
      Gov.queryPollVoters (Gov.run (Gov.init 1) l) 1 after none (some 1) false = page) (·.voter) none
      [(Gov.sample.take 4, [v]), (Gov.sample, [w]), (Gov.sample, [])] ∧
    (v.voter, v.amount, w.voter, w.amount) = (7, 40, 8, 30) := by
  refine ⟨(Gov.queryPollVoters (Gov.run (Gov.init 1) (Gov.sample.take 4)) 1 none none none false)[0]'(by decide +kernel),
    (Gov.queryPollVoters (Gov.run (Gov.init 1) Gov.sample) 1 none none none false)[1]'(by decide +kernel), ?_, by decide +kernel⟩
  refine .more (by decide +kernel) rfl ?_
  refine .more (by decide +kernel) rfl ?_
  exact .stop (by decide +kernel)

end Verif.Pages
