import Verif.Membership.Model
import Verif.Nft.Model
import Verif.Treasury.Lemmas
import Verif.Outposts.Model
import Verif.Versioning.Model
import Verif.Gov.Props
import Verif.Factory.Model

/-!
# Page sizes of the list queries (C88)
-/

namespace Verif.Pages

/-- What a client expects of one page: at most `bound` items, all of them wanted, and when there are fewer than
`bound` no wanted item is missing. -/
def Full {X : Type} (page : List X) (bound : Nat) (wanted : X → Prop) : Prop :=
  page.length ≤ bound ∧ (∀ x ∈ page, wanted x) ∧ (page.length < bound → ∀ x, wanted x → x ∈ page)

/-- The key `k` is past the cursor. -/
def Past {K : Type} [LinearOrder K] (after : Option K) (k : K) : Prop := ∀ a, after = some a → a < k

section
variable {K V : Type} [LinearOrder K]

theorem mem_afterL {after : Option K} {m : Map K V} {e : K × V} :
    e ∈ afterL after m.entries ↔ m.get e.1 = some e.2 ∧ Past after e.1 := by
  unfold afterL Past
  rw [List.mem_filter, Map.get_eq_some_iff]
  cases after with
  | none => simp
  | some a => simp

theorem full_take {X : Type} (l : List X) (n : Nat) : Full (l.take n) n (fun x => x ∈ l) := by
  refine ⟨by rw [List.length_take]; omega, fun x hx => List.mem_of_mem_take hx, fun h x hx => ?_⟩
  rw [List.length_take] at h
  rwa [List.take_of_length_le (by omega)]

theorem full_congr {X : Type} {l : List X} {n : Nat} {w w' : X → Prop} (h : Full l n w) (hw : ∀ x, w x ↔ w' x) :
    Full l n w' :=
  ⟨h.1, fun x hx => (hw x).1 (h.2.1 x hx), fun hl x hx => h.2.2 hl x ((hw x).2 hx)⟩

theorem full_map {X : Type} (m : Map K V) (after : Option K) (n : Nat) (g : K × V → X) :
    Full ((m.page after n).map g) n (fun x => ∃ k v, m.get k = some v ∧ Past after k ∧ x = g (k, v)) := by
  rw [page_eq, List.map_take]
  refine full_congr (full_take _ n) fun x => ?_
  rw [List.mem_map]
  constructor
  · rintro ⟨e, he, rfl⟩
    obtain ⟨h1, h2⟩ := mem_afterL.1 he
    exact ⟨e.1, e.2, h1, h2, rfl⟩
  · rintro ⟨k, v, h1, h2, rfl⟩
    exact ⟨(k, v), mem_afterL.2 ⟨h1, h2⟩, rfl⟩

theorem full_page (m : Map K V) (after : Option K) (n : Nat) :
    Full (m.page after n) n (fun e => m.get e.1 = some e.2 ∧ Past after e.1) := by
  rw [page_eq]
  exact full_congr (full_take _ n) fun e => mem_afterL

end

/-- C88: a page of members has at most `min (limit or 50) 100` members, all past the cursor and with their own weight,
and is only shorter when it has all of these. -/
theorem C88_members (m : Members) (after : Option Addr) (limit : Option Nat) :
    Full (m.queryMembers after limit) (min (limit.getD 50) 100)
      (fun e => m.weights.get e.1 = some e.2 ∧ Past after e.1) := by
  refine full_congr (full_map m.weights after _ _) fun x => ?_
  constructor
  · rintro ⟨k, v, h1, h2, rfl⟩; exact ⟨h1, h2⟩
  · rintro ⟨h1, h2⟩; exact ⟨x.1, x.2, h1, h2, rfl⟩

/-- C88: the pages of staked tokens of a collection. -/
theorem C88_staked_nfts (s : Nft.State) (after : Option Nat) (limit : Option Nat) :
    Full (Nft.queryStaked s after limit) (min (limit.getD 50) 100)
      (fun t => (∃ u, s.stakes.get t = some u) ∧ Past after t) := by
  refine full_congr (full_map s.stakes after _ _) fun x => ?_
  constructor
  · rintro ⟨k, v, h1, h2, rfl⟩; exact ⟨⟨v, h1⟩, h2⟩
  · rintro ⟨⟨v, h1⟩, h2⟩; exact ⟨x, v, h1, h2, rfl⟩

/-- C88: the pages of the tokens staked by one user. -/
theorem C88_user_nfts (s : Nft.State) (u : Addr) (after : Option Nat) (limit : Option Nat) :
    Full (Nft.queryUserStake s u after limit).1 (min (limit.getD 50) 100)
      (fun t => s.stakes.get t = some u ∧ Past after t) := by
  refine full_congr (full_map (s.stakes.filter (fun _ v => decide (v = u))) after _ _) fun x => ?_
  constructor
  · rintro ⟨k, v, h1, h2, rfl⟩
    rw [Map.get_eq_some_iff] at h1
    obtain ⟨h1, h3⟩ := List.mem_filter.1 h1
    have h3 : v = u := by simpa using h3
    exact ⟨by rw [Map.get_eq_some_iff, ← h3]; exact h1, h2⟩
  · rintro ⟨h1, h2⟩
    refine ⟨x, u, ?_, h2, rfl⟩
    rw [Map.get_eq_some_iff] at h1 ⊢
    exact List.mem_filter.2 ⟨h1, by simp⟩

/-- C88: the pages of whitelisted NFT collections of a treasury. -/
theorem C88_nft_whitelist (s : Treasury.State) (after : Option Addr) (limit : Option Nat) :
    Full (Treasury.queryNfts s after limit) (min (limit.getD 30) 100)
      (fun a => s.nfts.has a = true ∧ Past after a) := by
  refine full_congr (full_map s.nfts after _ _) fun x => ?_
  constructor
  · rintro ⟨k, v, h1, h2, rfl⟩; exact ⟨Map.has_iff.2 ⟨v, h1⟩, h2⟩
  · rintro ⟨h1, h2⟩
    obtain ⟨v, h1⟩ := Map.has_iff.1 h1
    exact ⟨x, v, h1, h2, rfl⟩

/-- The order in which a treasury lists its assets: native ones, then cw20 ones, then cw1155 ones. -/
def Later : AssetInfo → AssetInfo → Prop
  | .native d, .native d' => d < d'
  | .native _, _ => True
  | .cw20 a, .cw20 a' => a < a'
  | .cw20 _, .cw1155 _ _ => True
  | .cw1155 a i, .cw1155 a' i' => a < a' ∨ (a = a' ∧ i < i')
  | _, _ => False

/-- C88: the pages of whitelisted assets of a treasury: a page is only shorter than the bound when it has every
whitelisted asset past the cursor. -/
theorem C88_asset_whitelist (w : Treasury.Whitelist) (after : Option AssetInfo) (limit : Option Nat) :
    Full (Treasury.queryAssets w after limit) (min (limit.getD 30) 100)
      (fun a => w.Has a ∧ ∀ b, after = some b → Later b a) := by
  rw [Treasury.queryAssets_eq]
  refine full_congr (full_take _ _) fun x => ?_
  unfold Treasury.rest Treasury.restNative Treasury.restCw20 Treasury.restCw1155 Treasury.Whitelist.Has
  have hl : ∀ (a b : Addr) (i j : Nat), toLex (a, i) < toLex (b, j) ↔ a < b ∨ (a = b ∧ i < j) := by
    intro a b i j
    exact Prod.Lex.toLex_lt_toLex
  rcases after with _ | d | a | ⟨a, i⟩ <;> cases x <;>
    simp [mem_afterL, List.mem_append, List.mem_map, Past, Map.has_iff, Later, hl, Map.get_eq_some_iff]

/-- C88: the pages of treasuries on other chains. -/
theorem C88_treasuries (s : Outposts.State) (after : Option Nat) (limit : Option Nat) :
    Full (Outposts.queryTreasuries s after limit) (min (limit.getD 50) 100)
      (fun e => s.treasuries.get e.1 = some e.2 ∧ Past after e.1) :=
  full_page _ _ _

/-- C88: the pages of DAOs of the factory. -/
theorem C88_daos (s : Factory.State) (after : Option Nat) (limit : Option Nat) :
    Full (Factory.queryAllDaos s after limit) (min (limit.getD 50) 100)
      (fun e => s.daos.get e.1 = some e.2 ∧ Past after e.1) :=
  full_page _ _ _

/-- C88: the pages of versions of the registry. -/
theorem C88_versions (s : Versioning.State) (after : Option Versioning.Version) (limit : Option Nat) :
    Full (Versioning.queryVersions s after limit) (min (limit.getD 10) 50)
      (fun i => ∃ v, s.versions.get v = some i ∧ Past after v) := by
  refine full_congr (full_map s.versions after _ _) fun x => ?_
  constructor
  · rintro ⟨k, v, h1, h2, rfl⟩; exact ⟨k, h1, h2⟩
  · rintro ⟨k, h1, h2⟩; exact ⟨k, x, h1, h2, rfl⟩

section
variable {K V : Type} [LinearOrder K]

/-- The key `k` is not beyond the last key asked for. -/
def Until {K : Type} [LinearOrder K] (endAt : Option K) (k : K) : Prop := ∀ b, endAt = some b → k ≤ b

/-- As `Full`, where no bound means that nothing is left out. -/
def FullUpTo {X : Type} (page : List X) (bound : Option Nat) (wanted : X → Prop) : Prop :=
  (∀ n, bound = some n → page.length ≤ n) ∧ (∀ x ∈ page, wanted x) ∧
  ((∀ n, bound = some n → page.length < n) → ∀ x, wanted x → x ∈ page)

theorem fullUpTo_ranged {X : Type} (m : Map K V) (after endAt : Option K) (limit : Option Nat) (desc : Bool)
    (g : K × V → X) (hl : ∀ n, limit = some n → n < 2 ^ 32) :
    FullUpTo ((Gov.ranged m.entries after endAt limit desc).map g) limit
      (fun x => ∃ k v, m.get k = some v ∧ Past after k ∧ Until endAt k ∧ x = g (k, v)) := by
  unfold Gov.ranged
  extract_lets r r'
  have hr : ∀ e, e ∈ r ↔ m.get e.1 = some e.2 ∧ Past after e.1 ∧ Until endAt e.1 := by
    intro e
    simp only [r, List.mem_filter, Map.get_eq_some_iff, Past, Until, Bool.and_eq_true]
    cases after <;> cases endAt <;> simp
  have hr' : ∀ x, x ∈ r'.map g ↔ ∃ k v, m.get k = some v ∧ Past after k ∧ Until endAt k ∧ x = g (k, v) := by
    intro x
    have hmem : ∀ e, e ∈ r' ↔ e ∈ r := by
      intro e
      simp only [r']
      cases desc <;> simp
    rw [List.mem_map]
    constructor
    · rintro ⟨e, he, rfl⟩
      obtain ⟨h1, h2, h3⟩ := (hr e).1 ((hmem e).1 he)
      exact ⟨e.1, e.2, h1, h2, h3, rfl⟩
    · rintro ⟨k, v, h1, h2, h3, rfl⟩
      exact ⟨(k, v), (hmem _).2 ((hr _).2 ⟨h1, h2, h3⟩), rfl⟩
  cases limit with
  | none => exact ⟨(fun n h => by cases h), fun x hx => (hr' x).1 hx, fun _ x hx => (hr' x).2 hx⟩
  | some n =>
    show FullUpTo ((r'.take (n % 2 ^ 32)).map g) (some n) _
    rw [Nat.mod_eq_of_lt (hl n rfl), List.map_take]
    obtain ⟨h1, h2, h3⟩ := full_take (r'.map g) n
    exact ⟨(fun n' h => by cases h; exact h1), fun x hx => (hr' x).1 (h2 x hx),
      fun h x hx => h3 (h n rfl) x ((hr' x).2 hx)⟩

end

/-- C88: the pages of polls, in both orders and with any filter: at most `limit` polls, each stored under an id past
the cursor and not beyond the last id asked for, with the status asked for; and no poll is missing from a shorter
page. A limit of 2^32 or more would be cut, see `C14_wide_limit_witness`. -/
theorem C88_polls (s : Gov.State) (f : Option Gov.StatusFilter) (after endAt limit : Option Nat) (desc : Bool)
    (hl : ∀ n, limit = some n → n < 2 ^ 32) :
    FullUpTo (Gov.queryPolls s f after endAt limit desc) limit
      (fun p => ∃ i, s.polls.get i = some p ∧ (∀ x, f = some x → p.status.shows x = true) ∧ Past after i ∧ Until endAt i) := by
  simp only [Gov.shows_iff]
  unfold Gov.queryPolls
  extract_lets m
  have hm : ∀ i p, m.get i = some p ↔ s.polls.get i = some p ∧ ∀ x, f = some x → p.status.toFilter = x := by
    intro i p
    simp only [m]
    cases f with
    | none => simp
    | some f =>
      simp only [Map.get_eq_some_iff, Option.some.injEq, forall_eq']
      show (i, p) ∈ List.filter _ _ ↔ _
      rw [List.mem_filter]
      simp
  obtain ⟨h1, h2, h3⟩ := fullUpTo_ranged m after endAt limit desc (·.2) hl
  refine ⟨h1, fun x hx => ?_, fun h x hx => ?_⟩
  · obtain ⟨k, v, a, b, c, rfl⟩ := h2 x hx
    exact ⟨k, ((hm _ _).1 a).1, ((hm _ _).1 a).2, b, c⟩
  · obtain ⟨i, a, b, c, d⟩ := hx
    exact h3 h x ⟨i, x, (hm _ _).2 ⟨a, b⟩, c, d, rfl⟩

/-- C88: the pages of the votes of a poll. -/
theorem C88_poll_votes {s : Gov.State} (hs : Gov.Reachable s) (i : Nat) (after endAt : Option Addr) (limit : Option Nat)
    (desc : Bool) (hl : ∀ n, limit = some n → n < 2 ^ 32) :
    FullUpTo (Gov.queryPollVoters s i after endAt limit desc) limit
      (fun v => ∃ u, Gov.queryPollVoter s i u = some v ∧ Past after u ∧ Until endAt u) := by
  unfold Gov.queryPollVoters
  have hlt : ∀ a b : Addr, Gov.vkey a i < Gov.vkey b i ↔ a < b := by
    intro a b
    show toLex (a, i) < toLex (b, i) ↔ _
    rw [Prod.Lex.toLex_lt_toLex]; simp
  have hle : ∀ a b : Addr, Gov.vkey a i ≤ Gov.vkey b i ↔ a ≤ b := by
    intro a b
    rw [← not_lt, hlt, not_lt]
  have hm : ∀ k v, (s.votes.filter (fun _ v => decide (v.pollId = i))).get k = some v ↔
      ∃ u, k = Gov.vkey u i ∧ Gov.queryPollVoter s i u = some v := by
    intro k v
    unfold Gov.queryPollVoter
    simp only [Map.get_eq_some_iff]
    show (k, v) ∈ List.filter _ _ ↔ _
    rw [List.mem_filter]
    constructor
    · rintro ⟨h1, h2⟩
      have h3 := (hs.inv.vkeys k v (Map.get_eq_some_iff.2 h1)).1
      have h2 : v.pollId = i := by simpa using h2
      rw [h2] at h3
      exact ⟨v.voter, h3, by rw [← h3]; exact h1⟩
    · rintro ⟨u, rfl, h⟩
      have h3 := (hs.inv.vkeys _ v (Map.get_eq_some_iff.2 h)).1
      exact ⟨h, by simp [(Gov.vkey_inj.1 h3).2]⟩
  have hp : ∀ u, Past (after.map (Gov.vkey · i)) (Gov.vkey u i) ↔ Past after u := by
    intro u; cases after <;> simp [Past, hlt]
  have hu : ∀ u, Until (endAt.map (Gov.vkey · i)) (Gov.vkey u i) ↔ Until endAt u := by
    intro u; cases endAt <;> simp [Until, hle]
  obtain ⟨h1, h2, h3⟩ := fullUpTo_ranged (s.votes.filter (fun _ v => decide (v.pollId = i)))
    (after.map (Gov.vkey · i)) (endAt.map (Gov.vkey · i)) limit desc (·.2) hl
  refine ⟨h1, fun x hx => ?_, fun h x hx => ?_⟩
  · obtain ⟨k, v, a, b, c, rfl⟩ := h2 x hx
    obtain ⟨u, rfl, hv⟩ := (hm _ _).1 a
    exact ⟨u, hv, (hp u).1 b, (hu u).1 c⟩
  · obtain ⟨u, a, b, c⟩ := hx
    exact h3 h x ⟨_, x, (hm _ _).2 ⟨u, rfl, a⟩, (hp u).2 b, (hu u).2 c, rfl⟩

/-- C88: the pages of the votes of one voter. -/
theorem C88_voter_votes {s : Gov.State} (hs : Gov.Reachable s) (voter : Addr) (after : Option Nat) (limit : Option Nat)
    (hl : ∀ n, limit = some n → n < 2 ^ 32) :
    FullUpTo (Gov.queryVoter s voter after limit) limit
      (fun v => ∃ i, Gov.queryPollVoter s i voter = some v ∧ Past after i) := by
  unfold Gov.queryVoter
  have hlt : ∀ a b : Nat, Gov.vkey voter a < Gov.vkey voter b ↔ a < b := by
    intro a b
    show toLex (voter, a) < toLex (voter, b) ↔ _
    rw [Prod.Lex.toLex_lt_toLex]; simp
  have hm : ∀ k v, (s.votes.filter (fun k _ => decide ((ofLex k).1 = voter))).get k = some v ↔
      ∃ i, k = Gov.vkey voter i ∧ Gov.queryPollVoter s i voter = some v := by
    intro k v
    unfold Gov.queryPollVoter
    simp only [Map.get_eq_some_iff]
    show (k, v) ∈ List.filter _ _ ↔ _
    rw [List.mem_filter]
    constructor
    · rintro ⟨h1, h2⟩
      have h3 := (hs.inv.vkeys k v (Map.get_eq_some_iff.2 h1)).1
      have h2 : (ofLex k).1 = voter := by simpa using h2
      rw [h3, Gov.ofLex_vkey] at h2
      exact ⟨v.pollId, by rw [h3, ← h2], by rw [← h2, ← h3]; exact h1⟩
    · rintro ⟨i, rfl, h⟩
      exact ⟨h, by simp [Gov.ofLex_vkey]⟩
  have hp : ∀ i, Past (after.map (Gov.vkey voter ·)) (Gov.vkey voter i) ↔ Past after i := by
    intro u; cases after <;> simp [Past, hlt]
  obtain ⟨h1, h2, h3⟩ := fullUpTo_ranged (s.votes.filter (fun k _ => decide ((ofLex k).1 = voter)))
    (after.map (Gov.vkey voter ·)) none limit false (·.2) hl
  refine ⟨h1, fun x hx => ?_, fun h x hx => ?_⟩
  · obtain ⟨k, v, a, b, _, rfl⟩ := h2 x hx
    obtain ⟨u, rfl, hv⟩ := (hm _ _).1 a
    exact ⟨u, hv, (hp u).1 b⟩
  · obtain ⟨u, a, b⟩ := hx
    exact h3 h x ⟨_, x, (hm _ _).2 ⟨u, rfl, a⟩, (hp u).2 b, fun _ h => (by cases h), rfl⟩

/-- A full page and a shorter one, for members and for the assets of a treasury across the three kinds. -/
example :
    (Members.queryMembers { Members.empty with weights := ((Map.empty.set 5 10).set 6 20).set 9 1 } (some 5) (some 1)).length = 1 ∧
    (Members.queryMembers { Members.empty with weights := ((Map.empty.set 5 10).set 6 20).set 9 1 } (some 5) none).length = 2 ∧
    Treasury.queryAssets ⟨Map.empty.set 1 (), Map.empty.set 7 (), Map.empty.set (toLex (8, 2)) ()⟩ (some (.native 1)) (some 1)
      = [.cw20 7] ∧
    Treasury.queryAssets ⟨Map.empty.set 1 (), Map.empty.set 7 (), Map.empty.set (toLex (8, 2)) ()⟩ (some (.native 1)) none
      = [.cw20 7, .cw1155 8 2] := by
  decide +kernel

/-- Both orders give both polls of the sample history of the governance contract; its pages of one poll are full. -/
example : (Gov.queryPolls Gov.sampleState none none none none true).length = 2 ∧
    (Gov.queryPolls Gov.sampleState none (some 1) none (some 1) false).length = 1 := by
  decide +kernel

end Verif.Pages
