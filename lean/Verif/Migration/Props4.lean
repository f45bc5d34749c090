import Verif.Migration.Props3

set_option linter.unusedSimpArgs false

/-!
# The total weight that the treasury of an old DAO answers: property C160
-/

namespace Verif.Migration
open Verif
open Verif.Staking (At)

/-- `TOTAL_STAKED_HEIGHT_SNAPSHOT` and `TOTAL_STAKED_SECONDS_SNAPSHOT`, staking.rs 6-17, as the old DAO left them. Nothing
in the present code writes them, so they are no part of `State`. -/
structure Totals where
  byHeight : Snap
  bySeconds : Snap
  deriving DecidableEq

/-- `query_total_weight`, contract.rs 355-366, with `load_total_staked`, `load_total_staked_at_height` and
`load_total_staked_at_time`, staking.rs 19-33. Times are in nanoseconds; `load` fails when nothing was ever saved. -/
def queryTotal (t : Totals) : At → Except Err Nat
  | .height h => .ok (t.byHeight.loadAt h)
  | .time n => .ok (t.bySeconds.loadAt (n / 10 ^ 9))
  | .never =>
    match t.byHeight.cur with
    | some w => .ok w
    | none => .error .notFound

/-! ## Specification -/

/-- What a user had in the old DAO: staked tokens, the number of staked NFTs, or the weight in a multisig. -/
def formerWeight (s : State) (u : Addr) : Nat :=
  match s.dao with
  | .denom => 0
  | .token => (s.stakes.get u).getD 0
  | .nft => (s.nftStakes.entries.filter (fun e => decide (e.2 = u))).length
  | .multisig => (s.members.get u).getD 0

/-- What all users together had in the old DAO. -/
def formerTotal (s : State) : Nat :=
  match s.dao with
  | .denom => 0
  | .token => s.stakes.sum (fun _ w => w)
  | .nft => s.nftStakes.entries.length
  | .multisig => s.members.sum (fun _ w => w)

/-! ## Lemmas -/

theorem sum_ite_of_not_mem {us : List Addr} {k : Addr} (w : Nat) (h : k ∉ us) :
    (us.map (fun u => if k = u then w else 0)).sum = 0 := by
  induction us with
  | nil => rfl
  | cons a t ih =>
    rw [List.mem_cons, not_or] at h
    simp only [List.map_cons, List.sum_cons, if_neg h.1, ih h.2]

theorem sum_ite_of_mem {us : List Addr} (hn : us.Nodup) {k : Addr} (w : Nat) (h : k ∈ us) :
    (us.map (fun u => if k = u then w else 0)).sum = w := by
  induction us with
  | nil => cases h
  | cons a t ih =>
    rw [List.nodup_cons] at hn
    simp only [List.map_cons, List.sum_cons]
    by_cases hk : k = a
    · subst hk
      rw [if_pos rfl, sum_ite_of_not_mem w hn.1]
      rfl
    · rw [if_neg hk, ih hn.2 ((List.mem_cons.1 h).resolve_left hk), Nat.zero_add]

theorem sum_map_add (us : List Addr) (f g : Addr → Nat) :
    (us.map (fun u => f u + g u)).sum = (us.map f).sum + (us.map g).sum := by
  induction us with
  | nil => rfl
  | cons a t ih => simp only [List.map_cons, List.sum_cons, ih]; omega

/-- The sum of a map, user by user. -/
theorem sum_users (m : Map Addr Nat) {us : List Addr} (hn : us.Nodup) (hc : ∀ u w, m.get u = some w → w ≠ 0 → u ∈ us) :
    (us.map (fun u => (m.get u).getD 0)).sum = m.sum (fun _ w => w) := by
  have h1 : ∀ l : List (Addr × Nat), SortedL l → (∀ e ∈ l, e.2 ≠ 0 → e.1 ∈ us) →
      (us.map (fun u => (lookupL u l).getD 0)).sum = (l.map (·.2)).sum := by
    intro l
    induction l with
    | nil =>
      intro _ _
      induction us with
      | nil => rfl
      | cons a t ih => simp [lookupL]
    | cons e t ih =>
      intro hs hm
      have ht : SortedL t := (List.pairwise_cons.1 hs).2
      have hlt := (List.pairwise_cons.1 hs).1
      have hf : ∀ u, (lookupL u (e :: t)).getD 0 = (if e.1 = u then e.2 else 0) + (lookupL u t).getD 0 := by
        intro u
        rw [show lookupL u (e :: t) = if e.1 = u then some e.2 else lookupL u t from rfl]
        by_cases he : e.1 = u
        · subst he
          rw [if_pos rfl, if_pos rfl, lookupL_eq_none_of_lt (fun x hx => hlt x hx)]
          rfl
        · rw [if_neg he, if_neg he, Nat.zero_add]
      simp only [hf]
      rw [sum_map_add, ih ht (fun x hx => hm x (List.mem_cons_of_mem _ hx)), List.map_cons, List.sum_cons]
      by_cases h0 : e.2 = 0
      · rw [h0]
        have : (us.map (fun u => if e.1 = u then 0 else 0)).sum = 0 := by
          clear hm hf ih hn hc
          induction us with
          | nil => rfl
          | cons a t ih => simpa using ih
        omega
      · rw [sum_ite_of_mem hn _ (hm e List.mem_cons_self h0)]
  exact h1 m.entries m.sorted (fun e he h0 => hc e.1 e.2 (Map.get_eq_some_iff.2 he) h0)

/-- The number of NFTs, user by user. -/
theorem count_users (l : List (Nat × Addr)) {us : List Addr} (hn : us.Nodup) (hc : ∀ e ∈ l, e.2 ∈ us) :
    (us.map (fun u => (l.filter (fun e => decide (e.2 = u))).length)).sum = l.length := by
  induction l with
  | nil =>
    clear hc hn
    induction us with
    | nil => rfl
    | cons a t ih => simpa using ih
  | cons e t ih =>
    have hf : ∀ u, ((e :: t).filter (fun e => decide (e.2 = u))).length =
        (if e.2 = u then 1 else 0) + (t.filter (fun e => decide (e.2 = u))).length := by
      intro u
      rw [List.filter_cons]
      by_cases he : e.2 = u
      · simp [he]; omega
      · simp [he]
    simp only [hf]
    rw [sum_map_add, sum_ite_of_mem hn _ (hc e List.mem_cons_self), ih (fun x hx => hc x (List.mem_cons_of_mem _ hx))]
    simp; omega

theorem former_sum (s : State) {us : List Addr} (hn : us.Nodup) (hc : ∀ u, 0 < formerWeight s u → u ∈ us) :
    (us.map (formerWeight s)).sum = formerTotal s := by
  unfold formerTotal
  have hf : formerWeight s = fun u => formerWeight s u := rfl
  rw [hf]
  unfold formerWeight at hc ⊢
  cases hd : s.dao <;> simp only [hd] at hc ⊢
  · clear hc hn hf
    induction us with
    | nil => rfl
    | cons a t ih => simpa using ih
  · refine sum_users s.stakes hn (fun u w hw h0 => hc u ?_)
    rw [hw]; exact Nat.pos_of_ne_zero h0
  · refine count_users s.nftStakes.entries hn (fun e he => hc e.2 ?_)
    exact List.length_pos_of_mem (List.mem_filter.2 ⟨he, by simp⟩)
  · refine sum_users s.members hn (fun u w hw h0 => hc u ?_)
    rw [hw]; exact Nat.pos_of_ne_zero h0

theorem former_le_total (s : State) (u : Addr) : formerWeight s u ≤ formerTotal s := by
  unfold formerWeight formerTotal
  cases s.dao <;> simp only
  · exact le_refl _
  · cases h : s.stakes.get u with
    | none => exact Nat.zero_le _
    | some w => exact Map.le_sum (fun _ w => w) h
  · exact List.length_filter_le _ _
  · cases h : s.members.get u with
    | none => exact Nat.zero_le _
    | some w => exact Map.le_sum (fun _ w => w) h

theorem queryWeight_former {s : State} (hs : Start s) (hd : s.dao ≠ .denom) (u : Addr)
    (hb : formerWeight s u < 2 ^ 128) : queryWeight s u = .ok (formerWeight s u) := by
  rw [queryWeight_eq, if_neg hd]
  have hw : weightOf s u = formerWeight s u := by
    unfold weightOf formerWeight
    unfold Start at hs
    rw [hs]
    cases s.dao <;> rfl
  rw [hw]
  exact cadd128_ok.2 ⟨by unfold M128; omega, rfl⟩

/-- The log of a list of saves has no height beyond theirs. -/
theorem saves_upTo (l : List (Nat × Nat)) (H : Nat) (hH : ∀ x ∈ l, x.2 ≤ H) :
    (Snap.empty.saves l).upTo H := by
  intro k hk
  have key : ∀ (l : List (Nat × Nat)) (s : Snap), (s.saves l).log.has k = true →
      s.log.has k = true ∨ ∃ x ∈ l, x.2 = k := by
    intro l
    induction l with
    | nil => exact fun s h => .inl h
    | cons x t ih =>
      intro s h
      rcases ih (s.save x.1 x.2) h with h1 | ⟨y, hy, h1⟩
      · rw [Snap.has_log_save] at h1
        simp only [Bool.or_eq_true, decide_eq_true_eq] at h1
        rcases h1 with h1 | h1
        · exact .inr ⟨x, List.mem_cons_self, h1⟩
        · exact .inl h1
      · exact .inr ⟨y, List.mem_cons_of_mem _ hy, h1⟩
  rcases key l Snap.empty hk with h1 | ⟨x, hx, rfl⟩
  · cases h1
  · exact hH x hx

/-- What saves that never fall leave for a past height: the last one before it. -/
theorem saves_past (l : List (Nat × Nat)) (hl : (l.map (·.2)).Pairwise (· ≤ ·)) (h : Nat) :
    (Snap.empty.saves l).mayLoadAt h = ((l.filter (fun x => decide (x.2 < h))).getLast?).map (·.1) := by
  induction l using List.reverseRecOn with
  | nil => rfl
  | append_singleton t x ih =>
    rw [List.map_append, List.pairwise_append] at hl
    obtain ⟨h1, _, h2⟩ := hl
    have hle : ∀ y ∈ t, y.2 ≤ x.2 := fun y hy => h2 y.2 (List.mem_map.2 ⟨y, hy, rfl⟩) x.2 (by simp)
    have hup := saves_upTo t x.2 hle
    have hs : Snap.empty.saves (t ++ [x]) = (Snap.empty.saves t).save x.1 x.2 := by
      unfold Snap.saves
      rw [List.foldl_append]
      rfl
    rw [hs, List.filter_append]
    by_cases hx : x.2 < h
    · have hlt : ∀ k, ((Snap.empty.saves t).save x.1 x.2).log.has k = true → k < h := by
        intro k hk
        have := Snap.upTo_save x.1 hup (le_refl _) k hk
        omega
      rw [Snap.mayLoadAt_of_lt hlt]
      simp [hx]
    · rw [Snap.mayLoadAt_save (by omega) hup, ih h1]
      simp [hx]

/-! ## C160 -/

/-- C160: in the middle of a migration and after it the treasury still answers for every user what the user had in the
old DAO, and these weights add up to the total that it answers, if they did when the migration began. -/
theorem C160_shares (s : State) (t : Totals) (hs : Start s) (hd : s.dao ≠ .denom)
    (ht : t.byHeight.cur = some (formerTotal s)) (hb : formerTotal s < 2 ^ 128) (h : List Call)
    (us : List Addr) (hn : us.Nodup) (hc : ∀ u, 0 < formerWeight s u → u ∈ us) :
    (∀ u, queryWeight (run s h) u = .ok (formerWeight s u)) ∧
    queryTotal t .never = .ok (us.map (formerWeight s)).sum := by
  refine ⟨fun u => ?_, ?_⟩
  · rw [C63_weight_constant s hs h u]
    exact queryWeight_former hs hd u (Nat.lt_of_le_of_lt (former_le_total s u) hb)
  · unfold queryTotal
    simp only [ht, former_sum s hn hc]

/-- Sample: the totals of the old token DAO of `smpToken`, saved at heights 3 and 5. -/
def smpTotals : Totals := ⟨(Snap.empty.save 10 3).save 30 5, (Snap.empty.save 10 30).save 30 50⟩

example : Start smpToken ∧ smpTotals.byHeight.cur = some (formerTotal smpToken) ∧ formerTotal smpToken = 30 ∧
    formerWeight smpToken 2 = 20 ∧ (run smpToken [⟨some 3, 9, true⟩]).stakes = Map.empty ∧
    queryWeight (run smpToken [⟨some 3, 9, true⟩]) 2 = .ok 20 := by decide +kernel

/-- C160, the past: what the treasury answers for a past height or time are the totals that the old DAO saved. When it
saved totals at heights and seconds that never fall, the answer is the last one saved before this height or second. -/
theorem C160_past (l m : List (Nat × Nat)) (hl : (l.map (·.2)).Pairwise (· ≤ ·))
    (hm : (m.map (·.2)).Pairwise (· ≤ ·)) (h n : Nat) :
    queryTotal ⟨Snap.empty.saves l, Snap.empty.saves m⟩ (.height h) =
      .ok ((((l.filter (fun x => decide (x.2 < h))).getLast?).map (·.1)).getD 0) ∧
    queryTotal ⟨Snap.empty.saves l, Snap.empty.saves m⟩ (.time n) =
      .ok ((((m.filter (fun x => decide (x.2 < n / 10 ^ 9))).getLast?).map (·.1)).getD 0) := by
  unfold queryTotal Snap.loadAt
  simp only [saves_past l hl, saves_past m hm, and_self]

example : queryTotal smpTotals (.height 5) = .ok 10 ∧ queryTotal smpTotals (.height 6) = .ok 30 ∧
    queryTotal smpTotals (.time (30 * 10 ^ 9)) = .ok 0 ∧ queryTotal smpTotals (.time (31 * 10 ^ 9)) = .ok 10 := by
  decide +kernel

end Verif.Migration
