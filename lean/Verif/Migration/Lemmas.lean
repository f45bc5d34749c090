import Verif.Migration.Spec
import Verif.Base.Except

set_option linter.unusedSimpArgs false

/-!
# Migration: helper lemmas
-/

namespace Verif.Migration
open Verif
open Verif.Staking (ReleaseAt UserClaim)

section maps
variable {K V : Type} [LinearOrder K]

theorem remove_head {m : Map K V} {e : K × V} {t : List (K × V)} (h : m.entries = e :: t) :
    (m.remove e.1).entries = t := by
  have hs := m.sorted
  rw [h] at hs
  show m.entries.filter _ = t
  rw [h, List.filter_cons_of_neg (by simp)]
  refine List.filter_eq_self.2 (fun a ha => ?_)
  have := (List.pairwise_cons.1 hs).1 a ha
  simp only [ne_eq, decide_not, Bool.not_eq_true', decide_eq_false_iff_not]
  exact (ne_of_lt this).symm

theorem remove_batch : ∀ (n : Nat) (m : Map K V),
    ((m.entries.take n).foldl (fun m e => m.remove e.1) m).entries = m.entries.drop n
  | 0, m => by simp
  | n + 1, m => by
    cases h : m.entries with
    | nil => simp [h]
    | cons e t =>
      have h1 := remove_head h
      have h2 := remove_batch n (m.remove e.1)
      rw [h1] at h2
      rw [List.take_succ_cons, List.foldl_cons, h2, List.drop_succ_cons]

theorem insertL_mid (k : K) (v w : V) : ∀ (p t : List (K × V)), SortedL (p ++ (k, w) :: t) →
    insertL k v (p ++ (k, w) :: t) = p ++ (k, v) :: t
  | [], t, _ => by simp [insertL]
  | a :: p, t, h => by
    have h1 := List.pairwise_cons.1 h
    have h2 : a.1 < k := h1.1 (k, w) (by simp)
    have h3 := insertL_mid k v w p t h1.2
    rw [List.cons_append, insertL, if_neg (not_lt.2 h2.le), if_neg (ne_of_lt h2), h3]
    rfl

theorem filter_mid (k : K) (w : V) (p t : List (K × V)) (h : SortedL (p ++ (k, w) :: t)) :
    (p ++ (k, w) :: t).filter (fun e => decide (e.1 ≠ k)) = p ++ t := by
  have h1 := List.pairwise_append.1 h
  rw [List.filter_append, List.filter_cons_of_neg (by simp)]
  congr 1
  · refine List.filter_eq_self.2 (fun a ha => ?_)
    have := h1.2.2 a ha (k, w) List.mem_cons_self
    simp only [ne_eq, decide_not, Bool.not_eq_true', decide_eq_false_iff_not]
    exact ne_of_lt this
  · refine List.filter_eq_self.2 (fun a ha => ?_)
    have := (List.pairwise_cons.1 h1.2.1).1 a ha
    simp only [ne_eq, decide_not, Bool.not_eq_true', decide_eq_false_iff_not]
    exact (ne_of_lt this).symm

end maps

/-! ### Token stakes -/

theorem sum_fold {l : List (Addr × Nat)} : ∀ {t x : Nat}, l.foldlM (fun t e => cadd128 t e.2) t = Except.ok x →
    x = t + (l.map (·.2)).sum := by
  induction l with
  | nil =>
    intro t x h
    rw [foldlM_nil_ok_iff] at h
    simp [h]
  | cons e l ih =>
    intro t x h
    rw [foldlM_cons_ok_iff] at h
    obtain ⟨y, h1, h2⟩ := h
    rw [ih h2, (cadd128_ok.1 h1).2, List.map_cons, List.sum_cons]
    omega

theorem sum_fold_exists : ∀ (l : List (Addr × Nat)) (t : Nat), t + (l.map (·.2)).sum < M128 →
    ∃ x, l.foldlM (fun t e => cadd128 t e.2) t = Except.ok x
  | [], t, _ => ⟨t, rfl⟩
  | e :: l, t, h => by
    rw [List.map_cons, List.sum_cons] at h
    obtain ⟨x, hx⟩ := sum_fold_exists l (t + e.2) (by omega)
    exact ⟨x, foldlM_cons_ok_iff.2 ⟨t + e.2, cadd128_ok.2 ⟨by omega, rfl⟩, hx⟩⟩

theorem moveStake_fold (l : List (Addr × Nat)) : ∀ (s : State),
    l.foldl moveStake s = { s with
      stakes := l.foldl (fun m e => m.remove e.1) s.stakes
      migrated := l.foldl (fun m e => m.set e.1 e.2) s.migrated } := by
  induction l with
  | nil => intro s; rfl
  | cons e l ih => intro s; rw [List.foldl_cons, ih]; rfl

theorem set_fold_get (l : List (Addr × Nat)) (hs : SortedL l) : ∀ (m : Map Addr Nat) (u : Addr),
    (l.foldl (fun m e => m.set e.1 e.2) m).get u = (lookupL u l).orElse (fun _ => m.get u) := by
  induction l with
  | nil => intro m u; rfl
  | cons e l ih =>
    intro m u
    have h1 := List.pairwise_cons.1 hs
    rw [List.foldl_cons, ih h1.2, Map.get_set, lookupL]
    by_cases he : e.1 = u
    · rw [if_pos he, if_pos he]
      rw [lookupL_eq_none_of_lt (fun a ha => he ▸ h1.1 a ha)]
      rfl
    · rw [if_neg he, if_neg he]

theorem lookupL_append {u : Addr} (a b : List (Addr × Nat)) :
    lookupL u (a ++ b) = (lookupL u a).orElse (fun _ => lookupL u b) := by
  induction a with
  | nil => rfl
  | cons e a ih =>
    rw [List.cons_append, lookupL, lookupL]
    split
    · rfl
    · exact ih

/-- Effect of moving a batch of token stakes. -/
structure StakesMoved (s s' : State) (outs : List Out) (n limit : Nat) : Prop where
  dao : s'.dao = s.dao
  stakes : s'.stakes.entries = s.stakes.entries.drop limit
  migrated : s'.migrated = (s.stakes.entries.take limit).foldl (fun m e => m.set e.1 e.2) s.migrated
  rest : s'.nftStakes = s.nftStakes ∧ s'.claims = s.claims ∧ s'.members = s.members ∧ s'.stage = s.stage ∧
    s'.membership = s.membership
  count : n = (s.stakes.entries.take limit).length
  outs : outs = stakesMsg ((s.stakes.entries.take limit).map (·.2)).sum (s.stakes.entries.take limit)

theorem moveStakes_ok {s s' : State} {limit n : Nat} {outs : List Out}
    (h : moveStakes s limit = .ok (s', outs, n)) : StakesMoved s s' outs n limit := by
  unfold moveStakes at h
  obtain ⟨t, h1, h2⟩ := bind_ok_iff.1 h
  have h3 := sum_fold h1
  rw [Nat.zero_add] at h3
  subst h3
  cases h2
  rw [moveStake_fold]
  exact ⟨rfl, remove_batch _ _, rfl, ⟨rfl, rfl, rfl, rfl, rfl⟩, rfl, rfl⟩

/-! ### Token claims -/

/-- What `takeClaim` keeps true; `done` are the claims of the user handled so far. -/
structure ClaimInv (limit : Nat) (user : Addr) (pre : List UserClaim) (done : List Claim) (x : Acc Claim) : Prop where
  bound : x.included ≤ limit
  count : x.included = x.sent.length
  total : x.total = (x.sent.map (·.amount)).sum
  all : x.sent ++ tokenClaims user x.keep = pre ++ tokenClaims user done
  none : x.included < limit → tokenClaims user x.keep = []
  kept : ∀ c ∈ x.keep, c ∈ done
  size : x.keep.length + (x.included - pre.length) = done.length

theorem tokenClaims_append (u : Addr) (a b : List Claim) : tokenClaims u (a ++ b) = tokenClaims u a ++ tokenClaims u b := by
  unfold tokenClaims
  rw [List.flatMap_append]

theorem takeClaim_inv {limit : Nat} {user : Addr} {pre : List UserClaim} {done : List Claim} {x y : Acc Claim} {c : Claim}
    (hp : pre.length ≤ x.included)
    (hi : ClaimInv limit user pre done x) (h : takeClaim limit user x c = .ok y) :
    ClaimInv limit user pre (done ++ [c]) y ∧ pre.length ≤ y.included := by
  obtain ⟨asset, release⟩ := c
  obtain ⟨h1, h2, h3, h4, h5, h6, h7⟩ := hi
  cases asset with
  | cw20 a =>
    have hc : tokenClaims user [⟨.cw20 a, release⟩] = [⟨user, a, release⟩] := rfl
    simp only [takeClaim] at h
    split at h
    · rename_i hlt
      obtain ⟨t, ht, h⟩ := bind_ok_iff.1 h
      cases h
      have hk := h5 hlt
      rw [hk, List.append_nil] at h4
      refine ⟨⟨?_, ?_, ?_, ?_, ?_, ?_, ?_⟩, ?_⟩
      · exact hlt
      · simp [h2]
      · rw [(cadd128_ok.1 ht).2]; simp [h3]
      · simp only
        rw [hk, List.append_nil, h4, tokenClaims_append, hc, List.append_assoc]
      · intro _; exact hk
      · intro c hc; exact List.mem_append_left _ (h6 c hc)
      · simp only [List.length_append, List.length_cons, List.length_nil]; omega
      · simp only; omega
    · rename_i hlt
      cases h
      refine ⟨⟨h1, h2, h3, ?_, ?_, ?_, ?_⟩, hp⟩
      · simp only
        rw [tokenClaims_append, tokenClaims_append, ← List.append_assoc, h4, List.append_assoc]
      · intro hl; exact absurd hl hlt
      · intro c hc
        rcases List.mem_append.1 hc with hc | hc
        · exact List.mem_append_left _ (h6 c hc)
        · exact List.mem_append_right _ hc
      · simp only [List.length_append, List.length_cons, List.length_nil]; omega
  | cw721 l =>
    have hc : tokenClaims user [⟨.cw721 l, release⟩] = [] := rfl
    simp only [takeClaim] at h
    cases h
    refine ⟨⟨h1, h2, h3, ?_, ?_, ?_, ?_⟩, hp⟩
    · simp only
      rw [tokenClaims_append, tokenClaims_append, ← List.append_assoc, h4, List.append_assoc]
    · intro hl
      simp only
      rw [tokenClaims_append, h5 hl, hc]
      rfl
    · intro c hc
      rcases List.mem_append.1 hc with hc | hc
      · exact List.mem_append_left _ (h6 c hc)
      · exact List.mem_append_right _ hc
    · simp only [List.length_append, List.length_cons, List.length_nil]; omega

theorem takeClaims_inv {limit : Nat} {user : Addr} {pre : List UserClaim} : ∀ (l : List Claim) {done : List Claim}
    {x y : Acc Claim}, pre.length ≤ x.included → ClaimInv limit user pre done x →
    l.foldlM (takeClaim limit user) x = Except.ok y →
    ClaimInv limit user pre (done ++ l) y ∧ pre.length ≤ y.included
  | [], done, x, y, hp, hi, h => by
    rw [foldlM_nil_ok_iff] at h
    subst h
    rw [List.append_nil]
    exact ⟨hi, hp⟩
  | c :: l, done, x, y, hp, hi, h => by
    rw [foldlM_cons_ok_iff] at h
    obtain ⟨z, h1, h2⟩ := h
    obtain ⟨i1, i2⟩ := takeClaim_inv hp hi h1
    have := takeClaims_inv l i2 i1 h2
    rw [List.append_assoc] at this
    exact this

/-- Token claims of a list of entries. -/
def flat (l : List (Addr × List Claim)) : List UserClaim := l.flatMap (fun e => tokenClaims e.1 e.2)

theorem flat_append (a b : List (Addr × List Claim)) : flat (a ++ b) = flat a ++ flat b := by
  unfold flat; rw [List.flatMap_append]

/-- What `takeUser` keeps true: `done` are the users handled so far, `rest` those skipped. -/
structure UserInv (limit : Nat) (pre : List UserClaim) (seen : List (Addr × List Claim))
    (x : Acc (Addr × List Claim)) : Prop where
  bound : x.included ≤ limit
  count : x.included = x.sent.length
  total : x.total = (x.sent.map (·.amount)).sum
  none : x.included < limit → flat x.keep = []
  le : pre.length ≤ x.included
  split : ∃ done skipped, seen = done ++ skipped ∧ x.keep.map (·.1) = done.map (·.1) ∧
    x.sent ++ flat x.keep = pre ++ flat done ∧ (x.included < limit → skipped = []) ∧
    (∀ e ∈ x.keep, ∃ d ∈ done, e.1 = d.1 ∧ ∀ c ∈ e.2, c ∈ d.2) ∧
    (x.keep.map (fun e => e.2.length)).sum + (x.included - pre.length) = (done.map (fun e => e.2.length)).sum ∧
    (0 < seen.length → pre.length < limit → 0 < done.length)

theorem takeUser_inv {limit : Nat} {pre : List UserClaim} {seen : List (Addr × List Claim)}
    {x y : Acc (Addr × List Claim)} {e : Addr × List Claim} (hi : UserInv limit pre seen x)
    (h : takeUser limit x e = .ok y) : UserInv limit pre (seen ++ [e]) y := by
  obtain ⟨h1, h2, h3, h4, hle, done, skipped, h5, h6, h7, h8, h9, h10, h11⟩ := hi
  unfold takeUser at h
  split at h
  · rename_i hge
    cases h
    refine ⟨h1, h2, h3, h4, hle, done, skipped ++ [e], ?_, h6, h7, ?_, h9, h10, ?_⟩
    · rw [h5, List.append_assoc]
    · intro hl; omega
    · intro _ hpl
      rcases Nat.eq_zero_or_pos done.length with hd | hd
      · have hd := List.eq_nil_of_length_eq_zero hd
        subst hd
        simp only [List.map_nil, List.sum_nil] at h10
        omega
      · exact hd
  · rename_i hge
    obtain ⟨r, hr, h⟩ := bind_ok_iff.1 h
    cases h
    have hlt : x.included < limit := by omega
    have hk := h8 hlt
    subst hk
    rw [List.append_nil] at h5
    subst h5
    have hkeep := h4 hlt
    rw [hkeep, List.append_nil] at h7
    obtain ⟨i, ip⟩ := takeClaims_inv (pre := x.sent) e.2 (done := []) (by rw [h2]) ⟨h1, h2, h3, by simp [tokenClaims], fun _ => rfl,
      fun c hc => by simp at hc, by simp [h2]⟩ hr
    obtain ⟨j1, j2, j3, j4, j5, j6, j7⟩ := i
    rw [List.nil_append] at j4 j6 j7
    have hf : flat (x.keep ++ [(e.1, r.keep)]) = tokenClaims e.1 r.keep := by
      rw [flat_append, hkeep]; simp [flat]
    refine ⟨j1, j2, j3, ?_, ?_, seen ++ [e], [], by simp, ?_, ?_, fun _ => rfl, ?_, ?_, ?_⟩
    · intro hl
      simp only at hl ⊢
      rw [hf]
      exact j5 hl
    · simp only; omega
    · simp [h6]
    · simp only
      rw [hf, flat_append, ← List.append_assoc, ← h7, j4]
      simp [flat]
    · intro k hk
      rcases List.mem_append.1 hk with hk | hk
      · obtain ⟨d, hd, hd1, hd2⟩ := h9 k hk
        exact ⟨d, List.mem_append_left _ hd, hd1, hd2⟩
      · rw [List.mem_singleton] at hk
        subst hk
        exact ⟨e, List.mem_append_right _ (List.mem_singleton.2 rfl), rfl, j6⟩
    · simp only [List.map_append, List.sum_append, List.map_cons, List.map_nil, List.sum_cons, List.sum_nil]
      omega
    · intro _ _; simp

theorem takeUsers_inv {limit : Nat} {pre : List UserClaim} : ∀ (l : List (Addr × List Claim))
    {seen : List (Addr × List Claim)} {x y : Acc (Addr × List Claim)}, UserInv limit pre seen x →
    l.foldlM (takeUser limit) x = Except.ok y → UserInv limit pre (seen ++ l) y
  | [], seen, x, y, hi, h => by
    rw [foldlM_nil_ok_iff] at h
    subst h
    rw [List.append_nil]
    exact hi
  | c :: l, seen, x, y, hi, h => by
    rw [foldlM_cons_ok_iff] at h
    obtain ⟨z, h1, h2⟩ := h
    have := takeUsers_inv l (takeUser_inv hi h1) h2
    rw [List.append_assoc] at this
    exact this

/-- Entries after the replacements. -/
theorem replace_entries : ∀ (keep done p t : List (Addr × List Claim)) (m : Map Addr (List Claim)),
    keep.map (·.1) = done.map (·.1) → m.entries = p ++ done ++ t →
    (keep.foldl replaceOne m).entries = p ++ keep.filter (fun e => e.2 ≠ []) ++ t
  | [], done, p, t, m, hk, hm => by
    rw [List.map_nil] at hk
    have := List.map_eq_nil_iff.1 hk.symm
    subst this
    simpa using hm
  | (k, v) :: keep, done, p, t, m, hk, hm => by
    cases done with
    | nil => simp at hk
    | cons d done =>
      obtain ⟨dk, w⟩ := d
      simp only [List.map_cons, List.cons.injEq] at hk
      obtain ⟨rfl, hk⟩ := hk
      have hs := m.sorted
      have hm' : m.entries = p ++ (k, w) :: (done ++ t) := by rw [hm]; simp
      rw [hm'] at hs
      rw [List.foldl_cons]
      by_cases hv : v = []
      · have h1 : (replaceOne m (k, v)).entries = p ++ done ++ t := by
          unfold replaceOne
          rw [if_pos hv]
          show m.entries.filter _ = _
          rw [hm', List.append_assoc]
          exact filter_mid k w p (done ++ t) hs
        rw [replace_entries keep done p t _ hk h1, List.filter_cons_of_neg (by simp [hv])]
      · have h1 : (replaceOne m (k, v)).entries = (p ++ [(k, v)]) ++ done ++ t := by
          unfold replaceOne
          rw [if_neg hv]
          show insertL k v m.entries = _
          rw [hm', insertL_mid k v w p (done ++ t) hs]
          simp
        rw [replace_entries keep done (p ++ [(k, v)]) t _ hk h1, List.filter_cons_of_pos (by simp [hv])]
        simp

theorem flat_filter (l : List (Addr × List Claim)) : flat (l.filter (fun e => e.2 ≠ [])) = flat l := by
  induction l with
  | nil => rfl
  | cons e l ih =>
    by_cases he : e.2 = []
    · rw [List.filter_cons_of_neg (by simp [he]), ih]
      unfold flat
      rw [List.flatMap_cons, he]
      rfl
    · rw [List.filter_cons_of_pos (by simp [he])]
      unfold flat at ih ⊢
      rw [List.flatMap_cons, List.flatMap_cons, ih]

/-- Effect of a round of the `while` loop. -/
theorem claimRound {limit : Nat} {m : Map Addr (List Claim)} {total included : Nat} {sent : List UserClaim}
    {r : Acc (Addr × List Claim)} (hl : included < limit) (hc : included = sent.length)
    (ht : total = (sent.map (·.amount)).sum)
    (h : (m.entries.take limit).foldlM (takeUser limit) ⟨total, included, sent, []⟩ = Except.ok r) :
    r.included ≤ limit ∧ r.included = r.sent.length ∧ r.total = (r.sent.map (·.amount)).sum ∧
    r.sent ++ flat (r.keep.foldl replaceOne m).entries = sent ++ flat m.entries ∧
    (∀ u l, (r.keep.foldl replaceOne m).get u = some l → ∃ l0, m.get u = some l0 ∧ ∀ c ∈ l, c ∈ l0) ∧
    ((r.keep.foldl replaceOne m).entries.map (fun e => e.2.length)).sum + (r.included - included) =
      (m.entries.map (fun e => e.2.length)).sum ∧ included ≤ r.included ∧
    (m.entries ≠ [] → (∀ e ∈ m.entries, ∀ c ∈ e.2, ∃ a, c.asset = .cw20 a) → 
      (r.keep.foldl replaceOne m).entries.length < m.entries.length ∨ r.included = limit) := by
  have i := takeUsers_inv (limit := limit) (pre := sent) (m.entries.take limit) (seen := []) (x := ⟨total, included, sent, []⟩)
    ⟨le_of_lt hl, hc, ht, fun _ => rfl, by rw [hc], [], [], rfl, rfl, by simp [flat], fun _ => rfl, by simp, by simp [hc], by simp⟩ h
  rw [List.nil_append] at i
  obtain ⟨h1, h2, h3, h4, hle, done, skipped, h5, h6, h7, h8, h9, h10, h11⟩ := i
  have hm : m.entries = [] ++ done ++ (skipped ++ m.entries.drop limit) := by
    rw [List.nil_append, ← List.append_assoc, ← h5, List.take_append_drop]
  have he := replace_entries r.keep done [] (skipped ++ m.entries.drop limit) m h6 hm
  rw [List.nil_append] at he hm
  refine ⟨h1, h2, h3, ?_, ?_, ?_, by omega, ?_⟩
  · rw [he, flat_append, flat_filter, ← List.append_assoc, h7, List.append_assoc, ← flat_append, ← hm]
  · intro u l hu
    rw [Map.get_eq_some_iff, he] at hu
    rcases List.mem_append.1 hu with hu | hu
    · obtain ⟨d, hd, hd1, hd2⟩ := h9 (u, l) (List.mem_filter.1 hu).1
      refine ⟨d.2, ?_, hd2⟩
      rw [Map.get_eq_some_iff, hm]
      refine List.mem_append_left _ ?_
      simp only at hd1
      rw [hd1]
      exact hd
    · refine ⟨l, ?_, fun c hc => hc⟩
      rw [Map.get_eq_some_iff, hm]
      exact List.mem_append_right _ hu
  · have hfil : ∀ l : List (Addr × List Claim), ((l.filter (fun e => e.2 ≠ [])).map (fun e => e.2.length)).sum =
        (l.map (fun e => e.2.length)).sum := by
      intro l
      induction l with
      | nil => rfl
      | cons e l ih =>
        by_cases he : e.2 = []
        · rw [List.filter_cons_of_neg (by simp [he]), ih]
          simp [he]
        · rw [List.filter_cons_of_pos (by simp [he]), List.map_cons, List.sum_cons, ih, List.map_cons, List.sum_cons]
    rw [he, List.map_append, List.sum_append, hfil]
    conv_rhs => rw [hm, List.map_append, List.sum_append]
    rw [← hc] at h10
    omega
  · intro hne hall
    rcases Nat.lt_or_ge r.included limit with hlt | hge
    · left
      have hfl := h4 hlt
      have hpos : 0 < done.length := h11 (by
        rw [List.length_take]
        have : 0 < m.entries.length := List.length_pos_iff.2 hne
        omega) (by rw [← hc]; exact hl)
      have hk : r.keep.filter (fun e => e.2 ≠ []) = [] := by
        rw [List.filter_eq_nil_iff]
        intro e hek
        simp only [ne_eq, decide_not, Bool.not_eq_true', decide_eq_false_iff_not, not_not]
        obtain ⟨d, hd, hd1, hd2⟩ := h9 e hek
        cases hec : e.2 with
        | nil => rfl
        | cons c cs =>
          exfalso
          obtain ⟨a, ha⟩ := hall d (by rw [hm]; exact List.mem_append_left _ hd) c (hd2 c (by rw [hec]; simp))
          have hin : (⟨e.1, a, c.release⟩ : UserClaim) ∈ flat r.keep := by
            unfold flat
            rw [List.mem_flatMap]
            refine ⟨e, hek, ?_⟩
            unfold tokenClaims
            rw [List.mem_flatMap]
            exact ⟨c, by rw [hec]; simp, by rw [ha]; simp⟩
          rw [hfl] at hin
          simp at hin
      rw [he, hk, List.nil_append]
      conv_rhs => rw [hm, List.length_append]
      omega
    · right; omega

/-- Effect of the `while` loop. -/
theorem claimLoop_ok {limit : Nat} : ∀ (gas : Nat) {m m' : Map Addr (List Claim)} {total included total' included' : Nat}
    {sent sent' : List UserClaim}, included ≤ limit → included = sent.length → total = (sent.map (·.amount)).sum →
    claimLoop limit gas m total included sent = .ok (m', total', included', sent') →
    included' ≤ limit ∧ included' = sent'.length ∧ total' = (sent'.map (·.amount)).sum ∧
    sent' ++ flat m'.entries = sent ++ flat m.entries ∧ (included' < limit → m'.entries = []) ∧
    (∀ u l, m'.get u = some l → ∃ l0, m.get u = some l0 ∧ ∀ c ∈ l, c ∈ l0)
  | 0, m, m', total, included, total', included', sent, sent', _, _, _, h => by cases h
  | gas + 1, m, m', total, included, total', included', sent, sent', hl, hc, ht, h => by
    unfold claimLoop at h
    split at h
    · rename_i hcond
      obtain ⟨r, hr, h⟩ := bind_ok_iff.1 h
      obtain ⟨i1, i2, i3, i4, i5, i6, i7, i8⟩ := claimRound hcond.1 hc ht hr
      obtain ⟨j1, j2, j3, j4, j5, j6⟩ := claimLoop_ok gas i1 i2 i3 h
      refine ⟨j1, j2, j3, j4.trans i4, j5, ?_⟩
      intro u l hu
      obtain ⟨l1, h1, h2⟩ := j6 u l hu
      obtain ⟨l0, h3, h4⟩ := i5 u l1 h1
      exact ⟨l0, h3, fun c hc => h4 c (h2 c hc)⟩
    · rename_i hcond
      cases h
      refine ⟨hl, hc, ht, rfl, ?_, fun u l hu => ⟨l, hu, fun c hc => hc⟩⟩
      intro hlt
      by_contra hne
      exact hcond ⟨hlt, hne⟩

theorem moveClaims_ok {gas : Nat} {s s' : State} {limit n : Nat} {outs : List Out}
    (h : moveClaims gas s limit = .ok (s', outs, n)) :
    ∃ m l, s' = { s with claims := m } ∧ outs = claimsMsg (l.map (·.amount)).sum l ∧ n = l.length ∧ n ≤ limit ∧
      l ++ flat m.entries = flat s.claims.entries ∧ (n < limit → m.entries = []) ∧
      (∀ u l, m.get u = some l → ∃ l0, s.claims.get u = some l0 ∧ ∀ c ∈ l, c ∈ l0) := by
  unfold moveClaims at h
  obtain ⟨⟨m, total, included, l⟩, h1, h2⟩ := bind_ok_iff.1 h
  obtain ⟨i1, i2, i3, i4, i5, i6⟩ := claimLoop_ok (sent := []) gas (Nat.zero_le _) rfl rfl h1
  cases h2
  exact ⟨m, l, rfl, by rw [i3], i2, i1, i4, i5, i6⟩

/-! Enough gas. -/

/-- Sum of the amounts of claims. -/
def amounts (l : List UserClaim) : Nat := (l.map (·.amount)).sum

theorem amounts_append (a b : List UserClaim) : amounts (a ++ b) = amounts a + amounts b := by
  unfold amounts; rw [List.map_append, List.sum_append]

theorem takeClaims_exists (limit : Nat) (user : Addr) : ∀ (l : List Claim) (x : Acc Claim),
    x.total + amounts (tokenClaims user l) < M128 →
    ∃ y, l.foldlM (takeClaim limit user) x = Except.ok y ∧ y.total ≤ x.total + amounts (tokenClaims user l)
  | [], x, _ => ⟨x, rfl, by omega⟩
  | c :: l, x, h => by
    have hc : amounts (tokenClaims user (c :: l)) = amounts (tokenClaims user [c]) + amounts (tokenClaims user l) := by
      rw [← amounts_append, ← tokenClaims_append]; rfl
    rw [hc] at h ⊢
    have : ∃ z, takeClaim limit user x c = .ok z ∧ z.total ≤ x.total + amounts (tokenClaims user [c]) := by
      obtain ⟨asset, release⟩ := c
      cases asset with
      | cw20 a =>
        have ha : amounts (tokenClaims user [⟨.cw20 a, release⟩]) = a := rfl
        rw [ha] at h ⊢
        unfold takeClaim
        by_cases hl : x.included < limit
        · simp only [hl, if_true]
          exact ⟨_, bind_ok_iff.2 ⟨x.total + a, cadd128_ok.2 ⟨by omega, rfl⟩, rfl⟩, by simp⟩
        · simp only [hl, if_false]
          exact ⟨_, rfl, by simp⟩
      | cw721 ts => exact ⟨_, rfl, by simp⟩
    obtain ⟨z, h1, h2⟩ := this
    obtain ⟨y, h3, h4⟩ := takeClaims_exists limit user l z (by omega)
    exact ⟨y, foldlM_cons_ok_iff.2 ⟨z, h1, h3⟩, by omega⟩

theorem takeUsers_exists (limit : Nat) : ∀ (l : List (Addr × List Claim)) (x : Acc (Addr × List Claim)),
    x.total + amounts (flat l) < M128 → ∃ y, l.foldlM (takeUser limit) x = Except.ok y
  | [], x, _ => ⟨x, rfl⟩
  | e :: l, x, h => by
    have hc : amounts (flat (e :: l)) = amounts (tokenClaims e.1 e.2) + amounts (flat l) := by
      rw [← amounts_append]; rfl
    rw [hc] at h
    have : ∃ z, takeUser limit x e = .ok z ∧ z.total ≤ x.total + amounts (tokenClaims e.1 e.2) := by
      unfold takeUser
      by_cases hl : limit ≤ x.included
      · rw [if_pos hl]
        exact ⟨_, rfl, by omega⟩
      · rw [if_neg hl]
        obtain ⟨y, h1, h2⟩ := takeClaims_exists limit e.1 e.2 ⟨x.total, x.included, x.sent, []⟩ (by simp only; omega)
        exact ⟨_, bind_ok_iff.2 ⟨y, h1, rfl⟩, h2⟩
    obtain ⟨z, h1, h2⟩ := this
    obtain ⟨y, h3⟩ := takeUsers_exists limit l z (by omega)
    exact ⟨y, foldlM_cons_ok_iff.2 ⟨z, h1, h3⟩⟩

theorem claimLoop_exists {limit : Nat} : ∀ (gas : Nat) {m : Map Addr (List Claim)} {total included : Nat}
    {sent : List UserClaim}, included ≤ limit → included = sent.length → total = (sent.map (·.amount)).sum →
    (∀ e ∈ m.entries, ∀ c ∈ e.2, ∃ a, c.asset = .cw20 a) → amounts sent + amounts (flat m.entries) < M128 →
    m.entries.length < gas → ∃ r, claimLoop limit gas m total included sent = .ok r
  | 0, m, total, included, sent, _, _, _, _, _, h => by omega
  | gas + 1, m, total, included, sent, hl, hc, ht, hall, hsum, hg => by
    unfold claimLoop
    by_cases hcond : included < limit ∧ m.entries ≠ []
    · rw [if_pos hcond]
      obtain ⟨r, hr⟩ := takeUsers_exists limit (m.entries.take limit) ⟨total, included, sent, []⟩ (by
        have h1 : amounts (flat m.entries) = amounts (flat (m.entries.take limit)) + amounts (flat (m.entries.drop limit)) := by
          rw [← amounts_append, ← flat_append, List.take_append_drop]
        have h2 : total = amounts sent := ht
        simp only
        omega)
      obtain ⟨i1, i2, i3, i4, i5, i6, i7, i8⟩ := claimRound hcond.1 hc ht hr
      have hall' : ∀ e ∈ (r.keep.foldl replaceOne m).entries, ∀ c ∈ e.2, ∃ a, c.asset = .cw20 a := by
        intro e he c hce
        obtain ⟨l0, h1, h2⟩ := i5 e.1 e.2 (Map.get_eq_some_iff.2 he)
        exact hall (e.1, l0) (Map.get_eq_some_iff.1 h1) c (h2 c hce)
      have hsum' : amounts r.sent + amounts (flat (r.keep.foldl replaceOne m).entries) < M128 := by
        rw [← amounts_append, i4, amounts_append]
        exact hsum
      rcases i8 hcond.2 hall with h | h
      · obtain ⟨x, hx⟩ := claimLoop_exists gas i1 i2 i3 hall' hsum' (by omega)
        exact ⟨x, bind_ok_iff.2 ⟨r, hr, hx⟩⟩
      · have hpos : 0 < m.entries.length := List.length_pos_iff.2 hcond.2
        have : ∃ x, claimLoop limit gas (r.keep.foldl replaceOne m) r.total r.included r.sent = .ok x := by
          cases gas with
          | zero => omega
          | succ g =>
            unfold claimLoop
            rw [if_neg (by omega)]
            exact ⟨_, rfl⟩
        obtain ⟨x, hx⟩ := this
        exact ⟨x, bind_ok_iff.2 ⟨r, hr, hx⟩⟩
    · rw [if_neg hcond]
      exact ⟨_, rfl⟩

/-- With fewer token claims than the limit and an NFT claim, the loop never ends. -/
theorem claimLoop_stuck {limit : Nat} : ∀ (gas : Nat) {m : Map Addr (List Claim)} {total included : Nat}
    {sent : List UserClaim}, included = sent.length → total = (sent.map (·.amount)).sum →
    sent.length + (flat m.entries).length < limit →
    (∃ e ∈ m.entries, ∃ c ∈ e.2, ∃ ts, c.asset = .cw721 ts) →
    ∀ r, claimLoop limit gas m total included sent ≠ .ok r
  | 0, m, total, included, sent, _, _, _, _, r => by intro h; cases h
  | gas + 1, m, total, included, sent, hc, ht, hlim, hex, r => by
    intro h
    obtain ⟨e, he, c, hce, ts, hts⟩ := hex
    unfold claimLoop at h
    rw [if_pos ⟨by omega, by intro hn; rw [hn] at he; simp at he⟩] at h
    obtain ⟨a, ha, h⟩ := bind_ok_iff.1 h
    obtain ⟨i1, i2, i3, i4, i5, i6, i7, i8⟩ := claimRound (by omega) hc ht ha
    have hlen : a.sent.length + (flat (a.keep.foldl replaceOne m).entries).length =
        sent.length + (flat m.entries).length := by
      rw [← List.length_append, i4, List.length_append]
    refine claimLoop_stuck gas i2 i3 (by omega) ?_ r h
    -- the NFT claim is kept
    have key : ∀ m : List (Addr × List Claim), (m.map (fun e => e.2.length)).sum = (flat m).length +
        (m.map (fun e => (e.2.filter (fun c => match c.asset with | .cw20 _ => false | .cw721 _ => true)).length)).sum := by
      intro m
      induction m with
      | nil => rfl
      | cons e m ih =>
        have h1 : (flat (e :: m)).length = (tokenClaims e.1 e.2).length + (flat m).length := by
          rw [← List.length_append]; rfl
        have h2 : ∀ l : List Claim, l.length = (tokenClaims e.1 l).length +
            (l.filter (fun c => match c.asset with | .cw20 _ => false | .cw721 _ => true)).length := by
          intro l
          induction l with
          | nil => rfl
          | cons c l ihl =>
            have h3 : (tokenClaims e.1 (c :: l)).length = (tokenClaims e.1 [c]).length + (tokenClaims e.1 l).length := by
              rw [← List.length_append, ← tokenClaims_append]; rfl
            rw [h3]
            obtain ⟨asset, release⟩ := c
            cases asset with
            | cw20 x =>
              rw [List.filter_cons_of_neg (by simp), List.length_cons]
              have : (tokenClaims e.1 [⟨.cw20 x, release⟩]).length = 1 := rfl
              omega
            | cw721 x =>
              rw [List.filter_cons_of_pos (by simp), List.length_cons, List.length_cons]
              have : (tokenClaims e.1 [⟨.cw721 x, release⟩]).length = 0 := rfl
              omega
        rw [List.map_cons, List.sum_cons, List.map_cons, List.sum_cons, ih, h1, h2 e.2]
        omega
    have k1 := key m.entries
    have k2 := key (a.keep.foldl replaceOne m).entries
    have hpos : 0 < (m.entries.map (fun e => (e.2.filter (fun c => match c.asset with | .cw20 _ => false | .cw721 _ => true)).length)).sum := by
      have : ∀ l : List (Addr × List Claim), e ∈ l → 
          0 < (l.map (fun e => (e.2.filter (fun c => match c.asset with | .cw20 _ => false | .cw721 _ => true)).length)).sum := by
        intro l hl
        induction l with
        | nil => simp at hl
        | cons b l ih =>
          rw [List.map_cons, List.sum_cons]
          rcases List.mem_cons.1 hl with rfl | hl
          · have : 0 < (e.2.filter (fun c => match c.asset with | .cw20 _ => false | .cw721 _ => true)).length :=
              List.length_pos_iff.2 (List.ne_nil_of_mem (List.mem_filter.2 ⟨hce, by rw [hts]⟩))
            omega
          · have := ih hl
            omega
      exact this _ he
    have hpos2 : 0 < ((a.keep.foldl replaceOne m).entries.map (fun e => (e.2.filter (fun c => match c.asset with | .cw20 _ => false | .cw721 _ => true)).length)).sum := by
      rw [← i2] at hlen
      rw [← hc] at hlen
      omega
    have : ∀ l : List (Addr × List Claim), 
        0 < (l.map (fun e => (e.2.filter (fun c => match c.asset with | .cw20 _ => false | .cw721 _ => true)).length)).sum →
        ∃ e ∈ l, ∃ c ∈ e.2, ∃ ts, c.asset = .cw721 ts := by
      intro l hl
      induction l with
      | nil => simp at hl
      | cons b l ih =>
        rw [List.map_cons, List.sum_cons] at hl
        by_cases hb : 0 < (b.2.filter (fun c => match c.asset with | .cw20 _ => false | .cw721 _ => true)).length
        · obtain ⟨c, hc⟩ := List.exists_mem_of_length_pos hb
          obtain ⟨h1, h2⟩ := List.mem_filter.1 hc
          refine ⟨b, List.mem_cons_self, c, h1, ?_⟩
          obtain ⟨asset, release⟩ := c
          cases asset with
          | cw20 x => simp at h2
          | cw721 x => exact ⟨x, rfl⟩
        · obtain ⟨e, he, h⟩ := ih (by omega)
          exact ⟨e, List.mem_cons_of_mem _ he, h⟩
    exact this _ hpos2

/-! ### NFT stakes -/

/-- Number of stakes of `u` in a list of NFT stakes. -/
def nftCount (l : List (Nat × Addr)) (u : Addr) : Nat := (l.filter (fun e => e.2 = u)).length

theorem nftCount_cons (e : Nat × Addr) (l : List (Nat × Addr)) (u : Addr) :
    nftCount (e :: l) u = (if e.2 = u then 1 else 0) + nftCount l u := by
  unfold nftCount
  by_cases h : e.2 = u
  · rw [List.filter_cons_of_pos (by simp [h]), List.length_cons, if_pos h]
    omega
  · rw [List.filter_cons_of_neg (by simp [h]), if_neg h]
    omega

theorem nftCount_append (a b : List (Nat × Addr)) (u : Addr) : nftCount (a ++ b) u = nftCount a u + nftCount b u := by
  unfold nftCount
  rw [List.filter_append, List.length_append]

theorem moveNft_fold : ∀ (l : List (Nat × Addr)) {s s' : State}, l.foldlM moveNft s = Except.ok s' →
    ∃ mg, s' = { s with nftStakes := l.foldl (fun m e => m.remove e.1) s.nftStakes, migrated := mg } ∧
      ∀ u, (mg.get u).getD 0 = (s.migrated.get u).getD 0 + nftCount l u
  | [], s, s', h => by
    rw [foldlM_nil_ok_iff] at h
    subst h
    exact ⟨s.migrated, rfl, fun u => rfl⟩
  | e :: l, s, s', h => by
    rw [foldlM_cons_ok_iff] at h
    obtain ⟨z, h1, h2⟩ := h
    unfold moveNft at h1
    obtain ⟨w, hw, h1⟩ := bind_ok_iff.1 h1
    cases h1
    obtain ⟨mg, h3, h4⟩ := moveNft_fold l h2
    refine ⟨mg, h3, fun u => ?_⟩
    rw [h4, nftCount_cons]
    simp only
    rw [Map.get_set]
    by_cases hu : e.2 = u
    · subst hu
      rw [if_pos rfl, if_pos rfl, Option.getD_some, (cadd128_ok.1 hw).2]
      omega
    · rw [if_neg hu, if_neg hu]
      omega

theorem moveNft_fold_exists : ∀ (l : List (Nat × Addr)) (s : State),
    (∀ u, (s.migrated.get u).getD 0 + l.length < M128) → ∃ s', l.foldlM moveNft s = Except.ok s'
  | [], s, _ => ⟨s, rfl⟩
  | e :: l, s, h => by
    have he := h e.2
    rw [List.length_cons] at he
    obtain ⟨s', hs'⟩ := moveNft_fold_exists l
      { s with nftStakes := s.nftStakes.remove e.1, migrated := s.migrated.set e.2 ((s.migrated.get e.2).getD 0 + 1) } (by
        intro u
        simp only
        rw [Map.get_set]
        by_cases hu : e.2 = u
        · rw [if_pos hu, Option.getD_some]; omega
        · rw [if_neg hu]
          have := h u
          rw [List.length_cons] at this
          omega)
    refine ⟨s', foldlM_cons_ok_iff.2 ⟨_, ?_, hs'⟩⟩
    unfold moveNft
    exact bind_ok_iff.2 ⟨_, cadd128_ok.2 ⟨by omega, rfl⟩, rfl⟩

theorem moveNfts_ok {s s' : State} {limit : Nat} {outs : List Out} (h : moveNfts s limit = .ok (s', outs)) :
    ∃ m mg, s' = { s with nftStakes := m, migrated := mg } ∧ m.entries = s.nftStakes.entries.drop limit ∧
      (∀ u, (mg.get u).getD 0 = (s.migrated.get u).getD 0 + nftCount (s.nftStakes.entries.take limit) u) ∧
      outs = (s.nftStakes.entries.take limit).map (fun e => .stakeNft e.1 e.2) := by
  unfold moveNfts at h
  obtain ⟨x, h1, h2⟩ := bind_ok_iff.1 h
  obtain ⟨mg, h3, h4⟩ := moveNft_fold _ h1
  cases h2
  exact ⟨_, mg, h3, remove_batch _ _, h4, rfl⟩

/-! ### NFT claims -/

/-- NFT claims of a list of entries. -/
def flatN (l : List (Addr × List Claim)) : List (Addr × Nat × ReleaseAt) := l.flatMap (fun e => nftClaims e.1 e.2)

theorem flatN_append (a b : List (Addr × List Claim)) : flatN (a ++ b) = flatN a ++ flatN b := by
  unfold flatN; rw [List.flatMap_append]

theorem nftClaimMsgs_in (u : Addr) (l : List Claim) :
    (l.flatMap (nftClaimMsgs u)).flatMap nftClaimsIn = nftClaims u l := by
  induction l with
  | nil => rfl
  | cons c l ih =>
    have h : nftClaims u (c :: l) = nftClaims u [c] ++ nftClaims u l := by
      unfold nftClaims; rw [← List.flatMap_append]; rfl
    rw [List.flatMap_cons, List.flatMap_append, ih, h]
    congr 1
    obtain ⟨asset, release⟩ := c
    cases asset with
    | cw20 a => rfl
    | cw721 ts =>
      show (ts.map _).flatMap nftClaimsIn = (ts.map _) ++ []
      rw [List.append_nil]
      clear h
      induction ts with
      | nil => rfl
      | cons t ts ih => rw [List.map_cons, List.flatMap_cons, ih, List.map_cons]; rfl

theorem batchMsgs_in (l : List (Addr × List Claim)) :
    (l.flatMap (fun e => e.2.flatMap (nftClaimMsgs e.1))).flatMap nftClaimsIn = flatN l := by
  induction l with
  | nil => rfl
  | cons e l ih =>
    rw [List.flatMap_cons, List.flatMap_append, ih, nftClaimMsgs_in]
    rfl

/-- A message that sends an NFT claim. -/
def Out.isNftClaim : Out → Bool
  | .addNftClaim _ _ _ => true
  | _ => false

theorem batchMsgs_kind (l : List (Addr × List Claim)) :
    ∀ o ∈ l.flatMap (fun e => e.2.flatMap (nftClaimMsgs e.1)), o.isNftClaim = true := by
  intro o ho
  obtain ⟨e, _, ho⟩ := List.mem_flatMap.1 ho
  obtain ⟨c, _, ho⟩ := List.mem_flatMap.1 ho
  unfold nftClaimMsgs at ho
  split at ho
  · simp at ho
  · obtain ⟨t, _, rfl⟩ := List.mem_map.1 ho
    rfl

theorem nftClaimLoop_ok {limit : Nat} : ∀ (gas : Nat) {m m' : Map Addr (List Claim)} {sent sent' : List Out},
    nftClaimLoop limit gas m sent = .ok (m', sent') →
    sent'.flatMap nftClaimsIn ++ flatN m'.entries = sent.flatMap nftClaimsIn ++ flatN m.entries ∧
    (sent'.length < limit → m'.entries = []) ∧
    ((∀ o ∈ sent, o.isNftClaim = true) → ∀ o ∈ sent', o.isNftClaim = true)
  | 0, m, m', sent, sent', h => by cases h
  | gas + 1, m, m', sent, sent', h => by
    unfold nftClaimLoop at h
    split at h
    · rename_i hcond
      obtain ⟨i1, i2, i3⟩ := nftClaimLoop_ok gas h
      refine ⟨?_, i2, fun ho => i3 ?_⟩
      · rw [i1, List.flatMap_append, batchMsgs_in, remove_batch, List.append_assoc, ← flatN_append,
          List.take_append_drop]
      · intro o hm
        rcases List.mem_append.1 hm with hm | hm
        · exact ho o hm
        · exact batchMsgs_kind _ o hm
    · rename_i hcond
      cases h
      refine ⟨rfl, fun hlt => ?_, fun ho => ho⟩
      by_contra hne
      exact hcond ⟨hlt, hne⟩

theorem nftClaimLoop_exists {limit : Nat} (hl : 0 < limit ∨ True) : ∀ (gas : Nat) {m : Map Addr (List Claim)}
    {sent : List Out}, m.entries.length < gas → ∃ r, nftClaimLoop limit gas m sent = .ok r
  | 0, m, sent, h => by omega
  | gas + 1, m, sent, h => by
    unfold nftClaimLoop
    by_cases hcond : sent.length < limit ∧ m.entries ≠ []
    · rw [if_pos hcond]
      refine nftClaimLoop_exists hl gas ?_
      rw [remove_batch, List.length_drop]
      have : 0 < m.entries.length := List.length_pos_iff.2 hcond.2
      omega
    · rw [if_neg hcond]
      exact ⟨_, rfl⟩

theorem moveNftClaims_ok {gas : Nat} {s s' : State} {limit : Nat} {outs : List Out}
    (h : moveNftClaims gas s limit = .ok (s', outs)) :
    ∃ m, s' = { s with claims := m } ∧ outs.flatMap nftClaimsIn ++ flatN m.entries = flatN s.claims.entries ∧
      (outs.length < limit → m.entries = []) ∧ ∀ o ∈ outs, o.isNftClaim = true := by
  unfold moveNftClaims at h
  obtain ⟨⟨m, l⟩, h1, h2⟩ := bind_ok_iff.1 h
  obtain ⟨i1, i2, i3⟩ := nftClaimLoop_ok gas h1
  cases h2
  exact ⟨m, rfl, i1, i2, i3 (by simp)⟩

/-! ### A whole step -/

/-- Messages carry the sum of what they announce. -/
def Out.Balanced : Out → Prop
  | .addStakes n l => n = (l.map (·.2)).sum ∧ n ≠ 0
  | .addClaims n l => n = (l.map (·.amount)).sum ∧ n ≠ 0
  | _ => True

/-- A user with a stake has no migrated weight yet (token DAOs). -/
def Disjoint (s : State) : Prop := s.dao = .token → ∀ u w, s.stakes.get u = some w → s.migrated.get u = none

/-- Weight of a user, as a number. -/
def weightOf (s : State) (u : Addr) : Nat :=
  (match s.dao with
    | .denom => 0
    | .token => (s.stakes.get u).getD 0
    | .nft => nftCount s.nftStakes.entries u
    | .multisig => (s.members.get u).getD 0) + (s.migrated.get u).getD 0

theorem queryWeight_eq (s : State) (u : Addr) : queryWeight s u =
    if s.dao = .denom then .error .unsupported else cadd128 (weightOf s u) 0 := by
  unfold queryWeight preWeight weightOf
  have h : ∀ a b : Nat, cadd128 a b = cadd128 (a + b) 0 := by intro a b; unfold cadd128; simp
  cases hd : s.dao with
  | denom => rfl
  | token =>
    simp only [reduceCtorEq, if_false]
    show cadd128 _ _ = _
    rw [h]
  | nft =>
    simp only [reduceCtorEq, if_false]
    show cadd128 _ _ = _
    rw [h]
    congr 2
    unfold nftCount
    split
    · rename_i h0; rw [h0]; rfl
    · rfl
  | multisig =>
    simp only [reduceCtorEq, if_false]
    show cadd128 _ _ = _
    rw [h]

/-- Effect of an accepted batch. -/
structure Effect (s s' : State) (outs : List Out) (n limit : Nat) : Prop where
  dao : s'.dao = s.dao
  membership : s'.membership = s.membership
  disjoint : Disjoint s → Disjoint s'
  weight : Disjoint s → ∀ u, weightOf s' u = weightOf s u
  balanced : ∀ o ∈ outs, o.Balanced
  stakes : nonzeroStakes (outs.flatMap stakesIn) ++ nonzeroStakes s'.stakes.entries = nonzeroStakes s.stakes.entries
  nfts : outs.flatMap nftsIn ++ s'.nftStakes.entries = s.nftStakes.entries
  claims : s.dao ≠ .nft →
    nonzeroClaims (outs.flatMap claimsIn) ++ nonzeroClaims (owedTokens s') = nonzeroClaims (owedTokens s)
  nftClaims : s.dao = .nft → outs.flatMap nftClaimsIn ++ owedNfts s' = owedNfts s
  empty : n < limit → (s.dao = .token → s'.stakes.entries = [] ∧ s'.claims.entries = []) ∧
    (s.dao = .nft → s'.nftStakes.entries = [] ∧ s'.claims.entries = [])
  onlyTokens : s.dao ≠ .nft → TokenClaimsOnly s → TokenClaimsOnly s'
  items : s.dao = .token → s'.stakes.entries.length + (owedTokens s').length + n =
    s.stakes.entries.length + (owedTokens s).length

theorem nonzero_of_sum_zero {l : List (Addr × Nat)} (h : (l.map (·.2)).sum = 0) : nonzeroStakes l = [] := by
  unfold nonzeroStakes
  rw [List.filter_eq_nil_iff]
  intro e he
  have : ∀ l : List (Addr × Nat), e ∈ l → e.2 ≤ (l.map (·.2)).sum := by
    intro l hl
    induction l with
    | nil => simp at hl
    | cons b l ih =>
      rw [List.map_cons, List.sum_cons]
      rcases List.mem_cons.1 hl with rfl | hl
      · omega
      · have := ih hl; omega
  have := this l he
  simp only [ne_eq, decide_not, Bool.not_eq_true', decide_eq_false_iff_not, not_not]
  omega

theorem nonzeroC_of_sum_zero {l : List UserClaim} (h : (l.map (·.amount)).sum = 0) : nonzeroClaims l = [] := by
  unfold nonzeroClaims
  rw [List.filter_eq_nil_iff]
  intro e he
  have : ∀ l : List UserClaim, e ∈ l → e.amount ≤ (l.map (·.amount)).sum := by
    intro l hl
    induction l with
    | nil => simp at hl
    | cons b l ih =>
      rw [List.map_cons, List.sum_cons]
      rcases List.mem_cons.1 hl with rfl | hl
      · omega
      · have := ih hl; omega
  have := this l he
  simp only [ne_eq, decide_not, Bool.not_eq_true', decide_eq_false_iff_not, not_not]
  omega

theorem lookup_take_drop {s s' : State} {limit : Nat} {u : Addr}
    (h : s'.stakes.entries = s.stakes.entries.drop limit) :
    s.stakes.get u = (lookupL u (s.stakes.entries.take limit)).orElse (fun _ => s'.stakes.get u) := by
  show lookupL u s.stakes.entries = (lookupL u (s.stakes.entries.take limit)).orElse (fun _ => lookupL u s'.stakes.entries)
  rw [h, ← lookupL_append, List.take_append_drop]

theorem lookup_both {s s' : State} {limit : Nat} {u : Addr} {w : Nat}
    (h : s'.stakes.entries = s.stakes.entries.drop limit) (hw : s'.stakes.get u = some w) :
    lookupL u (s.stakes.entries.take limit) = none ∧ s.stakes.get u = some w := by
  have hs := s.stakes.sorted
  rw [← List.take_append_drop limit s.stakes.entries] at hs
  have hp := (List.pairwise_append.1 hs).2.2
  rw [Map.get_eq_some_iff, h] at hw
  have h1 : lookupL u (s.stakes.entries.take limit) = none := by
    cases hl : lookupL u (s.stakes.entries.take limit) with
    | none => rfl
    | some x =>
      have hx := (lookupL_eq_some_iff (List.Pairwise.sublist (List.take_sublist _ _) s.stakes.sorted)).1 hl
      exact absurd (hp _ hx _ hw) (lt_irrefl _)
  refine ⟨h1, ?_⟩
  rw [Map.get_eq_some_iff]
  exact List.mem_of_mem_drop hw

theorem sortedL_take {l : List (Addr × Nat)} (n : Nat) (h : SortedL l) : SortedL (l.take n) :=
  List.Pairwise.sublist (List.take_sublist _ _) h

theorem finalize_effect {gas limit n : Nat} {s s' : State} {outs : List Out}
    (h : finalize gas s limit = .ok (s', outs, n)) : Effect s s' outs n limit ∧ s'.stage = s.stage := by
  unfold finalize at h
  cases hd : s.dao with
  | denom => rw [hd] at h; cases h
  | multisig =>
    rw [hd] at h
    cases h
    refine ⟨⟨rfl, rfl, fun h => h, fun _ _ => rfl, by simp, rfl, rfl, fun _ => rfl, fun _ => rfl, fun _ => ⟨?_, ?_⟩, fun _ h => h, ?_⟩, rfl⟩
    · rw [hd]; intro h; cases h
    · rw [hd]; intro h; cases h
    · rw [hd]; intro h; cases h
  | token =>
    rw [hd] at h
    obtain ⟨⟨s1, o1, n1⟩, h1, h⟩ := bind_ok_iff.1 h
    obtain ⟨⟨s2, o2, n2⟩, h2, h⟩ := bind_ok_iff.1 h
    cases h
    obtain ⟨i1, i2, i3, ⟨i4, i5, i6, i7, i8⟩, i9, i10⟩ := moveStakes_ok h1
    obtain ⟨m, l, rfl, j2, j3, j4, j5, j6, j7⟩ := moveClaims_ok h2
    have ho1n : o1.flatMap nftsIn = [] ∧ o1.flatMap claimsIn = [] ∧
        nonzeroStakes (o1.flatMap stakesIn) = nonzeroStakes (s.stakes.entries.take limit) := by
      rw [i10]
      unfold stakesMsg
      split
      · rename_i h0
        refine ⟨rfl, rfl, ?_⟩
        rw [nonzero_of_sum_zero h0]; rfl
      · refine ⟨rfl, rfl, ?_⟩
        simp [stakesIn]
    have ho2n : o2.flatMap nftsIn = [] ∧ o2.flatMap stakesIn = [] ∧
        nonzeroClaims (o2.flatMap claimsIn) = nonzeroClaims l := by
      rw [j2]
      unfold claimsMsg
      split
      · rename_i h0
        refine ⟨rfl, rfl, ?_⟩
        rw [nonzeroC_of_sum_zero h0]; rfl
      · refine ⟨rfl, rfl, ?_⟩
        simp [claimsIn]
    have hlen := List.length_take (i := limit) (l := s.stakes.entries)
    refine ⟨⟨i1, i8, ?_, ?_, ?_, ?_, ?_, ?_, ?_, ?_, ?_, ?_⟩, i7⟩
    · intro hdis _ u w hu
      obtain ⟨k1, k2⟩ := lookup_both i2 hu
      show s1.migrated.get u = none
      rw [i3, set_fold_get _ (sortedL_take _ s.stakes.sorted), k1]
      exact hdis hd u w k2
    · intro hdis u
      unfold weightOf
      simp only
      rw [i1, hd]
      simp only
      rw [i3, set_fold_get _ (sortedL_take _ s.stakes.sorted)]
      cases hl : lookupL u (s.stakes.entries.take limit) with
      | none =>
        have := lookup_take_drop (u := u) i2
        rw [hl] at this
        rw [this]
        rfl
      | some w =>
        have hs1 : s1.stakes.get u = none := by
          cases hs : s1.stakes.get u with
          | none => rfl
          | some x => rw [(lookup_both i2 hs).1] at hl; cases hl
        have hs0 : s.stakes.get u = some w := by
          rw [lookup_take_drop i2, hl]; rfl
        rw [hs1, hs0, hdis hd u w hs0]
        simp
    · intro o ho
      rcases List.mem_append.1 ho with ho | ho
      · rw [i10] at ho
        unfold stakesMsg at ho
        split at ho
        · simp at ho
        · rw [List.mem_singleton] at ho
          subst ho
          exact ⟨rfl, by assumption⟩
      · rw [j2] at ho
        unfold claimsMsg at ho
        split at ho
        · simp at ho
        · rw [List.mem_singleton] at ho
          subst ho
          exact ⟨rfl, by assumption⟩
    · rw [List.flatMap_append, ho2n.2.1, List.append_nil, ho1n.2.2]
      show _ ++ nonzeroStakes s1.stakes.entries = _
      rw [i2]
      unfold nonzeroStakes
      rw [← List.filter_append, List.take_append_drop]
    · rw [List.flatMap_append, ho1n.1, ho2n.1]
      show s1.nftStakes.entries = _
      rw [i4]
    · intro _
      rw [List.flatMap_append, ho1n.2.1, List.nil_append, ho2n.2.2]
      show nonzeroClaims l ++ nonzeroClaims (flat m.entries) = nonzeroClaims (flat s.claims.entries)
      rw [← i5, ← j5]
      unfold nonzeroClaims
      rw [List.filter_append]
    · intro hn; rw [hd] at hn; cases hn
    · intro hlt
      refine ⟨fun _ => ⟨?_, ?_⟩, fun hn => by rw [hd] at hn; cases hn⟩
      · show s1.stakes.entries = []
        rw [i2]
        refine List.drop_eq_nil_of_le ?_
        rw [List.length_take] at i9
        omega
      · exact j6 (by omega)
    · intro _ hto u l' hu
      obtain ⟨l0, k1, k2⟩ := j7 u l' hu
      rw [i5] at k1
      exact fun c hc => hto u l0 k1 c (k2 c hc)
    · intro _
      have h5 : (flat m.entries).length + l.length = (flat s1.claims.entries).length := by
        rw [← j5, List.length_append]; omega
      show s1.stakes.entries.length + (flat m.entries).length + (n1 + n2) = s.stakes.entries.length + (flat s.claims.entries).length
      rw [← i5, i2, List.length_drop, ← h5]
      rw [List.length_take] at i9
      omega
  | nft =>
    rw [hd] at h
    obtain ⟨⟨s1, o1⟩, h1, h⟩ := bind_ok_iff.1 h
    obtain ⟨⟨s2, o2⟩, h2, h⟩ := bind_ok_iff.1 h
    cases h
    obtain ⟨m1, mg, rfl, i2, i3, i4⟩ := moveNfts_ok h1
    obtain ⟨m2, rfl, j2, j3, j4⟩ := moveNftClaims_ok h2
    have ho1 : o1.flatMap nftsIn = s.nftStakes.entries.take limit ∧ o1.flatMap claimsIn = [] ∧ o1.flatMap stakesIn = [] ∧
        o1.flatMap nftClaimsIn = [] := by
      rw [i4]
      generalize s.nftStakes.entries.take limit = b
      induction b with
      | nil => exact ⟨rfl, rfl, rfl, rfl⟩
      | cons e b ih =>
        simp only [List.map_cons, List.flatMap_cons, ih.1, ih.2.1, ih.2.2.1, ih.2.2.2]
        exact ⟨rfl, rfl, rfl, rfl⟩
    have ho2 : o2.flatMap nftsIn = [] ∧ o2.flatMap stakesIn = [] := by
      refine ⟨?_, ?_⟩ <;>
      · rw [List.flatMap_eq_nil_iff]
        intro o ho
        have := j4 o ho
        cases o <;> simp [Out.isNftClaim] at this
        rfl
    refine ⟨⟨rfl, rfl, ?_, ?_, ?_, ?_, ?_, ?_, ?_, ?_, ?_, ?_⟩, rfl⟩
    · intro _ ht
      rw [show s.dao = .token from ht] at hd
      cases hd
    · intro _ u
      unfold weightOf
      simp only [hd]
      rw [i3, i2]
      have := nftCount_append (s.nftStakes.entries.take limit) (s.nftStakes.entries.drop limit) u
      rw [List.take_append_drop] at this
      omega
    · intro o ho
      rcases List.mem_append.1 ho with ho | ho
      · rw [i4] at ho
        obtain ⟨e, _, rfl⟩ := List.mem_map.1 ho
        trivial
      · have := j4 o ho
        cases o <;> simp [Out.isNftClaim] at this
        trivial
    · rw [List.flatMap_append, ho1.2.2.1, ho2.2]
      rfl
    · rw [List.flatMap_append, ho1.1, ho2.1, List.append_nil]
      show _ ++ m1.entries = _
      rw [i2, List.take_append_drop]
    · exact fun hn => absurd hd hn
    · intro _
      rw [List.flatMap_append, ho1.2.2.2, List.nil_append]
      exact j2
    · intro hlt
      refine ⟨fun hn => (by rw [hd] at hn; cases hn), fun _ => ⟨?_, ?_⟩⟩
      · show m1.entries = []
        rw [i2]
        refine List.drop_eq_nil_of_le ?_
        rw [i4, List.length_append, List.length_map, List.length_take] at hlt
        omega
      · refine j3 ?_
        rw [List.length_append] at hlt
        omega
    · exact fun hn => absurd hd hn
    · intro hn; rw [hd] at hn; cases hn

/-! ### Steps and histories -/

theorem perform_safe {gas : Nat} {s : State} {l : Option Nat} {r : State × List Out} (h : perform gas s l = .ok r) :
    performSafe gas s l = .ok r ∧ s.stage ≠ .notStarted := by
  unfold perform at h
  cases hs : s.stage with
  | notStarted => rw [hs] at h; cases h
  | inProgress => rw [hs] at h; exact ⟨h, by simp⟩
  | completed =>
    rw [hs] at h
    simp only at h
    split at h
    · exact ⟨h, by simp⟩
    · cases h

theorem performSafe_ok {gas : Nat} {s s' : State} {l : Option Nat} {outs : List Out}
    (h : performSafe gas s l = .ok (s', outs)) :
    ∃ n, Effect s s' outs n (limitOf s.dao l) ∧
      s'.stage = (if n < limitOf s.dao l then .completed else .inProgress) := by
  unfold performSafe at h
  split at h
  · cases h
  · obtain ⟨⟨s1, o, n⟩, h1, h2⟩ := bind_ok_iff.1 h
    obtain ⟨e, _⟩ := finalize_effect h1
    cases h2
    exact ⟨n, ⟨e.dao, e.membership, e.disjoint, e.weight, e.balanced, e.stakes, e.nfts, e.claims, e.nftClaims, e.empty,
      e.onlyTokens, e.items⟩, rfl⟩

theorem step_cases (s : State) (c : Call) :
    (step s c = (s, [])) ∨ (perform c.gas s c.limit = .ok (step s c) ∧ c.delivered = true) := by
  unfold step
  cases h : perform c.gas s c.limit with
  | error e => exact Or.inl rfl
  | ok r =>
    cases hd : c.delivered with
    | false => exact Or.inl (by simp)
    | true => exact Or.inr ⟨by simp, rfl⟩

theorem step_effect (s : State) (c : Call) :
    (step s c = (s, [])) ∨ ∃ n, Effect s (step s c).1 (step s c).2 n (limitOf s.dao c.limit) ∧
      (step s c).1.stage = (if n < limitOf s.dao c.limit then .completed else .inProgress) := by
  rcases step_cases s c with h | ⟨h, _⟩
  · exact Or.inl h
  · exact Or.inr (performSafe_ok (perform_safe h).1)

theorem run_append (s : State) (a b : List Call) : run s (a ++ b) = run (run s a) b := by
  induction a generalizing s with
  | nil => rfl
  | cons c a ih => exact ih _

theorem run_dao (s : State) (h : List Call) : (run s h).dao = s.dao := by
  induction h generalizing s with
  | nil => rfl
  | cons c h ih =>
    show (run (step s c).1 h).dao = _
    rw [ih]
    rcases step_effect s c with he | ⟨n, he, _⟩
    · rw [he]
    · exact he.dao

end Verif.Migration
