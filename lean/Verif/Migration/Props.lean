import Verif.Migration.Lemmas

set_option linter.unusedSimpArgs false

/-!
# Migration: property C63
-/

namespace Verif.Migration
open Verif
open Verif.Staking (ReleaseAt UserClaim)

theorem start_disjoint {s : State} (h : Start s) : Disjoint s := by
  intro _ u w _
  unfold Start at h
  rw [h]
  rfl

theorem run_weight (h : List Call) : ∀ (s : State), Disjoint s → Disjoint (run s h) ∧ ∀ u, weightOf (run s h) u = weightOf s u := by
  induction h with
  | nil => exact fun s hd => ⟨hd, fun _ => rfl⟩
  | cons c h ih =>
    intro s hd
    show Disjoint (run (step s c).1 h) ∧ _
    rcases step_effect s c with he | ⟨n, he, _⟩
    · rw [show run s (c :: h) = run (step s c).1 h from rfl, he]
      exact ih s hd
    · obtain ⟨h1, h2⟩ := ih _ (he.disjoint hd)
      exact ⟨h1, fun u => (h2 u).trans (he.weight hd u)⟩

/-- C63: whatever the batches, failing or not, the weight the treasury reports for a user (not yet moved plus already
moved) never changes. -/
theorem C63_weight_constant (s : State) (hs : Start s) (h : List Call) (u : Addr) :
    queryWeight (run s h) u = queryWeight s u := by
  rw [queryWeight_eq, queryWeight_eq, run_dao, (run_weight h s (start_disjoint hs)).2 u]

/-- C63: every message of every batch carries exactly the sum of the amounts it announces, and no message is empty. -/
theorem C63_batch_amount (s s' : State) (gas : Nat) (limit : Option Nat) (outs : List Out)
    (h : perform gas s limit = .ok (s', outs)) (o : Out) (ho : o ∈ outs) :
    (∀ n l, o = .addStakes n l → n = (l.map (·.2)).sum ∧ 0 < n) ∧
    (∀ n l, o = .addClaims n l → n = (l.map (·.amount)).sum ∧ 0 < n) := by
  obtain ⟨n, he, _⟩ := performSafe_ok (perform_safe h).1
  have hb := he.balanced o ho
  refine ⟨?_, ?_⟩
  · rintro n l rfl; exact ⟨hb.1, Nat.pos_of_ne_zero hb.2⟩
  · rintro n l rfl; exact ⟨hb.1, Nat.pos_of_ne_zero hb.2⟩

/-- C63: over any history, the (nonzero) stakes announced so far, followed by those still kept, are the original
stakes: none is lost, repeated, changed or moved to another user. -/
theorem C63_stakes_once (h : List Call) : ∀ (s : State),
    nonzeroStakes ((sent s h).flatMap stakesIn) ++ nonzeroStakes (run s h).stakes.entries =
      nonzeroStakes s.stakes.entries := by
  induction h with
  | nil => intro s; rfl
  | cons c h ih =>
    intro s
    have hi := ih (step s c).1
    show nonzeroStakes (((step s c).2 ++ sent (step s c).1 h).flatMap stakesIn) ++
      nonzeroStakes (run (step s c).1 h).stakes.entries = _
    have hstep : nonzeroStakes ((step s c).2.flatMap stakesIn) ++ nonzeroStakes (step s c).1.stakes.entries =
        nonzeroStakes s.stakes.entries := by
      rcases step_effect s c with he | ⟨n, he, _⟩
      · rw [he]; rfl
      · exact he.stakes
    rw [List.flatMap_append]
    unfold nonzeroStakes at hi hstep ⊢
    rw [List.filter_append, List.append_assoc, hi, hstep]

/-- C63: the same for the token claims, with their users and release times (DAOs other than NFT ones). -/
theorem C63_claims_once (h : List Call) : ∀ (s : State), s.dao ≠ .nft →
    nonzeroClaims ((sent s h).flatMap claimsIn) ++ nonzeroClaims (owedTokens (run s h)) =
      nonzeroClaims (owedTokens s) := by
  induction h with
  | nil => intro s _; rfl
  | cons c h ih =>
    intro s hd
    have hdao : (step s c).1.dao ≠ .nft := by
      have := run_dao s [c]
      rw [show run s [c] = (step s c).1 from rfl] at this
      rw [this]; exact hd
    have hi := ih (step s c).1 hdao
    show nonzeroClaims (((step s c).2 ++ sent (step s c).1 h).flatMap claimsIn) ++
      nonzeroClaims (owedTokens (run (step s c).1 h)) = _
    have hstep : nonzeroClaims ((step s c).2.flatMap claimsIn) ++ nonzeroClaims (owedTokens (step s c).1) =
        nonzeroClaims (owedTokens s) := by
      rcases step_effect s c with he | ⟨n, he, _⟩
      · rw [he]; rfl
      · exact he.claims hd
    rw [List.flatMap_append]
    unfold nonzeroClaims at hi hstep ⊢
    rw [List.filter_append, List.append_assoc, hi, hstep]

/-- C63: over any history, the NFTs sent as stakes with their stakers, followed by those still kept, are the original
ones. -/
theorem C63_nfts_once (h : List Call) : ∀ (s : State),
    (sent s h).flatMap nftsIn ++ (run s h).nftStakes.entries = s.nftStakes.entries := by
  induction h with
  | nil => intro s; rfl
  | cons c h ih =>
    intro s
    have hi := ih (step s c).1
    show ((step s c).2 ++ sent (step s c).1 h).flatMap nftsIn ++ (run (step s c).1 h).nftStakes.entries = _
    have hstep : (step s c).2.flatMap nftsIn ++ (step s c).1.nftStakes.entries = s.nftStakes.entries := by
      rcases step_effect s c with he | ⟨n, he, _⟩
      · rw [he]; rfl
      · exact he.nfts
    rw [List.flatMap_append, List.append_assoc, hi, hstep]

/-- C63: the same for the NFTs under claim, with their users and release times (NFT DAOs). -/
theorem C63_nft_claims_once (h : List Call) : ∀ (s : State), s.dao = .nft →
    (sent s h).flatMap nftClaimsIn ++ owedNfts (run s h) = owedNfts s := by
  induction h with
  | nil => intro s _; rfl
  | cons c h ih =>
    intro s hd
    have hdao : (step s c).1.dao = .nft := by
      have := run_dao s [c]
      rw [show run s [c] = (step s c).1 from rfl] at this
      rw [this]; exact hd
    have hi := ih (step s c).1 hdao
    show ((step s c).2 ++ sent (step s c).1 h).flatMap nftClaimsIn ++ owedNfts (run (step s c).1 h) = _
    have hstep : (step s c).2.flatMap nftClaimsIn ++ owedNfts (step s c).1 = owedNfts s := by
      rcases step_effect s c with he | ⟨n, he, _⟩
      · rw [he]; rfl
      · exact he.nftClaims hd
    rw [List.flatMap_append, List.append_assoc, hi, hstep]

/-- Completed means that nothing of the DAO's own kind is left. -/
def DoneOk (s : State) : Prop := s.stage = .completed →
  (s.dao = .token → s.stakes.entries = [] ∧ s.claims.entries = []) ∧
  (s.dao = .nft → s.nftStakes.entries = [] ∧ s.claims.entries = [])

theorem step_doneOk (s : State) (c : Call) (h : DoneOk s) : DoneOk (step s c).1 := by
  rcases step_effect s c with he | ⟨n, he, hst⟩
  · rw [he]; exact h
  · intro hc
    rw [hst] at hc
    split at hc
    · rename_i hlt
      rw [he.dao]
      exact he.empty hlt
    · cases hc

theorem run_doneOk (h : List Call) : ∀ (s : State), DoneOk s → DoneOk (run s h) := by
  induction h with
  | nil => exact fun _ h => h
  | cons c h ih => exact fun s hs => ih _ (step_doneOk s c hs)

/-- C63: once a token DAO's migration says completed, every nonzero stake and every nonzero claim was sent, exactly
once. -/
theorem C63_completed_token (s : State) (h : List Call) (hd : s.dao = .token) (hs : s.stage = .inProgress)
    (hc : (run s h).stage = .completed) :
    nonzeroStakes ((sent s h).flatMap stakesIn) = nonzeroStakes s.stakes.entries ∧
    nonzeroClaims ((sent s h).flatMap claimsIn) = nonzeroClaims (owedTokens s) ∧
    (run s h).stakes.entries = [] ∧ (run s h).claims.entries = [] := by
  obtain ⟨h1, h2⟩ := (run_doneOk h s (fun hx => by rw [hs] at hx; cases hx) hc).1 ((run_dao s h).trans hd)
  have a := C63_stakes_once h s
  have b := C63_claims_once h s (by rw [hd]; simp)
  rw [h1] at a
  unfold owedTokens at b
  rw [h2] at b
  refine ⟨?_, ?_, h1, h2⟩
  · rw [← a]; unfold nonzeroStakes; simp
  · unfold owedTokens
    rw [← b]; unfold nonzeroClaims; simp

/-- C63: once an NFT DAO's migration says completed, every NFT staked or under claim was sent, exactly once. -/
theorem C63_completed_nft (s : State) (h : List Call) (hd : s.dao = .nft) (hs : s.stage = .inProgress)
    (hc : (run s h).stage = .completed) :
    (sent s h).flatMap nftsIn = s.nftStakes.entries ∧ (sent s h).flatMap nftClaimsIn = owedNfts s ∧
    (run s h).nftStakes.entries = [] ∧ (run s h).claims.entries = [] := by
  obtain ⟨h1, h2⟩ := (run_doneOk h s (fun hx => by rw [hs] at hx; cases hx) hc).2 ((run_dao s h).trans hd)
  have a := C63_nfts_once h s
  have b := C63_nft_claims_once h s hd
  rw [h1, List.append_nil] at a
  unfold owedNfts at b
  rw [h2] at b
  exact ⟨a, by unfold owedNfts; rw [← b]; simp, h1, h2⟩

/-! ### Progress -/

theorem sum_nonzero (l : List (Addr × Nat)) : ((nonzeroStakes l).map (·.2)).sum = (l.map (·.2)).sum := by
  unfold nonzeroStakes
  induction l with
  | nil => rfl
  | cons e l ih =>
    by_cases he : e.2 = 0
    · rw [List.filter_cons_of_neg (by simp [he]), ih]; simp [he]
    · rw [List.filter_cons_of_pos (by simp [he]), List.map_cons, List.sum_cons, ih, List.map_cons, List.sum_cons]

theorem amounts_nonzero (l : List UserClaim) : amounts (nonzeroClaims l) = amounts l := by
  unfold nonzeroClaims amounts
  induction l with
  | nil => rfl
  | cons e l ih =>
    by_cases he : e.amount = 0
    · rw [List.filter_cons_of_neg (by simp [he]), ih]; simp [he]
    · rw [List.filter_cons_of_pos (by simp [he]), List.map_cons, List.sum_cons, ih, List.map_cons, List.sum_cons]

/-- Number of stakes and claims left. -/
def itemsLeft (s : State) : Nat := s.stakes.entries.length + (owedTokens s).length

/-- A token DAO that can be migrated: only token claims, and amounts that sum up within 128 bits. -/
structure Migratable (s : State) : Prop where
  token : s.dao = .token
  membership : s.membership ≠ none
  claims : TokenClaimsOnly s
  stakes : (s.stakes.entries.map (·.2)).sum < 2 ^ 128
  owed : ((owedTokens s).map (·.amount)).sum < 2 ^ 128

theorem perform_exists {s : State} (hm : Migratable s) {gas : Nat} (hg : s.claims.entries.length < gas)
    (l : Option Nat) (hst : s.stage = .inProgress) : ∃ r, perform gas s l = .ok r := by
  obtain ⟨h1, h2, h3, h4, h5⟩ := hm
  have hf : ∃ r, finalize gas s (limitOf s.dao l) = .ok r := by
    unfold finalize
    rw [h1]
    simp only
    have hx : ∃ r, moveStakes s (limitOf .token l) = .ok r := by
      unfold moveStakes
      obtain ⟨x, hx⟩ := sum_fold_exists (s.stakes.entries.take (limitOf .token l)) 0 (by
        have : (s.stakes.entries.map (·.2)).sum = ((s.stakes.entries.take (limitOf .token l)).map (·.2)).sum +
            ((s.stakes.entries.drop (limitOf .token l)).map (·.2)).sum := by
          rw [← List.sum_append, ← List.map_append, List.take_append_drop]
        unfold M128
        omega)
      exact ⟨_, bind_ok_iff.2 ⟨x, hx, rfl⟩⟩
    obtain ⟨⟨s1, o1, n1⟩, hr⟩ := hx
    have hi := moveStakes_ok hr
    have hc := hi.rest.2.1
    have hy : ∃ r, moveClaims gas s1 (limitOf .token l - n1) = .ok r := by
      unfold moveClaims
      obtain ⟨x, hx⟩ := claimLoop_exists (limit := limitOf .token l - n1) gas (m := s1.claims) (sent := [])
        (Nat.zero_le _) rfl rfl (by
          rw [hc]
          intro e he c hce
          exact h3 e.1 e.2 (Map.get_eq_some_iff.2 he) c hce) (by
          rw [hc]
          have : amounts (flat s.claims.entries) < 2 ^ 128 := h5
          have h0 : amounts [] = 0 := rfl
          unfold M128
          omega) (by rw [hc]; exact hg)
      exact ⟨_, bind_ok_iff.2 ⟨x, hx, rfl⟩⟩
    obtain ⟨r2, hr2⟩ := hy
    exact ⟨_, bind_ok_iff.2 ⟨_, hr, bind_ok_iff.2 ⟨r2, hr2, rfl⟩⟩⟩
  obtain ⟨r, hr⟩ := hf
  unfold perform
  rw [hst]
  simp only
  unfold performSafe
  cases hmem : s.membership with
  | none => exact absurd hmem h2
  | some a => exact ⟨_, bind_ok_iff.2 ⟨r, hr, rfl⟩⟩

theorem claims_length {gas : Nat} {s s' : State} {l : Option Nat} {outs : List Out} (hd : s.dao = .token)
    (h : performSafe gas s l = .ok (s', outs)) : s'.claims.entries.length ≤ s.claims.entries.length := by
  unfold performSafe at h
  split at h
  · cases h
  · obtain ⟨⟨s1, o, n⟩, h1, h2⟩ := bind_ok_iff.1 h
    cases h2
    unfold finalize at h1
    rw [hd] at h1
    obtain ⟨⟨a, oa, na⟩, k1, h1⟩ := bind_ok_iff.1 h1
    obtain ⟨⟨b, ob, nb⟩, k2, h1⟩ := bind_ok_iff.1 h1
    cases h1
    have i := (moveStakes_ok k1).rest.2.1
    obtain ⟨m, l, rfl, j2, j3, j4, j5, j6, j7⟩ := moveClaims_ok k2
    rw [i] at j7
    have hsub : m.keys ⊆ s.claims.keys := by
      intro u hu
      obtain ⟨v, hv⟩ := Map.mem_keys.1 hu
      obtain ⟨l0, h0, _⟩ := j7 u v hv
      exact Map.mem_keys.2 ⟨l0, h0⟩
    have := List.Nodup.length_le_of_subset m.nodup_keys hsub
    unfold Map.keys at this
    simpa using this

/-- C63, progress: a token DAO whose claims are token claims is fully migrated by any sequence of delivered
steps, with any positive batch sizes, once their total exceeds the number of stakes and claims (and each step has
gas for as many rounds as users have claims). -/
theorem C63_progress (h : List Call) : ∀ (s : State), Migratable s → DoneOk s →
    (∀ c ∈ h, c.delivered = true ∧ 0 < c.limit.getD 100 ∧ s.claims.entries.length < c.gas) →
    (s.stage = .completed ∨
      s.stage = .inProgress ∧ itemsLeft s < (h.map (fun c => c.limit.getD 100)).sum) →
    (run s h).stage = .completed := by
  have lim : ∀ l : Option Nat, l.getD 100 = limitOf .token l := fun _ => rfl
  simp only [lim]
  induction h with
  | nil =>
    intro s _ _ _ hs
    rcases hs with hs | ⟨_, hs⟩
    · exact hs
    · simp at hs
  | cons c h ih =>
    intro s hm hdone hc hs
    obtain ⟨c1, c2, c3⟩ := hc c List.mem_cons_self
    show (run (step s c).1 h).stage = _
    have hc' : ∀ x ∈ h, x.delivered = true ∧ 0 < limitOf .token x.limit ∧ s.claims.entries.length < x.gas :=
      fun x hx => hc x (List.mem_cons_of_mem _ hx)
    rcases step_cases s c with he | ⟨hp, _⟩
    · rw [he]
      rcases hs with hs | ⟨hs, _⟩
      · exact ih s hm hdone hc' (Or.inl hs)
      · exfalso
        obtain ⟨r, hr⟩ := perform_exists hm c3 c.limit hs
        obtain ⟨n, _, hst⟩ := performSafe_ok (perform_safe hr).1
        have hstep : step s c = r := by
          unfold step
          rw [hr, c1]
          rfl
        rw [he] at hstep
        subst hstep
        obtain ⟨n, hf, hst⟩ := performSafe_ok (perform_safe hr).1
        have hi := hf.items hm.token
        rw [hs, hm.token] at hst
        split at hst
        · cases hst
        · omega
    · have hdn := step_doneOk s c hdone
      generalize step s c = r at hp hdn ⊢
      obtain ⟨s1, o⟩ := r
      obtain ⟨n, hf, hst⟩ := performSafe_ok (perform_safe hp).1
      have hlen := claims_length hm.token (perform_safe hp).1
      rw [hm.token] at hst hf
      have hm' : Migratable s1 := by
        refine ⟨hf.dao.trans hm.token, by rw [hf.membership]; exact hm.membership,
          hf.onlyTokens (by rw [hm.token]; simp) hm.claims, ?_, ?_⟩
        · have := congrArg (fun l => (l.map (·.2)).sum) hf.stakes
          simp only [List.map_append, List.sum_append, sum_nonzero] at this
          have := hm.stakes
          omega
        · have := congrArg amounts (hf.claims (by rw [hm.token]; simp))
          rw [amounts_append, amounts_nonzero, amounts_nonzero, amounts_nonzero] at this
          have h5 : amounts (owedTokens s) < 2 ^ 128 := hm.owed
          show amounts _ < _
          omega
      have hi := hf.items hm.token
      refine ih s1 hm' hdn (fun x hx => ?_) ?_
      · obtain ⟨a1, a2, a3⟩ := hc' x hx
        exact ⟨a1, a2, by omega⟩
      · show s1.stage = _ ∨ s1.stage = _ ∧ itemsLeft s1 < _
        rw [hst]
        rcases hs with hs | ⟨hs, hsum⟩
        · left
          obtain ⟨e1, e2⟩ := (hdone hs).1 hm.token
          have : itemsLeft s = 0 := by
            unfold itemsLeft owedTokens
            rw [e1, e2]
            rfl
          unfold itemsLeft at this
          rw [if_pos (by omega)]
        · rw [List.map_cons, List.sum_cons] at hsum
          unfold itemsLeft at hsum ⊢
          split
          · exact Or.inl rfl
          · right
            exact ⟨rfl, by omega⟩

/-! ### Progress of an NFT DAO -/

/-- Number of NFTs left, staked or under claim. -/
def nftsLeft (s : State) : Nat := s.nftStakes.entries.length + (owedNfts s).length

/-- An NFT DAO that can be migrated: the weights stay within 128 bits. -/
structure NftMigratable (s : State) : Prop where
  nft : s.dao = .nft
  membership : s.membership ≠ none
  weights : ∀ u, (s.migrated.get u).getD 0 + s.nftStakes.entries.length < 2 ^ 128

theorem perform_nft_exists {s : State} (hm : NftMigratable s) {gas : Nat} (hg : s.claims.entries.length < gas)
    (l : Option Nat) (hst : s.stage = .inProgress) : ∃ r, perform gas s l = .ok r := by
  obtain ⟨h1, h2, h3⟩ := hm
  have hf : ∃ r, finalize gas s (limitOf s.dao l) = .ok r := by
    unfold finalize
    rw [h1]
    have hx : ∃ r, moveNfts s (limitOf .nft l) = .ok r := by
      unfold moveNfts
      obtain ⟨x, hx⟩ := moveNft_fold_exists (s.nftStakes.entries.take (limitOf .nft l)) s (by
        intro u
        have := h3 u
        have hlen := List.length_take (i := limitOf .nft l) (l := s.nftStakes.entries)
        unfold M128
        omega)
      exact ⟨_, bind_ok_iff.2 ⟨x, hx, rfl⟩⟩
    obtain ⟨⟨s1, o1⟩, hr⟩ := hx
    obtain ⟨m, mg, rfl, -, -, -⟩ := moveNfts_ok hr
    obtain ⟨x, hx⟩ := nftClaimLoop_exists (limit := limitOf .nft l - o1.length) (Or.inr trivial) gas
      (m := s.claims) (sent := []) hg
    have hy : moveNftClaims gas { s with nftStakes := m, migrated := mg } (limitOf .nft l - o1.length) =
        .ok ({ s with nftStakes := m, migrated := mg, claims := x.1 }, x.2) := by
      unfold moveNftClaims
      exact bind_ok_iff.2 ⟨x, hx, rfl⟩
    exact ⟨_, bind_ok_iff.2 ⟨_, hr, bind_ok_iff.2 ⟨_, hy, rfl⟩⟩⟩
  obtain ⟨r, hr⟩ := hf
  unfold perform
  rw [hst]
  simp only
  unfold performSafe
  cases hmem : s.membership with
  | none => exact absurd hmem h2
  | some a => exact ⟨_, bind_ok_iff.2 ⟨r, hr, rfl⟩⟩

theorem nftClaimLoop_length {limit : Nat} : ∀ (gas : Nat) {m m' : Map Addr (List Claim)} {sent sent' : List Out},
    nftClaimLoop limit gas m sent = .ok (m', sent') → m'.entries.length ≤ m.entries.length
  | 0, m, m', sent, sent', h => by cases h
  | gas + 1, m, m', sent, sent', h => by
    unfold nftClaimLoop at h
    split at h
    · have := nftClaimLoop_length gas h
      rw [remove_batch, List.length_drop] at this
      omega
    · cases h
      exact Nat.le_refl _

theorem nftCount_le (l : List (Nat × Addr)) (u : Addr) : nftCount l u ≤ l.length := List.length_filter_le _ _

theorem isNftClaim_length : ∀ {l : List Out}, (∀ o ∈ l, o.isNftClaim = true) → (l.flatMap nftClaimsIn).length = l.length
  | [], _ => rfl
  | o :: l, h => by
    have ih := isNftClaim_length (fun o ho => h o (List.mem_cons_of_mem _ ho))
    have h0 := h o List.mem_cons_self
    cases o <;> simp [Out.isNftClaim] at h0
    rw [List.flatMap_cons, List.length_append, ih]
    simp only [nftClaimsIn, List.length_cons, List.length_nil]
    omega

theorem nft_step {gas : Nat} {s s' : State} {l : Option Nat} {outs : List Out} (hm : NftMigratable s)
    (h : performSafe gas s l = .ok (s', outs)) : NftMigratable s' ∧
      s'.claims.entries.length ≤ s.claims.entries.length ∧
      ∃ n, nftsLeft s' + n = nftsLeft s ∧
        s'.stage = (if n < limitOf .nft l then .completed else .inProgress) := by
  obtain ⟨h1, h2, h3⟩ := hm
  unfold performSafe at h
  split at h
  · cases h
  · obtain ⟨⟨s1, o, n⟩, k, h⟩ := bind_ok_iff.1 h
    cases h
    rw [h1] at k ⊢
    unfold finalize at k
    rw [h1] at k
    obtain ⟨⟨a, o1⟩, k1, k⟩ := bind_ok_iff.1 k
    obtain ⟨⟨b, o2⟩, k2, k⟩ := bind_ok_iff.1 k
    cases k
    obtain ⟨m, mg, rfl, i2, i3, i4⟩ := moveNfts_ok k1
    obtain ⟨m2, rfl, j2, j3, j4⟩ := moveNftClaims_ok k2
    have hc : m2.entries.length ≤ s.claims.entries.length := by
      unfold moveNftClaims at k2
      obtain ⟨⟨x, y⟩, k3, k4⟩ := bind_ok_iff.1 k2
      have := nftClaimLoop_length gas k3
      cases k4
      exact this
    have hl : m.entries.length + o1.length = s.nftStakes.entries.length := by
      rw [i2, i4, List.length_map, List.length_take, List.length_drop]
      omega
    refine ⟨⟨h1, h2, ?_⟩, hc, (o1 ++ o2).length, ?_, rfl⟩
    · intro u
      have a1 := h3 u
      have a2 := i3 u
      have a3 := nftCount_le (s.nftStakes.entries.take (limitOf .nft l)) u
      rw [i4, List.length_map] at hl
      show (mg.get u).getD 0 + m.entries.length < _
      omega
    · have a1 := congrArg List.length j2
      rw [List.length_append, isNftClaim_length j4] at a1
      show m.entries.length + (flatN m2.entries).length + _ = s.nftStakes.entries.length + (flatN s.claims.entries).length
      rw [List.length_append]
      simp only at a1
      omega

/-- C63, progress of an NFT DAO: it is fully migrated by any sequence of delivered steps, with any positive batch
sizes, once their total exceeds the number of NFTs staked and under claim. -/
theorem C63_progress_nft (h : List Call) : ∀ (s : State), NftMigratable s → DoneOk s →
    (∀ c ∈ h, c.delivered = true ∧ 0 < c.limit.getD 20 ∧ s.claims.entries.length < c.gas) →
    (s.stage = .completed ∨
      s.stage = .inProgress ∧ nftsLeft s < (h.map (fun c => c.limit.getD 20)).sum) →
    (run s h).stage = .completed := by
  have lim : ∀ l : Option Nat, l.getD 20 = limitOf .nft l := fun _ => rfl
  simp only [lim]
  induction h with
  | nil =>
    intro s _ _ _ hs
    rcases hs with hs | ⟨_, hs⟩
    · exact hs
    · simp at hs
  | cons c h ih =>
    intro s hm hdone hc hs
    obtain ⟨c1, c2, c3⟩ := hc c List.mem_cons_self
    show (run (step s c).1 h).stage = _
    have hc' : ∀ x ∈ h, x.delivered = true ∧ 0 < limitOf .nft x.limit ∧ s.claims.entries.length < x.gas :=
      fun x hx => hc x (List.mem_cons_of_mem _ hx)
    have hdn := step_doneOk s c hdone
    have key : (step s c = (s, []) ∧ s.stage = .completed) ∨ perform c.gas s c.limit = .ok (step s c) := by
      rcases step_cases s c with he | ⟨hp, _⟩
      · rcases hs with hs | ⟨hs, _⟩
        · exact Or.inl ⟨he, hs⟩
        · obtain ⟨r, hr⟩ := perform_nft_exists hm c3 c.limit hs
          right
          unfold step
          rw [hr, c1]
          rfl
      · exact Or.inr hp
    rcases key with ⟨he, hst⟩ | hp
    · rw [he]
      exact ih s hm hdone hc' (Or.inl hst)
    · generalize step s c = r at hp hdn ⊢
      obtain ⟨s1, o⟩ := r
      obtain ⟨g1, g2, n, g3, g4⟩ := nft_step hm (perform_safe hp).1
      refine ih s1 g1 hdn (fun x hx => ?_) ?_
      · obtain ⟨a1, a2, a3⟩ := hc' x hx
        exact ⟨a1, a2, by omega⟩
      · rw [g4]
        rcases hs with hs | ⟨hs, hsum⟩
        · left
          obtain ⟨e1, e2⟩ := (hdone hs).2 hm.nft
          have : nftsLeft s = 0 := by
            unfold nftsLeft owedNfts
            rw [e1, e2]
            rfl
          rw [if_pos (by omega)]
        · rw [List.map_cons, List.sum_cons] at hsum
          split
          · exact Or.inl rfl
          · exact Or.inr ⟨rfl, by omega⟩

/-! ### Findings -/

/-- Finding: on a token DAO that holds a claim for NFTs, a step whose batch size exceeds the number of stakes and token
claims never finishes: it fails with every amount of gas. -/
theorem C63_stuck (s : State) (hd : s.dao = .token) (gas : Nat) (limit : Option Nat)
    (hc : ∃ u l, s.claims.get u = some l ∧ ∃ c ∈ l, ∃ ts, c.asset = .cw721 ts)
    (hl : itemsLeft s < limit.getD 100) : ∀ r, perform gas s limit ≠ .ok r := by
  have lim : ∀ l : Option Nat, l.getD 100 = limitOf .token l := fun _ => rfl
  rw [lim] at hl
  intro r h
  have h := (perform_safe h).1
  unfold performSafe at h
  split at h
  · cases h
  · obtain ⟨⟨s1, o, n⟩, h1, h2⟩ := bind_ok_iff.1 h
    unfold finalize at h1
    rw [hd] at h1
    obtain ⟨⟨a, oa, na⟩, k1, h1⟩ := bind_ok_iff.1 h1
    obtain ⟨⟨b, ob, nb⟩, k2, h1⟩ := bind_ok_iff.1 h1
    have i := moveStakes_ok k1
    unfold moveClaims at k2
    obtain ⟨x, k2, _⟩ := bind_ok_iff.1 k2
    refine claimLoop_stuck gas (sent := []) rfl rfl ?_ ?_ x k2
    · rw [i.rest.2.1]
      have h1 := i.count
      rw [List.length_take] at h1
      unfold itemsLeft owedTokens at hl
      show 0 + (flat s.claims.entries).length < _
      have : (flat s.claims.entries).length = (s.claims.entries.flatMap (fun e => tokenClaims e.1 e.2)).length := rfl
      omega
    · obtain ⟨u, l, hu, c, hcl, hts⟩ := hc
      rw [i.rest.2.1]
      exact ⟨(u, l), Map.get_eq_some_iff.1 hu, c, hcl, hts⟩

/-- A token DAO with two stakers and two claims. -/
def smpToken : State :=
  { dao := .token
    stakes := (Map.empty.set 1 10).set 2 20
    nftStakes := Map.empty
    claims := (Map.empty.set 3 [⟨.cw20 5, .height 9⟩, ⟨.cw20 6, .height 10⟩]).set 4 [⟨.cw20 7, .timestamp 4⟩]
    members := Map.empty
    migrated := Map.empty
    stage := .inProgress
    membership := some 50 }

/-- An NFT DAO with two stakers and a claim; user 4 also has a token claim. -/
def smpNft : State :=
  { dao := .nft
    stakes := Map.empty
    nftStakes := ((Map.empty.set 1 10).set 2 20).set 3 10
    claims := (Map.empty.set 3 [⟨.cw721 [7, 8], .height 9⟩]).set 4 [⟨.cw20 7, .timestamp 4⟩]
    members := Map.empty
    migrated := Map.empty
    stage := .inProgress
    membership := some 50 }

/-- Finding: NFT DAOs drop token claims. The claim of user 4 is neither sent nor kept. -/
theorem C63_nft_drops_token_claims_witness :
    ∃ (s s' : State) (outs : List Out), perform 10 s none = .ok (s', outs) ∧ owedTokens s ≠ [] ∧
      owedTokens s' = [] ∧ outs.flatMap claimsIn = [] := by
  refine ⟨smpNft, (step smpNft ⟨none, 10, true⟩).1, (step smpNft ⟨none, 10, true⟩).2, ?_, ?_, ?_, ?_⟩ <;> decide +kernel

/-- Hypotheses met: batches of three on the token DAO, with a failed delivery in between. -/
example :
    let h : List Call := [⟨some 3, 9, true⟩, ⟨some 3, 9, false⟩, ⟨some 3, 9, true⟩]
    Start smpToken ∧ (run smpToken h).stage = .completed ∧
    sent smpToken h = [.addStakes 30 [(1, 10), (2, 20)], .addClaims 5 [⟨3, 5, .height 9⟩],
      .addClaims 13 [⟨3, 6, .height 10⟩, ⟨4, 7, .timestamp 4⟩]] ∧
    queryWeight (run smpToken h) 2 = .ok 20 := by
  decide +kernel

/-- Hypotheses met: the sample DAO can be migrated. -/
theorem smpToken_ready : Migratable smpToken ∧ DoneOk smpToken ∧ smpToken.stage = .inProgress ∧ itemsLeft smpToken = 5 := by
  refine ⟨⟨rfl, by decide, ?_, by decide +kernel, by decide +kernel⟩, fun h => (by cases h), rfl, by decide +kernel⟩
  intro u l hu c hc
  rw [Map.get_eq_some_iff] at hu
  have : (u, l) = (3, [⟨.cw20 5, .height 9⟩, ⟨.cw20 6, .height 10⟩]) ∨ (u, l) = (4, [⟨.cw20 7, .timestamp 4⟩]) := by
    have he : smpToken.claims.entries = [(3, [⟨.cw20 5, .height 9⟩, ⟨.cw20 6, .height 10⟩]), (4, [⟨.cw20 7, .timestamp 4⟩])] := by
      decide +kernel
    rw [he] at hu
    simpa using hu
  rcases this with h | h
  · cases h
    simp only [List.mem_cons, List.not_mem_nil, or_false] at hc
    rcases hc with rfl | rfl <;> exact ⟨_, rfl⟩
  · cases h
    simp only [List.mem_cons, List.not_mem_nil, or_false] at hc
    subst hc
    exact ⟨_, rfl⟩

/-- Hypotheses met: batches of two on the NFT DAO. -/
example :
    let h : List Call := [⟨some 2, 9, true⟩, ⟨some 2, 9, true⟩, ⟨some 2, 9, true⟩]
    Start smpNft ∧ (run smpNft h).stage = .completed ∧ (run smpNft h).migrated.get 10 = some 2 ∧
    queryWeight (run smpNft h) 10 = .ok 2 := by
  decide +kernel

/-- Hypotheses met: the sample NFT DAO can be migrated. -/
example : NftMigratable smpNft ∧ DoneOk smpNft ∧ smpNft.stage = .inProgress ∧ nftsLeft smpNft = 5 :=
  ⟨⟨rfl, by decide, fun _ => (show 0 + smpNft.nftStakes.entries.length < 2 ^ 128 by decide +kernel)⟩, fun h => (by cases h), rfl, by decide +kernel⟩

/-- Hypotheses of `C63_stuck` met. -/
example : ∃ s : State, s.dao = .token ∧ (∃ u l, s.claims.get u = some l ∧ ∃ c ∈ l, ∃ ts, c.asset = .cw721 ts) ∧
    itemsLeft s < limitOf .token none :=
  ⟨{ smpToken with claims := Map.empty.set 3 [⟨.cw721 [1], .height 9⟩] }, rfl,
    ⟨3, [⟨.cw721 [1], .height 9⟩], by decide +kernel, ⟨.cw721 [1], .height 9⟩, by simp, [1], rfl⟩, by decide +kernel⟩

end Verif.Migration
