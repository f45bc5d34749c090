import Verif.Migration.Props

set_option linter.unusedSimpArgs false

/-!
# Migration: properties C128 (size of a step) and C129 (who has nothing to migrate is left alone)
-/

namespace Verif.Migration
open Verif
open Verif.Staking (ReleaseAt UserClaim)

/-! ### C128 -/

/-- Number of items (stakes, claims, NFTs) a message announces. -/
def itemsIn (o : Out) : Nat :=
  (stakesIn o).length + (claimsIn o).length + (nftsIn o).length + (nftClaimsIn o).length

/-- Number of items the messages of a step announce. -/
def itemsSent (outs : List Out) : Nat := (outs.map itemsIn).sum

theorem itemsSent_append (a b : List Out) : itemsSent (a ++ b) = itemsSent a + itemsSent b := by
  unfold itemsSent; rw [List.map_append, List.sum_append]

theorem stakesMsg_items (t : Nat) (l : List (Addr × Nat)) : itemsSent (stakesMsg t l) ≤ l.length := by
  unfold stakesMsg
  split
  · exact Nat.zero_le _
  · simp [itemsSent, itemsIn, stakesIn, claimsIn, nftsIn, nftClaimsIn]

theorem claimsMsg_items (t : Nat) (l : List UserClaim) : itemsSent (claimsMsg t l) ≤ l.length := by
  unfold claimsMsg
  split
  · exact Nat.zero_le _
  · simp [itemsSent, itemsIn, stakesIn, claimsIn, nftsIn, nftClaimsIn]

/-- C128, token DAOs: a step sends and removes at most as many stakes and claims as the batch size, which is 100 if not
given, and exactly that many when it leaves the migration unfinished. What is missing for C128: NFTs under claim, see
`C128_over_witness`. -/
theorem C128_token_partial (s s' : State) (gas : Nat) (limit : Option Nat) (outs : List Out) (hd : s.dao = .token)
    (h : perform gas s limit = .ok (s', outs)) :
    itemsSent outs ≤ limit.getD 100 ∧
    s.stakes.entries.length + (owedTokens s).length ≤
      s'.stakes.entries.length + (owedTokens s').length + limit.getD 100 ∧
    (s'.stage = .inProgress → s.stakes.entries.length + (owedTokens s).length =
      s'.stakes.entries.length + (owedTokens s').length + limit.getD 100) := by
  have h := (perform_safe h).1
  unfold performSafe at h
  split at h
  · cases h
  · obtain ⟨⟨s1, o, n⟩, h1, h2⟩ := bind_ok_iff.1 h
    have hitems := (finalize_effect h1).1.items hd
    have hl : limitOf s.dao limit = limit.getD 100 := by unfold limitOf; rw [hd]
    rw [hl] at h1 h2
    have hs' : s'.stakes = s1.stakes ∧ owedTokens s' = owedTokens s1 ∧ outs = o ∧
        s'.stage = (if n < limit.getD 100 then .completed else .inProgress) := by
      cases h2
      exact ⟨rfl, rfl, rfl, rfl⟩
    obtain ⟨e1, e2, e3, e4⟩ := hs'
    rw [e1, e2, e3, e4]
    have hn : itemsSent o ≤ n ∧ n ≤ limit.getD 100 := by
      unfold finalize at h1
      rw [hd] at h1
      obtain ⟨⟨a, oa, na⟩, k1, h1⟩ := bind_ok_iff.1 h1
      obtain ⟨⟨b, ob, nb⟩, k2, h1⟩ := bind_ok_iff.1 h1
      cases h1
      unfold moveStakes at k1
      obtain ⟨t, _, k1⟩ := bind_ok_iff.1 k1
      cases k1
      obtain ⟨m, l, rfl, j2, j3, j4, _⟩ := moveClaims_ok k2
      have q1 := stakesMsg_items t (s.stakes.entries.take (limit.getD 100))
      have q2 := claimsMsg_items (l.map (·.amount)).sum l
      have q3 : (s.stakes.entries.take (limit.getD 100)).length ≤ limit.getD 100 := by
        rw [List.length_take]; omega
      rw [itemsSent_append, j2]
      omega
    refine ⟨by omega, by omega, ?_⟩
    intro hst
    split at hst
    · cases hst
    · omega

/-- Number of NFTs a user has under claim. -/
def nftsClaimedBy (s : State) (u : Addr) : Nat := (nftClaims u ((s.claims.get u).getD [])).length

theorem nftClaimMsgs_length (u : Addr) (l : List Claim) : (l.flatMap (nftClaimMsgs u)).length = (nftClaims u l).length := by
  induction l with
  | nil => rfl
  | cons c l ih =>
    unfold nftClaims at ih ⊢
    rw [List.flatMap_cons, List.flatMap_cons, List.length_append, List.length_append, ih]
    congr 1
    unfold nftClaimMsgs
    cases c.asset <;> simp

theorem batch_length (l : List (Addr × List Claim)) (k : Nat) (hk : ∀ e ∈ l, (nftClaims e.1 e.2).length ≤ k) :
    (l.flatMap (fun e => e.2.flatMap (nftClaimMsgs e.1))).length ≤ l.length * k := by
  induction l with
  | nil => simp
  | cons e l ih =>
    rw [List.flatMap_cons, List.length_append, nftClaimMsgs_length, List.length_cons, Nat.add_mul, Nat.one_mul]
    have := ih (fun x hx => hk x (List.mem_cons_of_mem _ hx))
    have := hk e List.mem_cons_self
    omega

theorem nftClaimLoop_bound {limit k : Nat} : ∀ (gas : Nat) {m m' : Map Addr (List Claim)} {sent sent' : List Out},
    (∀ e ∈ m.entries, (nftClaims e.1 e.2).length ≤ k) → sent.length ≤ limit + limit * k →
    nftClaimLoop limit gas m sent = .ok (m', sent') → sent'.length ≤ limit + limit * k
  | 0, m, m', sent, sent', _, _, h => by cases h
  | gas + 1, m, m', sent, sent', hk, hs, h => by
    unfold nftClaimLoop at h
    split at h
    · rename_i hc
      refine nftClaimLoop_bound gas ?_ ?_ h
      · intro e he
        rw [remove_batch] at he
        exact hk e (List.mem_of_mem_drop he)
      · rw [List.length_append]
        have h1 := batch_length (m.entries.take limit) k (fun e he => hk e (List.mem_of_mem_take he))
        have h2 : (m.entries.take limit).length * k ≤ limit * k :=
          Nat.mul_le_mul_right _ (by rw [List.length_take]; omega)
        omega
    · cases h
      exact hs

theorem itemsSent_nfts (b : List (Nat × Addr)) : itemsSent (b.map (fun e => Out.stakeNft e.1 e.2)) = b.length := by
  induction b with
  | nil => rfl
  | cons e b ih =>
    unfold itemsSent at ih ⊢
    rw [List.map_cons, List.map_cons, List.sum_cons, ih, List.length_cons]
    simp [itemsIn, stakesIn, claimsIn, nftsIn, nftClaimsIn]
    omega

theorem itemsSent_claims : ∀ {l : List Out}, (∀ o ∈ l, o.isNftClaim = true) → itemsSent l = l.length
  | [], _ => rfl
  | o :: l, h => by
    have ih := itemsSent_claims (fun o ho => h o (List.mem_cons_of_mem _ ho))
    have h0 := h o List.mem_cons_self
    unfold itemsSent at ih ⊢
    rw [List.map_cons, List.sum_cons, ih, List.length_cons]
    cases o <;> simp [Out.isNftClaim] at h0
    simp [itemsIn, stakesIn, claimsIn, nftsIn, nftClaimsIn]
    omega

/-- C128, NFT DAOs: a step sends as many of the staked NFTs as the batch size (20 if not given) allows, and, if no user
has more than `k` NFTs under claim, at most `k` times the batch size more than the batch size in all. What is missing for
C128: without `k` there is no bound, see `C128_over_witness`. -/
theorem C128_nft_partial (s s' : State) (gas : Nat) (limit : Option Nat) (outs : List Out) (k : Nat)
    (hd : s.dao = .nft) (hk : ∀ u, nftsClaimedBy s u ≤ k) (h : perform gas s limit = .ok (s', outs)) :
    (outs.flatMap nftsIn).length = min (limit.getD 20) s.nftStakes.entries.length ∧
    itemsSent outs ≤ limit.getD 20 + limit.getD 20 * k := by
  have h := (perform_safe h).1
  unfold performSafe at h
  split at h
  · cases h
  · obtain ⟨⟨s1, o, n⟩, h1, h2⟩ := bind_ok_iff.1 h
    have hl : limitOf s.dao limit = limit.getD 20 := by unfold limitOf; rw [hd]
    rw [hl] at h1 h2
    unfold finalize at h1
    rw [hd] at h1
    obtain ⟨⟨a, o1⟩, k1, h1⟩ := bind_ok_iff.1 h1
    obtain ⟨⟨b, o2⟩, k2, h1⟩ := bind_ok_iff.1 h1
    cases h1
    cases h2
    obtain ⟨m, mg, rfl, i2, i3, i4⟩ := moveNfts_ok k1
    obtain ⟨m2, rfl, j2, j3, j4⟩ := moveNftClaims_ok k2
    have e1 : o1.length = min (limit.getD 20) s.nftStakes.entries.length := by
      rw [i4, List.length_map, List.length_take]
    have e2 : itemsSent o1 = o1.length := by rw [i4, itemsSent_nfts, List.length_map]
    have e3 : (o1.flatMap nftsIn).length = o1.length := by
      rw [i4]
      generalize s.nftStakes.entries.take (limit.getD 20) = b
      induction b with
      | nil => rfl
      | cons e b ih => rw [List.map_cons, List.flatMap_cons, List.length_append, ih]; simp [nftsIn]; omega
    have e4 : o2.flatMap nftsIn = [] := by
      rw [List.flatMap_eq_nil_iff]
      intro o ho
      have := j4 o ho
      cases o <;> simp [Out.isNftClaim] at this
      rfl
    have hb : o2.length ≤ (limit.getD 20 - o1.length) + (limit.getD 20 - o1.length) * k := by
      unfold moveNftClaims at k2
      obtain ⟨⟨x, y⟩, k3, k4⟩ := bind_ok_iff.1 k2
      cases k4
      refine nftClaimLoop_bound gas ?_ (Nat.zero_le _) k3
      intro e he
      have := hk e.1
      unfold nftsClaimedBy at this
      have hg : s.claims.get e.1 = some e.2 := Map.get_eq_some_iff.2 he
      rw [hg] at this
      exact this
    refine ⟨?_, ?_⟩
    · rw [List.flatMap_append, List.length_append, e4, e3, e1]
      simp
    · rw [itemsSent_append, e2, itemsSent_claims j4]
      have : (limit.getD 20 - o1.length) * k ≤ limit.getD 20 * k := Nat.mul_le_mul_right _ (by omega)
      omega

/-- Finding: the batch size does not bound the NFTs under claim that a step sends: once the staked NFTs are sent, a step
with any positive batch size sends all of the first user's NFTs under claim at once. -/
theorem C128_whole_user (s s' : State) (gas : Nat) (limit : Option Nat) (outs : List Out) (u : Addr) (l : List Claim)
    (t : List (Addr × List Claim)) (hd : s.dao = .nft) (hn : s.nftStakes.entries = [])
    (hc : s.claims.entries = (u, l) :: t) (hl : 0 < limit.getD 20) (h : perform gas s limit = .ok (s', outs)) :
    nftClaims u l <+: outs.flatMap nftClaimsIn := by
  have h := (perform_safe h).1
  unfold performSafe at h
  split at h
  · cases h
  · obtain ⟨⟨s1, o, n⟩, h1, h2⟩ := bind_ok_iff.1 h
    have hli : limitOf s.dao limit = limit.getD 20 := by unfold limitOf; rw [hd]
    rw [hli] at h1 h2
    unfold finalize at h1
    rw [hd] at h1
    obtain ⟨⟨a, o1⟩, k1, h1⟩ := bind_ok_iff.1 h1
    obtain ⟨⟨b, o2⟩, k2, h1⟩ := bind_ok_iff.1 h1
    cases h1
    cases h2
    obtain ⟨m, mg, rfl, i2, i3, i4⟩ := moveNfts_ok k1
    rw [hn] at i4
    simp only [List.take_nil, List.map_nil] at i4
    subst i4
    rw [List.nil_append]
    unfold moveNftClaims at k2
    obtain ⟨⟨x, y⟩, k3, k4⟩ := bind_ok_iff.1 k2
    cases k4
    simp only [List.length_nil, Nat.sub_zero] at k3
    generalize limit.getD 20 = lim at *
    cases gas with
    | zero => cases k3
    | succ g =>
      unfold nftClaimLoop at k3
      rw [if_pos ⟨by simpa using hl, by rw [hc]; simp⟩] at k3
      -- later rounds only append
      have happ : ∀ (g : Nat) {m m' : Map Addr (List Claim)} {a b : List Out},
          nftClaimLoop lim g m a = .ok (m', b) → a <+: b := by
        intro g
        induction g with
        | zero => intro m m' a b h; cases h
        | succ g ih =>
          intro m m' a b h
          unfold nftClaimLoop at h
          split at h
          · exact (List.prefix_append _ _).trans (ih h)
          · cases h; exact List.prefix_rfl
      obtain ⟨r, hr⟩ := happ g k3
      rw [← hr, List.flatMap_append, List.nil_append, batchMsgs_in, hc]
      cases lim with
      | zero => omega
      | succ n =>
        rw [List.take_succ_cons]
        unfold flatN
        rw [List.flatMap_cons, List.append_assoc]
        exact List.prefix_append _ _

/-- An NFT DAO that has sent its staked NFTs, where user 3 has `n` NFTs under claim. -/
def smpHeavy (n : Nat) : State :=
  { dao := .nft
    stakes := Map.empty
    nftStakes := Map.empty
    claims := Map.empty.set 3 [⟨.cw721 (List.range n), .height 9⟩]
    members := Map.empty
    migrated := Map.empty
    stage := .inProgress
    membership := some 50 }

/-- C128 is false for NFTs under claim: with batch size one, a step can send any number of NFTs. -/
theorem C128_over_witness (n : Nat) :
    ∃ (s s' : State) (outs : List Out), s.dao = .nft ∧ perform 10 s (some 1) = .ok (s', outs) ∧ n ≤ itemsSent outs := by
  have hex : ∃ r, perform 10 (smpHeavy n) (some 1) = .ok r :=
    perform_nft_exists (s := smpHeavy n) ⟨rfl, (by simp [smpHeavy]), fun _ => (by show 0 + 0 < 2 ^ 128; decide)⟩
      (show 1 < 10 by decide) (some 1) rfl
  obtain ⟨⟨s', outs⟩, h⟩ := hex
  refine ⟨smpHeavy n, s', outs, rfl, h, ?_⟩
  have hp := C128_whole_user (smpHeavy n) s' 10 (some 1) outs 3 [⟨.cw721 (List.range n), .height 9⟩] [] rfl rfl rfl
    (by decide) h
  have h1 := hp.length_le
  have h2 : (outs.flatMap nftClaimsIn).length ≤ itemsSent outs := by
    clear h hp h1
    induction outs with
    | nil => simp
    | cons o t ih =>
      unfold itemsSent at ih ⊢
      rw [List.flatMap_cons, List.length_append, List.map_cons, List.sum_cons]
      unfold itemsIn at ih ⊢
      omega
  have h3 : (nftClaims 3 [⟨.cw721 (List.range n), .height 9⟩]).length = n := by
    simp [nftClaims]
  omega

/-- Hypotheses of `C128_token_partial` met: five items, batch size three, twice. -/
example : ∃ s' outs, perform 9 smpToken (some 3) = .ok (s', outs) ∧ itemsSent outs = 3 ∧ s'.stage = .inProgress :=
  ⟨(step smpToken ⟨some 3, 9, true⟩).1, (step smpToken ⟨some 3, 9, true⟩).2, by decide +kernel, by decide +kernel,
    by decide +kernel⟩

/-- Hypotheses of `C128_nft_partial` met: nobody has more than two NFTs under claim; batch size four sends five. -/
example : ∃ s' outs, perform 9 smpNft (some 4) = .ok (s', outs) ∧ itemsSent outs = 5 ∧ nftsClaimedBy smpNft 3 = 2 :=
  ⟨(step smpNft ⟨some 4, 9, true⟩).1, (step smpNft ⟨some 4, 9, true⟩).2, by decide +kernel, by decide +kernel,
    by decide +kernel⟩

/-! ### C129 -/

/-- C129: the treasury of a DAO whose migration was not started (every DAO created by the factory) refuses every
migration step, whoever sends it: no history of steps changes anything or sends anything. -/
theorem C129_not_started (s : State) (hs : s.stage = .notStarted) (h : List Call) :
    run s h = s ∧ sent s h = [] ∧ ∀ gas limit r, perform gas s limit ≠ .ok r := by
  have h0 : ∀ gas limit r, perform gas s limit ≠ .ok r := fun gas limit r hr => (perform_safe hr).2 hs
  have hstep : ∀ c, step s c = (s, []) := by
    intro c
    rcases step_cases s c with hc | ⟨hc, _⟩
    · exact hc
    · exact absurd hc (h0 _ _ _)
  refine ⟨?_, ?_, h0⟩
  · induction h with
    | nil => rfl
    | cons c h ih => show run (step s c).1 h = s; rw [hstep]; exact ih
  · induction h with
    | nil => rfl
    | cons c h ih => show (step s c).2 ++ sent (step s c).1 h = []; rw [hstep]; exact ih

theorem sent_append (s : State) (a b : List Call) : sent s (a ++ b) = sent s a ++ sent (run s a) b := by
  induction a generalizing s with
  | nil => rfl
  | cons c a ih =>
    show (step s c).2 ++ sent (step s c).1 (a ++ b) = ((step s c).2 ++ sent (step s c).1 a) ++ sent (run (step s c).1 a) b
    rw [ih, List.append_assoc]

/-- C129: once the migration of a token or NFT DAO says completed, it stays completed: every further step is refused,
nothing changes and nothing is sent any more. (The DAO has stakes of its own kind only.) -/
theorem C129_completed (s : State) (h h' : List Call) (hs : s.stage = .inProgress)
    (hd : (s.dao = .token ∧ s.nftStakes.entries = []) ∨ (s.dao = .nft ∧ s.stakes.entries = []))
    (hc : (run s h).stage = .completed) :
    run s (h ++ h') = run s h ∧ sent s (h ++ h') = sent s h ∧ hasUnmoved (run s h) = false ∧
    ∀ gas limit r, perform gas (run s h) limit ≠ .ok r := by
  have hother : ∀ (h : List Call) (s : State),
      ((s.dao = .token ∧ s.nftStakes.entries = []) ∨ (s.dao = .nft ∧ s.stakes.entries = [])) →
      (((run s h).dao = .token ∧ (run s h).nftStakes.entries = []) ∨
        ((run s h).dao = .nft ∧ (run s h).stakes.entries = [])) := by
    intro h
    induction h with
    | nil => exact fun _ hx => hx
    | cons c h ih =>
      intro s hx
      refine ih (step s c).1 ?_
      rcases hx with ⟨hd, hn⟩ | ⟨hd, hn⟩
      · rcases step_effect s c with he | ⟨n, he, _⟩
        · rw [he]; exact Or.inl ⟨hd, hn⟩
        · refine Or.inl ⟨he.dao.trans hd, ?_⟩
          have := he.nfts
          rw [hn] at this
          exact (List.append_eq_nil_iff.1 this).2
      · right
        rcases step_cases s c with he | ⟨he, _⟩
        · rw [he]; exact ⟨hd, hn⟩
        · generalize hr : step s c = r at he
          obtain ⟨s', outs⟩ := r
          have he := (perform_safe he).1
          unfold performSafe at he
          split at he
          · cases he
          · obtain ⟨⟨s1, o, n⟩, h1, h2⟩ := bind_ok_iff.1 he
            unfold finalize at h1
            rw [hd] at h1
            obtain ⟨⟨a, o1⟩, k1, h1⟩ := bind_ok_iff.1 h1
            obtain ⟨⟨b, o2⟩, k2, h1⟩ := bind_ok_iff.1 h1
            cases h1
            cases h2
            obtain ⟨m, mg, rfl, _⟩ := moveNfts_ok k1
            obtain ⟨m2, rfl, _⟩ := moveNftClaims_ok k2
            exact ⟨hd, hn⟩
  have hdone := run_doneOk h s (fun hx => by rw [hs] at hx; cases hx) hc
  have ho := hother h s hd
  generalize hx : run s h = x at *
  have hu : hasUnmoved x = false := by
    unfold hasUnmoved
    rcases ho with ⟨hx, hn⟩ | ⟨hx, hn⟩
    · obtain ⟨a, b⟩ := hdone.1 hx
      rw [a, b, hn]; rfl
    · obtain ⟨a, b⟩ := hdone.2 hx
      rw [a, b, hn]; rfl
  have h0 : ∀ gas limit r, perform gas x limit ≠ .ok r := by
    intro gas limit r hr
    unfold perform at hr
    rw [hc] at hr
    simp only [hu] at hr
    cases hr
  have hstep : ∀ c, step x c = (x, []) := by
    intro c
    rcases step_cases x c with hc | ⟨hc, _⟩
    · exact hc
    · exact absurd hc (h0 _ _ _)
  have hrun : ∀ h' : List Call, run x h' = x ∧ sent x h' = [] := by
    intro h'
    induction h' with
    | nil => exact ⟨rfl, rfl⟩
    | cons c h' ih =>
      refine ⟨?_, ?_⟩
      · show run (step x c).1 h' = x
        rw [hstep]; exact ih.1
      · show (step x c).2 ++ sent (step x c).1 h' = []
        rw [hstep]; exact ih.2
  rw [run_append, hx, (hrun h').1, sent_append, hx, (hrun h').2, List.append_nil]
  exact ⟨rfl, rfl, hu, h0⟩

/-- C129: a multisig DAO's steps send nothing and change none of the stakes, claims, members and weights; those of a
DAO of a native denom are refused. -/
theorem C129_others (s : State) (hd : s.dao = .multisig ∨ s.dao = .denom) (h : List Call) :
    sent s h = [] ∧ (∃ g, run s h = { s with stage := g }) ∧ (s.dao = .denom → run s h = s) := by
  induction h generalizing s with
  | nil => exact ⟨rfl, ⟨s.stage, rfl⟩, fun _ => rfl⟩
  | cons c h ih =>
    have hstep : (step s c).2 = [] ∧ (∃ g, (step s c).1 = { s with stage := g }) ∧ (s.dao = .denom → (step s c).1 = s) := by
      rcases step_cases s c with he | ⟨he, _⟩
      · rw [he]; exact ⟨rfl, ⟨s.stage, rfl⟩, fun _ => rfl⟩
      · generalize hr : step s c = r at he
        obtain ⟨s', outs⟩ := r
        have he := (perform_safe he).1
        unfold performSafe at he
        split at he
        · cases he
        · obtain ⟨⟨s1, o, n⟩, h1, h2⟩ := bind_ok_iff.1 he
          unfold finalize at h1
          rcases hd with hd | hd
          · rw [hd] at h1
            cases h1
            cases h2
            exact ⟨rfl, ⟨_, rfl⟩, fun hx => by rw [hd] at hx; cases hx⟩
          · rw [hd] at h1
            cases h1
    obtain ⟨a, ⟨g, b⟩, d⟩ := hstep
    have hdao : (step s c).1.dao = s.dao := run_dao s [c]
    obtain ⟨i1, ⟨g2, i2⟩, i3⟩ := ih (step s c).1 (by rw [hdao]; exact hd)
    refine ⟨?_, ?_, ?_⟩
    · show (step s c).2 ++ sent (step s c).1 h = []
      rw [a, i1]; rfl
    · refine ⟨g2, ?_⟩
      show run (step s c).1 h = _
      rw [i2, b]
    · intro hx
      show run (step s c).1 h = s
      rw [i3 (hdao.trans hx), d hx]

/-- Hypotheses of `C129_completed` met: the samples complete, and two more steps do nothing. -/
example :
    let h : List Call := [⟨some 3, 9, true⟩, ⟨some 3, 9, true⟩]
    smpToken.dao = .token ∧ smpToken.nftStakes.entries = [] ∧ (run smpToken h).stage = .completed ∧
    smpNft.dao = .nft ∧ smpNft.stakes.entries = [] ∧ (run smpNft h).stage = .completed := by
  decide +kernel

/-- Hypotheses of `C129_others` met: a multisig DAO completes in one step; with batch size zero it never does. -/
example :
    let s : State := { smpToken with dao := .multisig, stakes := Map.empty, claims := Map.empty,
                                     members := Map.empty.set 1 4 }
    (run s [⟨none, 1, true⟩]).stage = .completed ∧ (run s [⟨some 0, 1, true⟩]).stage = .inProgress := by
  decide +kernel

end Verif.Migration
