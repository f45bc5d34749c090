import Verif.Nft.Lemmas
import Verif.Staking.Spec
import Verif.Base.Paging

/-!
# NFT staking: properties C28-C30, and the NFT versions of C20 and C23-C27
-/

namespace Verif.Nft
open Verif
open Verif.Staking (Duration ReleaseAt releaseAt Explains Elapsed Fits At)

/-! ## Sample history -/

/-- Environment of the samples: controller 9, user 66 restricted, NFT contract 5. -/
def smpEnv (h : Nat) (sender : Addr) : NEnv := ⟨⟨⟨h, h * 10 ^ 9⟩, sender, 9, fun u => decide (u = 66)⟩, some 5⟩

/-- Sample start: an ICS721 collection whose NFT contract becomes known with the first transfer. -/
def smpInit : State := init ⟨10, 10 * 10 ^ 9⟩ (.ics721 4) (.time 100) [7, 8] [] []

/-- Sample history. -/
def smp : List Call :=
  [⟨smpEnv 11 5, .receiveNft 101 (.stake 1), true⟩,
   ⟨smpEnv 11 5, .receiveNft 102 (.stake 1), true⟩,
   ⟨smpEnv 12 5, .receiveNft 103 (.stake 2), true⟩,
   ⟨smpEnv 12 6, .receiveNft 104 (.stake 2), true⟩,
   ⟨smpEnv 13 5, .receiveNft 105 (.addClaim 3 (.height 20)), true⟩,
   ⟨smpEnv 14 1, .unstake [102, 102], true⟩,
   ⟨smpEnv 14 1, .unstake [103], true⟩,
   ⟨smpEnv 14 1, .unstake [102], true⟩,
   ⟨smpEnv 30 3, .claim none, true⟩,
   ⟨smpEnv 31 5, .receiveNft 105 (.stake 3), true⟩]

theorem smp_reachable (n : Nat) : Reachable (run smpInit (smp.take n)) := ⟨_, _, _, _, _, _, _, rfl⟩

/-! ## C28 -/

theorem sum_ite_length (l : List (Nat × Addr)) (u : Addr) :
    (l.map (fun e => if e.2 = u then 1 else 0)).sum = (l.filter (fun e => decide (e.2 = u))).length := by
  induction l with
  | nil => rfl
  | cons x t ih =>
    rw [List.map_cons, List.sum_cons, ih, List.filter_cons]
    by_cases h : x.2 = u
    · simp [h]; omega
    · simp [h]

/-- C28. The weight of each member is the number of NFTs the member has staked, the total weight is the number of staked
NFTs and the sum of all weights, and no token has two stakers. -/
theorem C28_weight_counts {s : State} (h : Reachable s) :
    (∀ u, queryWeight s u = stakedBy s u) ∧ queryTotal s .never = stakedCount s ∧
    s.mem.weights.sum (fun _ w => w) = stakedCount s ∧
    (∀ t u v, (t, u) ∈ s.stakes.entries → (t, v) ∈ s.stakes.entries → u = v) := by
  have hi := h.inv
  refine ⟨?_, hi.total, hi.wsum, ?_⟩
  · intro u
    unfold queryWeight stakedBy
    rw [hi.weight, ← sum_ite_length]
    rfl
  · intro t u v h1 h2
    have h1 := Map.get_eq_some_iff.2 h1
    have h2 := Map.get_eq_some_iff.2 h2
    rw [h1] at h2
    exact Option.some.inj h2

/-- C28. A staked token keeps its staker until that staker unstakes it. -/
theorem C28_staker_stable {s : State} (h : Reachable s) (c : Call) (t : Nat) (u : Addr)
    (hs : s.stakes.get t = some u) (hne : (step s c).1.stakes.get t ≠ some u) :
    c.env.env.sender = u ∧ ∃ l, c.msg = .unstake l ∧ t ∈ l ∧ (step s c).1.stakes.get t = none := by
  have hi := h.inv
  rcases step_cases s c with ⟨_, r, h1, h2⟩ | ⟨_, h2⟩
  · rw [h2] at hne ⊢
    obtain ⟨e, m, d⟩ := c
    simp only at h1 ⊢
    cases m with
    | receiveNft t' hk =>
      simp only [exec] at h1
      obtain ⟨_, ⟨v, rfl, h3⟩ | ⟨v, d, rfl, h3⟩⟩ := receiveNft_ok_iff.1 h1
      · obtain ⟨_, h4, _, _, rfl⟩ := stakeNft_ok_iff.1 h3
        simp only at h4 hne
        by_cases htt : t' = t
        · subst htt
          rw [Map.has_iff.2 ⟨u, hs⟩] at h4; cases h4
        · rw [Map.get_set_ne _ _ htt] at hne
          exact absurd hs hne
      · obtain ⟨_, rfl⟩ := addNftClaim_ok_iff.1 h3
        exact absurd hs hne
    | unstake l =>
      obtain ⟨h3, h4, _, _, _, rfl⟩ := unstake_ok_iff.1 h1
      simp only [get_removes] at hne ⊢
      by_cases ht : t ∈ l
      · have := h4 t ht
        rw [hs] at this
        exact ⟨(Option.some.inj this).symm, l, rfl, ht, by rw [if_pos ht]⟩
      · rw [if_neg ht] at hne; exact absurd hs hne
    | claim v =>
      obtain ⟨_, _, rfl⟩ := (claim_ok_iff hi).1 h1
      exact absurd hs hne
    | updateUnlocking p =>
      obtain ⟨_, rfl⟩ := updateUnlocking_ok_iff.1 h1
      exact absurd hs hne
    | addHook a =>
      simp only [exec, bind_ok_iff, Members.addHook, ite_ok_iff, pure_ok_iff] at h1
      obtain ⟨m, ⟨_, h1⟩, rfl⟩ := h1
      exact absurd hs hne
    | removeHook a =>
      simp only [exec, bind_ok_iff, Members.removeHook, ite_ok_iff, pure_ok_iff] at h1
      obtain ⟨m, ⟨_, h1⟩, rfl⟩ := h1
      exact absurd hs hne
  · rw [h2] at hne; exact absurd hs hne

example : queryWeight (run smpInit (smp.take 5)) 1 = 2 ∧ queryTotal (run smpInit (smp.take 5)) .never = 3 ∧
    (run smpInit (smp.take 7)).stakes.get 102 = some 1 ∧ (run smpInit (smp.take 8)).stakes.get 102 = none := by
  decide +kernel

/-! ## C29 -/

/-- C29. If the NFT contract announces only arrivals of tokens not already held, then after every history each token is
owed exactly once (as one stake or once in one claim) when it was accepted and not sent back, and not at all
otherwise. -/
theorem C29_custody (b : Block) (nft : NftAddr) (u : Duration) (hooks : List Addr) (x y : List (Nat × Nat))
    (h : List Call) (hh : Honest (init b nft u hooks x y) (fun _ => false) h) (t : Nat) :
    owed (run (init b nft u hooks x y) h) t =
      if custody (init b nft u hooks x y) (fun _ => false) h t then 1 else 0 :=
  custody_run (inv_init b nft u hooks x y) _ h (fun _ => rfl) hh t

theorem count_le_sum {s : State} {i : Nat} {c : Claim} (hc : s.claims.get i = some c) (t : Nat) :
    c.nfts.count t ≤ s.claims.sum (fun _ c => c.nfts.count t) :=
  Map.le_sum (fun _ c => c.nfts.count t) hc

/-- C29, spelled out: a token is never staked and in a claim, never in two claims, never twice in a claim. -/
theorem C29_disjoint (b : Block) (nft : NftAddr) (u : Duration) (hooks : List Addr) (x y : List (Nat × Nat))
    (h : List Call) (hh : Honest (init b nft u hooks x y) (fun _ => false) h) (s : State)
    (hs : s = run (init b nft u hooks x y) h) :
    (∀ i c t v, s.claims.get i = some c → t ∈ c.nfts → s.stakes.get t ≠ some v) ∧
    (∀ i c, s.claims.get i = some c → c.nfts.Nodup) ∧
    (∀ i j c d t, s.claims.get i = some c → s.claims.get j = some d → t ∈ c.nfts → t ∈ d.nfts → i = j) := by
  have key : ∀ t, owed s t ≤ 1 := by
    intro t
    rw [hs, C29_custody b nft u hooks x y h hh t]
    split <;> omega
  refine ⟨?_, ?_, ?_⟩
  · intro i c t v hc ht hv
    have h1 := key t
    unfold owed at h1
    rw [if_pos (Map.has_iff.2 ⟨v, hv⟩)] at h1
    have h2 := count_le_sum hc t
    have h3 := List.count_pos_iff.2 ht
    omega
  · intro i c hc
    rw [List.nodup_iff_count]
    intro t
    have h1 := key t
    unfold owed at h1
    have h2 := count_le_sum hc t
    omega
  · intro i j c d t hc hd htc htd
    by_contra hij
    have h1 := key t
    unfold owed at h1
    have h2 := s.claims.sum_remove (fun _ c => c.nfts.count t) i
    rw [hc, Map.contrib_some] at h2
    have h3 : (s.claims.remove i).get j = some d := by rw [Map.get_remove, if_neg hij]; exact hd
    have h4 := Map.le_sum (fun _ (c : Claim) => c.nfts.count t) h3
    have h5 := List.count_pos_iff.2 htc
    have h6 := List.count_pos_iff.2 htd
    omega

example : Honest smpInit (fun _ => false) smp ∧ custody smpInit (fun _ => false) smp 102 = true ∧
    custody smpInit (fun _ => false) (smp.take 9) 105 = false ∧
    custody smpInit (fun _ => false) smp 105 = true ∧
    owed (run smpInit smp) 102 = 1 ∧ owed (run smpInit smp) 104 = 0 := by
  refine ⟨?_, by decide +kernel⟩
  refine ⟨?_, ?_, ?_, ?_, ?_, ?_, ?_, ?_, ?_, ?_, trivial⟩ <;> intro tok h hm <;> cases hm <;> decide +kernel

/-- C29, the assumption is needed: an NFT contract that announces the same token twice makes it owed twice. -/
theorem C29_dishonest_witness : owed (run smpInit
    [⟨smpEnv 11 5, .receiveNft 101 (.stake 1), true⟩, ⟨smpEnv 11 5, .receiveNft 101 (.addClaim 2 (.height 1)), true⟩]) 101
      = 2 := by decide +kernel

/-! ## C30 -/

/-- C30. `Unstake` succeeds exactly when the listed tokens are distinct and all staked by the sender (and the counter of
claims is not exhausted); it then removes exactly these stakes and records exactly them in one new claim of the sender. -/
theorem C30_unstake {s : State} (h : Reachable s) (e : NEnv) (l : List Nat) :
    ((∃ r, exec s e (.unstake l) = .ok r) ↔
      l.Nodup ∧ (∀ t ∈ l, s.stakes.get t = some e.env.sender) ∧ s.nextClaim + 1 < 2 ^ 64) ∧
    (∀ r, exec s e (.unstake l) = .ok r →
      (∀ t, t ∈ l → r.1.stakes.get t = none) ∧ (∀ t, t ∉ l → r.1.stakes.get t = s.stakes.get t) ∧
      queryWeight r.1 e.env.sender = queryWeight s e.env.sender - l.length ∧
      (∀ v, v ≠ e.env.sender → queryWeight r.1 v = queryWeight s v) ∧
      queryTotal r.1 .never = queryTotal s .never - l.length ∧
      s.claims.get s.nextClaim = none ∧
      (∃ c, r.1.claims.get s.nextClaim = some c ∧ c.user = e.env.sender ∧ c.nfts = l) ∧
      (∀ i, i ≠ s.nextClaim → r.1.claims.get i = s.claims.get i)) := by
  have hi := h.inv
  constructor
  · constructor
    · rintro ⟨r, hr⟩
      obtain ⟨h1, h2, _, _, h5, _⟩ := unstake_ok_iff.1 hr
      exact ⟨h1, h2, h5⟩
    · rintro ⟨h1, h2, h3⟩
      have hsum := sum_removes (u := e.env.sender) (fun _ w => if w = e.env.sender then 1 else 0) l s.stakes h1 h2
      simp only [if_true, sum_map_const, Nat.mul_one] at hsum
      have hw := hi.weight e.env.sender
      have hle : s.mem.weight e.env.sender ≤ s.mem.wsum := Members.weight_le_wsum _ _
      have hws := hi.wsum
      have htot := hi.total
      exact ⟨_, unstake_ok_iff.2 ⟨h1, h2, by omega, by omega, h3, rfl⟩⟩
  · intro r hr
    obtain ⟨h1, h2, h3, h4, h5, rfl⟩ := unstake_ok_iff.1 hr
    refine ⟨?_, ?_, ?_, ?_, rfl, hi.fresh, ?_, ?_⟩
    · intro t ht; simp only [get_removes, if_pos ht]
    · intro t ht; simp only [get_removes, if_neg ht]
    · simp only [queryWeight, Members.saveTotal_weight, Members.weight_setWeight, if_true]
    · intro v hv
      simp only [queryWeight, Members.saveTotal_weight, Members.weight_setWeight, if_neg hv]
    · exact ⟨_, Map.get_set_self _ _ _, rfl, rfl⟩
    · intro i hi
      exact Map.get_set_ne _ _ (fun hh => hi hh.symm)

/-- C30. `Claim` succeeds exactly for the sender itself, once the NFT contract is known. It sends to the sender, once for
each claim, exactly the tokens of the sender's claims that are due, and deletes exactly those claims. -/
theorem C30_claim {s : State} (h : Reachable s) (e : NEnv) (u : Option Addr) :
    ((∃ r, exec s e (.claim u) = .ok r) ↔
      (∃ c, s.nft = .cw721 c) ∧ (u = none ∨ u = some e.env.sender)) ∧
    (∀ r, exec s e (.claim u) = .ok r →
      (∀ o ∈ r.2, ∃ t, o = .sendNft e.env.sender t) ∧
      (∀ t, r.2.count (.sendNft e.env.sender t) =
        s.claims.sum (fun _ c => if Due e.env.sender e.env.block c then c.nfts.count t else 0)) ∧
      (∀ i c, s.claims.get i = some c → Due e.env.sender e.env.block c → r.1.claims.get i = none) ∧
      (∀ i c, s.claims.get i = some c → ¬ Due e.env.sender e.env.block c → r.1.claims.get i = some c) ∧
      (∀ i, s.claims.get i = none → r.1.claims.get i = none) ∧
      r.1.stakes = s.stakes ∧ r.1.mem = s.mem) := by
  have hi := h.inv
  have hu : u.getD e.env.sender = e.env.sender ↔ (u = none ∨ u = some e.env.sender) := by
    cases u <;> simp
  constructor
  · constructor
    · rintro ⟨r, hr⟩
      have := (claim_ok_iff hi).1 hr
      exact ⟨this.1, hu.1 this.2.1⟩
    · rintro ⟨h1, h2⟩
      exact ⟨_, (claim_ok_iff hi).2 ⟨h1, hu.2 h2, rfl⟩⟩
  · intro r hr
    obtain ⟨h1, h2, rfl⟩ := (claim_ok_iff hi).1 hr
    refine ⟨?_, ?_, ?_, ?_, ?_, rfl, rfl⟩
    · intro o ho
      obtain ⟨t, _, rfl⟩ := List.mem_map.1 ho
      exact ⟨t, rfl⟩
    · intro t
      simp only
      have hinj : ∀ l : List Nat, (l.map (fun t => Out.sendNft e.env.sender t)).count (.sendNft e.env.sender t) =
          l.count t := by
        intro l
        induction l with
        | nil => rfl
        | cons x l ih =>
          rw [List.map_cons, List.count_cons, List.count_cons, ih]
          simp
      rw [hinj]
      unfold Map.values Map.filter Map.sum
      simp only
      generalize s.claims.entries = l
      induction l with
      | nil => rfl
      | cons x l ih =>
        rw [List.filter_cons, List.map_cons, List.sum_cons]
        by_cases hd : Due e.env.sender e.env.block x.2
        · have : takes e.env.sender e.env.block x.2 = true := decide_eq_true hd
          simp only [this, if_true, List.map_cons, List.flatMap_cons, List.count_append, if_pos hd, ih]
        · have : takes e.env.sender e.env.block x.2 = false := decide_eq_false hd
          simp only [this, Bool.false_eq_true, if_false, if_neg hd, ih]
          omega
    · intro i c hc hd
      simp only [Map.get_filter, hc]
      simp [Option.filter, takes, hd]
    · intro i c hc hd
      simp only [Map.get_filter, hc]
      simp [Option.filter, takes, hd]
    · intro i hc
      simp only [Map.get_filter, hc]
      rfl

example : (exec (run smpInit (smp.take 5)) (smpEnv 14 1) (.unstake [102, 101])).toOption.isSome = true ∧
    (exec (run smpInit (smp.take 5)) (smpEnv 14 1) (.unstake [102, 102])).toOption.isSome = false ∧
    (exec (run smpInit (smp.take 5)) (smpEnv 14 1) (.unstake [103])).toOption.isSome = false ∧
    (exec (run smpInit (smp.take 8)) (smpEnv 200 1) (.claim none)).toOption.map (·.2) = some [.sendNft 1 102] := by
  decide +kernel

/-! ## C20 -/

/-- C20 for NFT staking: below the counter nothing is ever written again. -/
theorem C20_nft_ids_never_reused {s : State} (h : Reachable s) (t : List Call) :
    (∀ i c, s.claims.get i = some c → c.id = i ∧ i < s.nextClaim) ∧
    s.nextClaim ≤ (run s t).nextClaim ∧
    (∀ i, i < s.nextClaim → s.claims.get i = none → (run s t).claims.get i = none) ∧
    (∀ i c d, s.claims.get i = some c → (run s t).claims.get i = some d → d = c) := by
  have hi := h.inv
  obtain ⟨h1, h2⟩ := old_run hi t
  refine ⟨hi.ids, h1, ?_, ?_⟩
  · intro i hlt hn
    rcases h2 i hlt with h3 | h3
    · exact h3
    · rw [h3, hn]
  · intro i c d hc hd
    rcases h2 i (hi.ids i c hc).2 with h3 | h3
    · rw [h3] at hd; cases hd
    · rw [h3, hc] at hd; cases hd; rfl

example : (run smpInit (smp.take 9)).nextClaim = 2 ∧ (run smpInit (smp.take 9)).claims.get 0 = none ∧
    (run smpInit (smp.take 8)).claims.get 0 ≠ none := by decide +kernel

/-! ## C23 -/

/-- C23 for NFT staking, by height. -/
theorem C23_nft_total_at_height (b : Block) (nft : NftAddr) (u : Duration) (hooks : List Addr)
    (x y : List (Nat × Nat)) (h1 h2 : List Call) (H : Nat)
    (hb : b.height < H) (hx : ∀ p ∈ x, p.2 < H) (hh1 : ∀ c ∈ h1, c.env.env.block.height < H)
    (hh2 : ∀ c ∈ h2, H ≤ c.env.env.block.height) (hmono : (h2.map (·.env.env.block.height)).Pairwise (· ≤ ·)) :
    queryTotal (run (init b nft u hooks x y) (h1 ++ h2)) (.height H) =
      queryTotal (run (init b nft u hooks x y) h1) .never := by
  have hi := inv_init b nft u hooks x y
  have hi1 := inv_run hi h1
  rw [run_append]
  refine ((byHeight_steps hi1 h2).split hi1.height ?_ hmono ?_).trans hi1.total.symm
  · intro j hj
    rcases (byHeight_steps hi h1).logs hj with h | h
    · rcases init_logs.1 h with h | h
      · omega
      · obtain ⟨p, hp, rfl⟩ := List.mem_map.1 h
        exact hx p hp
    · obtain ⟨c, hc, rfl⟩ := List.mem_map.1 h
      exact hh1 c hc
  · intro j hj
    obtain ⟨c, hc, rfl⟩ := List.mem_map.1 hj
    exact hh2 c hc

/-- C23 for NFT staking, by time. -/
theorem C23_nft_total_at_time (b : Block) (nft : NftAddr) (u : Duration) (hooks : List Addr)
    (x y : List (Nat × Nat)) (h1 h2 : List Call) (T : Nat)
    (hb : b.seconds < T / 10 ^ 9) (hy : ∀ p ∈ y, p.2 < T / 10 ^ 9)
    (hh1 : ∀ c ∈ h1, c.env.env.block.seconds < T / 10 ^ 9)
    (hh2 : ∀ c ∈ h2, T / 10 ^ 9 ≤ c.env.env.block.seconds)
    (hmono : (h2.map (·.env.env.block.time)).Pairwise (· ≤ ·)) :
    queryTotal (run (init b nft u hooks x y) (h1 ++ h2)) (.time T) =
      queryTotal (run (init b nft u hooks x y) h1) .never := by
  have hi := inv_init b nft u hooks x y
  have hi1 := inv_run hi h1
  have hsec : (h2.map (·.env.env.block.seconds)).Pairwise (· ≤ ·) := by
    rw [List.pairwise_map] at hmono ⊢
    exact hmono.imp (fun {a b} hab => Nat.div_le_div_right hab)
  rw [run_append]
  refine ((bySeconds_steps hi1 h2).split hi1.seconds ?_ hsec ?_).trans hi1.total.symm
  · intro j hj
    rcases (bySeconds_steps hi h1).logs hj with h | h
    · rcases init_logs.2 h with h | h
      · omega
      · obtain ⟨p, hp, rfl⟩ := List.mem_map.1 h
        exact hy p hp
    · obtain ⟨c, hc, rfl⟩ := List.mem_map.1 h
      exact hh1 c hc
  · intro j hj
    obtain ⟨c, hc, rfl⟩ := List.mem_map.1 hj
    exact hh2 c hc

example : queryTotal (run smpInit smp) (.height 12) = 2 ∧ queryTotal (run smpInit smp) (.height 14) = 3 ∧
    (∀ c ∈ smp.take 5, c.env.env.block.height < 14) ∧ (∀ c ∈ smp.drop 5, 14 ≤ c.env.env.block.height) ∧
    ((smp.drop 5).map (·.env.env.block.height)).Pairwise (· ≤ ·) := by decide +kernel

/-! ## C24 -/

/-- C24 for NFT staking: a successful stake or unstake tells each hook once about the member, with the old and the new,
stored, weight. -/
theorem C24_nft_hooks_notified (s : State) (e : NEnv) (r : State × List Out) :
    (∀ l, exec s e (.unstake l) = .ok r →
      r.2 = s.mem.hooks.keys.map (fun hk => .notify hk
        [⟨e.env.sender, queryWeight s e.env.sender, queryWeight r.1 e.env.sender⟩]) ∧
      ∀ v, v ≠ e.env.sender → queryWeight r.1 v = queryWeight s v) ∧
    (∀ t u, exec s e (.receiveNft t (.stake u)) = .ok r →
      r.2 = s.mem.hooks.keys.map (fun hk => .notify hk [⟨u, queryWeight s u, queryWeight r.1 u⟩]) ∧
      ∀ v, v ≠ u → queryWeight r.1 v = queryWeight s v) := by
  constructor
  · intro l hr
    obtain ⟨_, _, _, _, _, rfl⟩ := unstake_ok_iff.1 hr
    refine ⟨?_, ?_⟩
    · simp only [queryWeight, Members.saveTotal_weight, Members.weight_setWeight, if_true]
      rfl
    · intro v hv
      simp only [queryWeight, Members.saveTotal_weight, Members.weight_setWeight, if_neg hv]
  · intro t u hr
    simp only [exec] at hr
    obtain ⟨_, ⟨v, h0, h3⟩ | ⟨v, d, h0, h3⟩⟩ := receiveNft_ok_iff.1 hr
    · cases h0
      obtain ⟨_, h4, _, _, rfl⟩ := stakeNft_ok_iff.1 h3
      refine ⟨?_, ?_⟩
      · simp only [queryWeight, Members.saveTotal_weight, Members.weight_setWeight, if_true]
        rfl
      · intro v hv
        simp only [queryWeight, Members.saveTotal_weight, Members.weight_setWeight, if_neg hv]
    · cases h0

example : (exec (run smpInit (smp.take 5)) (smpEnv 14 1) (.unstake [102, 101])).toOption.map (·.2) =
    some [.notify 7 [⟨1, 2, 0⟩], .notify 8 [⟨1, 2, 0⟩]] := by decide +kernel

/-! ## C21 and C25 -/

theorem weight_step {s : State} (hi : Inv s) {e : NEnv} {m : Msg} {r : State × List Out}
    (h : exec s e m = .ok r) (v : Addr) (hv : queryWeight s v < queryWeight r.1 v) :
    nftContract s e.proxyNft = some e.env.sender ∧ e.env.restricted v = false ∧
      ∃ t, m = .receiveNft t (.stake v) ∧ s.stakes.get t = none ∧ r.1.stakes.get t = some v ∧
        queryWeight r.1 v = queryWeight s v + 1 := by
  unfold queryWeight at hv ⊢
  cases m with
  | receiveNft t hk =>
    simp only [exec] at h
    obtain ⟨h0, ⟨u, rfl, h3⟩ | ⟨u, d, rfl, h3⟩⟩ := receiveNft_ok_iff.1 h
    · obtain ⟨h4, h5, _, _, rfl⟩ := stakeNft_ok_iff.1 h3
      simp only [Members.saveTotal_weight, Members.weight_setWeight] at hv h5 ⊢
      split at hv
      · rename_i hvu
        subst hvu
        refine ⟨h0, h4, t, rfl, ?_, Map.get_set_self _ _ _, by simp⟩
        cases hg : s.stakes.get t with
        | none => rfl
        | some w => rw [Map.has_iff.2 ⟨w, hg⟩] at h5; cases h5
      · omega
    · obtain ⟨_, rfl⟩ := addNftClaim_ok_iff.1 h3
      exact absurd hv (lt_irrefl _)
  | unstake l =>
    obtain ⟨_, _, _, _, _, rfl⟩ := unstake_ok_iff.1 h
    simp only [Members.saveTotal_weight, Members.weight_setWeight] at hv
    split at hv
    · rename_i hh; subst hh; omega
    · omega
  | claim u =>
    obtain ⟨_, _, rfl⟩ := (claim_ok_iff hi).1 h
    exact absurd hv (lt_irrefl _)
  | updateUnlocking p =>
    obtain ⟨_, rfl⟩ := updateUnlocking_ok_iff.1 h
    exact absurd hv (lt_irrefl _)
  | addHook a =>
    simp only [exec, bind_ok_iff, Members.addHook, ite_ok_iff, pure_ok_iff] at h
    obtain ⟨m, ⟨_, h1⟩, rfl⟩ := h
    cases h1
    exact absurd hv (lt_irrefl _)
  | removeHook a =>
    simp only [exec, bind_ok_iff, Members.removeHook, ite_ok_iff, pure_ok_iff] at h
    obtain ⟨m, ⟨_, h1⟩, rfl⟩ := h
    cases h1
    exact absurd hv (lt_irrefl _)

/-- C21 for NFT staking: a weight increases only by one, through a `ReceiveNft` of the NFT contract for a token not yet
staked. -/
theorem C21_nft_only_transfer_stakes {s : State} (h : Reachable s) (c : Call) (v : Addr)
    (hv : queryWeight s v < queryWeight (step s c).1 v) :
    IsNft s c.env.proxyNft c.env.env.sender ∧
      ∃ t, c.msg = .receiveNft t (.stake v) ∧ s.stakes.get t = none ∧ (step s c).1.stakes.get t = some v ∧
        queryWeight (step s c).1 v = queryWeight s v + 1 := by
  rcases step_cases s c with ⟨_, r, h1, h2⟩ | ⟨_, h2⟩
  · rw [h2] at hv ⊢
    obtain ⟨h3, _, h4⟩ := weight_step h.inv h1 v hv
    exact ⟨isNft_iff.2 h3, h4⟩
  · rw [h2] at hv; exact absurd hv (lt_irrefl _)

/-- C25 for NFT staking: a restricted user gains no weight, and staking for such a user is refused. -/
theorem C25_nft_restricted {s : State} (h : Reachable s) (c : Call) (v : Addr)
    (hv : c.env.env.restricted v = true) :
    queryWeight (step s c).1 v ≤ queryWeight s v ∧
    (∀ t, c.msg = .receiveNft t (.stake v) → ¬ accepted s c) := by
  constructor
  · by_contra hlt
    have hlt := Nat.lt_of_not_le hlt
    rcases step_cases s c with ⟨_, r, h1, h2⟩ | ⟨_, h2⟩
    · rw [h2] at hlt
      obtain ⟨_, h3, _⟩ := weight_step h.inv h1 v hlt
      rw [hv] at h3; cases h3
    · rw [h2] at hlt; exact absurd hlt (lt_irrefl _)
  · rintro t hm ⟨_, r, hr⟩
    rw [hm] at hr
    simp only [exec] at hr
    obtain ⟨_, ⟨u, h0, h3⟩ | ⟨u, d, h0, h3⟩⟩ := receiveNft_ok_iff.1 hr
    · cases h0
      have := (stakeNft_ok_iff.1 h3).1
      rw [hv] at this; cases this
    · cases h0

example : queryWeight (run smpInit (smp.take 2)) 2 <
      queryWeight (step (run smpInit (smp.take 2)) ⟨smpEnv 12 5, .receiveNft 103 (.stake 2), true⟩).1 2 ∧
    (smpEnv 12 5).env.restricted 66 = true := by decide +kernel

/-! ## C26 and C27 -/

/-- C26 for NFT staking: the claim made by an unstake is due exactly when the unlocking period in force at the unstake
has elapsed, provided its end fits 64 bits. -/
theorem C26_nft_waits {s : State} (h : Reachable s) (e : NEnv) (l : List Nat) (r : State × List Out)
    (hr : exec s e (.unstake l) = .ok r) (hf : Fits s.unlocking e.env.block) (later : Block) :
    ∃ c, r.1.claims.get s.nextClaim = some c ∧ s.claims.get s.nextClaim = none ∧ c.user = e.env.sender ∧ c.nfts = l ∧
      (Due e.env.sender later c ↔ Elapsed s.unlocking e.env.block later) := by
  obtain ⟨_, _, _, _, _, rfl⟩ := unstake_ok_iff.1 hr
  refine ⟨_, Map.get_set_self _ _ _, h.inv.fresh, rfl, rfl, ?_⟩
  unfold Due Elapsed releaseAt
  unfold Fits at hf
  cases hu : s.unlocking with
  | height n =>
    rw [hu] at hf
    simp only at hf ⊢
    have : wadd64 e.env.block.height n = e.env.block.height + n := by
      unfold wadd64 M64; exact Nat.mod_eq_of_lt hf
    simp [this]
  | time n =>
    rw [hu] at hf
    simp only at hf ⊢
    have h5 : n * 10 ^ 9 % M64 = n * 10 ^ 9 := by
      unfold M64; apply Nat.mod_eq_of_lt; omega
    have : wadd64 e.env.block.time (n * 10 ^ 9) = e.env.block.time + n * 10 ^ 9 := by
      unfold wadd64 M64; exact Nat.mod_eq_of_lt hf
    rw [h5, this]
    simp

example : (exec (run smpInit (smp.take 5)) (smpEnv 14 1) (.unstake [102, 101])).toOption.isSome = true ∧
    Fits (run smpInit (smp.take 5)).unlocking (smpEnv 14 1).env.block ∧
    ¬ Elapsed (run smpInit (smp.take 5)).unlocking (smpEnv 14 1).env.block (smpEnv 113 1).env.block := by decide +kernel

/-- C27 for NFT staking. -/
theorem C27_nft_update_unlocking (s : State) (e : NEnv) (p : Option Duration) :
    ((∃ r, exec s e (.updateUnlocking p) = .ok r) ↔ e.env.sender = e.env.controller) ∧
    (∀ r, exec s e (.updateUnlocking p) = .ok r →
      r.1.mem = s.mem ∧ r.1.stakes = s.stakes ∧ r.1.claims = s.claims ∧ r.1.nextClaim = s.nextClaim ∧
      r.1.nft = s.nft ∧ (p = none → r.1.unlocking = s.unlocking) ∧ (∀ d, p = some d → r.1.unlocking = d) ∧
      r.2 = []) := by
  constructor
  · constructor
    · rintro ⟨r, hr⟩; exact (updateUnlocking_ok_iff.1 hr).1
    · intro h; exact ⟨_, updateUnlocking_ok_iff.2 ⟨h, rfl⟩⟩
  · intro r hr
    obtain ⟨_, rfl⟩ := updateUnlocking_ok_iff.1 hr
    refine ⟨rfl, rfl, rfl, rfl, rfl, ?_, ?_, rfl⟩
    · rintro rfl; rfl
    · rintro d rfl; rfl

example : (exec (run smpInit (smp.take 6)) (smpEnv 15 9) (.updateUnlocking (some (.height 7)))).toOption.map
    (fun r => (r.1.unlocking, decide (r.1.claims = (run smpInit (smp.take 6)).claims), r.1.nextClaim)) =
      some (.height 7, true, 1) ∧
    (exec (run smpInit (smp.take 6)) (smpEnv 15 1) (.updateUnlocking none)).isOk = false := by decide +kernel

end Verif.Nft
