import Verif.Migration.NftSystem

/-!
# The migration of a token or NFT DAO: who has weight while it goes on (C154)
-/

set_option linter.unusedSimpArgs false

namespace Verif.Migration
open Verif
open Verif.Staking (shareOf)

/-! ### Specification -/

/-- The users who are the first `k`, in the order of their addresses, of those with a stake in the treasury. -/
def firstStakers (s : State) (k : Nat) : List Addr := (s.stakes.entries.take k).map (·.1)

/-- The stake of a user that the treasury has. -/
def stakeOf (s : State) (u : Addr) : Nat := (s.stakes.get u).getD 0

/-- Exactly the stakes of the first `k` stakers of `s` have been moved: these users weigh what they had staked, everybody else
weighs nothing, and the total counts nobody else. -/
structure OnlyFirst (s : State) (k : Nat) (st : Staking.State) : Prop where
  moved : ∀ u ∈ firstStakers s k, Staking.queryWeight st u = stakeOf s u
  others : ∀ u, u ∉ firstStakers s k → Staking.queryWeight st u = 0
  total : Staking.queryTotal st .never = ((firstStakers s k).map (stakeOf s)).sum

/-- The first `k` NFTs, in the order of their ids, of those staked in the treasury, and their stakers. -/
def firstNfts (s : State) (k : Nat) : List (Nat × Addr) := s.nftStakes.entries.take k

/-- Exactly the first `k` NFTs staked in `s` have been moved: they and no others are staked in the membership contract, a user
weighs as many as are theirs among them, and the total counts no others. -/
structure OnlyFirstNfts (s : State) (k : Nat) (st : Nft.State) : Prop where
  staked : ∀ t u, st.stakes.get t = some u ↔ (t, u) ∈ firstNfts s k
  weight : ∀ u, Nft.queryWeight st u = ((firstNfts s k).filter (fun x => decide (x.2 = u))).length
  total : Nft.queryTotal st .never = (firstNfts s k).length

/-! ### Lemmas -/

theorem lookupL_take {l : List (Addr × Nat)} (u : Addr) : ∀ k,
    (u ∈ (l.take k).map (·.1) → lookupL u (l.take k) = lookupL u l) ∧
    (u ∉ (l.take k).map (·.1) → lookupL u (l.take k) = none) := by
  induction l with
  | nil => intro k; simp [lookupL]
  | cons e t ih =>
    intro k
    cases k with
    | zero => simp [lookupL]
    | succ k =>
      simp only [List.take_succ_cons, List.map_cons, List.mem_cons, lookupL]
      by_cases he : e.1 = u
      · simp [he]
      · have hu : u ≠ e.1 := fun h => he h.symm
        simp only [if_neg he, hu, false_or]
        exact ih k

theorem shareOf_le_sum (l : List (Addr × Nat)) (u : Addr) : shareOf l u ≤ (l.map (·.2)).sum := by
  induction l with
  | nil => simp [shareOf]
  | cons e t ih =>
    rw [Staking.shareOf_cons, List.map_cons, List.sum_cons]
    split <;> omega

theorem stakes_of_outs {b : List (Addr × Nat)} {c : List Staking.UserClaim} {n : Nat} (u : Addr) :
    shareOf ((stakesMsg (b.map (·.2)).sum b ++ claimsMsg n c).flatMap stakesIn) u = shareOf b u ∧
    (((stakesMsg (b.map (·.2)).sum b ++ claimsMsg n c).flatMap stakesIn).map (·.2)).sum = (b.map (·.2)).sum := by
  have hc : (claimsMsg n c).flatMap stakesIn = [] := by
    unfold claimsMsg
    split <;> simp [stakesIn]
  rw [List.flatMap_append, hc, List.append_nil]
  unfold stakesMsg
  split
  · rename_i h0
    have := shareOf_le_sum b u
    constructor
    · simp [shareOf] at this ⊢
      omega
    · simp [h0]
  · simp [stakesIn]

/-- What a history has moved is a first part of the stakes. -/
structure Moved (σ σ' : Sys) (k : Nat) : Prop where
  kept : σ'.tr.stakes.entries = σ.tr.stakes.entries.drop k
  weight : ∀ u, Staking.queryWeight σ'.st u = Staking.queryWeight σ.st u + shareOf (σ.tr.stakes.entries.take k) u
  total : Staking.queryTotal σ'.st .never =
    Staking.queryTotal σ.st .never + ((σ.tr.stakes.entries.take k).map (·.2)).sum

theorem Moved.refl (σ : Sys) : Moved σ σ 0 := ⟨rfl, fun _ => by simp [shareOf], by simp⟩

theorem Moved.trans {σ σ' σ'' : Sys} {j k : Nat} (h : Moved σ σ' j) (h' : Moved σ' σ'' k) : Moved σ σ'' (j + k) := by
  have ht : σ.tr.stakes.entries.take (j + k) = σ.tr.stakes.entries.take j ++ σ'.tr.stakes.entries.take k := by
    rw [h.kept, List.take_add]
  refine ⟨?_, fun u => ?_, ?_⟩
  · rw [h'.kept, h.kept, List.drop_drop]
  · rw [h'.weight, h.weight, ht, shareOf_append]
    omega
  · rw [h'.total, h.total, ht, List.map_append, List.sum_append]
    omega

theorem token_batch {gas : Nat} {s s' : State} {l : Option Nat} {outs : List Out} (hd : s.dao = .token)
    (h : performSafe gas s l = .ok (s', outs)) : s'.stakes.entries = s.stakes.entries.drop (limitOf .token l) ∧
      (limitOf .token l ≤ s.stakes.entries.length → s'.stage = .inProgress) := by
  unfold performSafe at h
  split at h
  · cases h
  · obtain ⟨⟨s1, o, n⟩, k, h⟩ := bind_ok_iff.1 h
    cases h
    rw [hd] at k ⊢
    unfold finalize at k
    rw [hd] at k
    obtain ⟨⟨a, o1, n1⟩, k1, k⟩ := bind_ok_iff.1 k
    obtain ⟨⟨b, o2, n2⟩, k2, k⟩ := bind_ok_iff.1 k
    cases k
    obtain ⟨i1, i2, i3, ⟨i4, i5, i6, i7, i8⟩, i9, i10⟩ := moveStakes_ok k1
    obtain ⟨m, c, rfl, j2, j3, j4, j5, j6, j7⟩ := moveClaims_ok k2
    refine ⟨i2, fun hle => ?_⟩
    have hn : n1 = limitOf .token l := by
      unfold moveStakes at k1
      obtain ⟨_, _, k1⟩ := bind_ok_iff.1 k1
      cases k1
      simp [hle]
    show (if n1 + n2 < limitOf .token l then Stage.completed else Stage.inProgress) = _
    rw [if_neg (by omega)]

/-- A batch that is filled by stakes consists of one message. -/
theorem token_full {gas : Nat} {s s' : State} {l : Option Nat} {outs : List Out} (hd : s.dao = .token)
    (hle : limitOf .token l ≤ s.stakes.entries.length) (h : performSafe gas s l = .ok (s', outs)) :
    outs = stakesMsg ((s.stakes.entries.take (limitOf .token l)).map (·.2)).sum (s.stakes.entries.take (limitOf .token l)) := by
  unfold performSafe at h
  split at h
  · cases h
  · obtain ⟨⟨s1, o, n⟩, k, h⟩ := bind_ok_iff.1 h
    cases h
    rw [hd] at k
    unfold finalize at k
    rw [hd] at k
    obtain ⟨⟨a, o1, n1⟩, k1, k⟩ := bind_ok_iff.1 k
    obtain ⟨⟨b, o2, n2⟩, k2, k⟩ := bind_ok_iff.1 k
    cases k
    have hm := moveStakes_ok k1
    obtain ⟨m, c, rfl, j2, j3, j4, j5, j6, j7⟩ := moveClaims_ok k2
    have hn := hm.count
    rw [List.length_take, Nat.min_eq_left hle] at hn
    have hc : c = [] := List.eq_nil_of_length_eq_zero (by omega)
    rw [hm.outs, j2, hc]
    simp [claimsMsg]

theorem Moved.of_step {σ σ' : Sys} (hr : Staking.Reachable .token σ.st) (hd : σ.tr.dao = .token) {gas : Nat} {l : Option Nat}
    {e : Env} {outs : List Out} (h1 : perform gas σ.tr l = .ok (σ'.tr, outs)) (h2 : deliver e σ.st outs = .ok σ'.st) :
    Moved σ σ' (limitOf .token l) := by
  obtain ⟨b, c, ho, hb, _⟩ := token_shape hd (perform_safe h1).1
  have hk := (token_batch hd (perform_safe h1).1).1
  have hdl := deliver_ok outs hr h2
  have ht : σ.tr.stakes.entries.take (limitOf .token l) = b := by
    rw [hk] at hb
    exact List.append_cancel_right ((List.take_append_drop _ _).trans hb.symm)
  refine ⟨hk, fun u => ?_, ?_⟩
  · rw [hdl.weight, ho, (stakes_of_outs u).1, ht]
  · rw [hdl.total, ho, (stakes_of_outs 0).2, ht]

theorem moved_run (h : List (Env × Call)) : ∀ (σ : Sys), Staking.Reachable .token σ.st → σ.tr.dao = .token →
    ∃ k, Moved σ (sysRun σ h) k := by
  induction h with
  | nil => exact fun σ _ _ => ⟨0, Moved.refl σ⟩
  | cons c h ih =>
    intro σ hr hd
    obtain ⟨a1, a2, _⟩ := sysStep_share hr hd c.1 c.2
    obtain ⟨k, hk⟩ := ih (sysStep σ c.1 c.2) a1 a2
    have : ∃ j, Moved σ (sysStep σ c.1 c.2) j := by
      rcases sysStep_cases σ c.1 c.2 with hs | ⟨outs, h1, h2⟩
      · rw [hs]; exact ⟨0, Moved.refl σ⟩
      · exact ⟨_, Moved.of_step hr hd h1 h2⟩
    obtain ⟨j, hj⟩ := this
    exact ⟨j + k, hj.trans hk⟩

theorem Moved.onlyFirst {σ σ' : Sys} {k : Nat} (h : Moved σ σ' k) (h0 : ∀ u, Staking.queryWeight σ.st u = 0)
    (ht : Staking.queryTotal σ.st .never = 0) : OnlyFirst σ.tr k σ'.st := by
  have hs : SortedL (σ.tr.stakes.entries.take k) := List.Pairwise.sublist (List.take_sublist _ _) σ.tr.stakes.sorted
  refine ⟨fun u hu => ?_, fun u hu => ?_, ?_⟩
  · rw [h.weight, h0, shareOf_entries _ hs, (lookupL_take u k).1 hu, Nat.zero_add]
    rfl
  · rw [h.weight, h0, shareOf_entries _ hs, (lookupL_take u k).2 hu]
    rfl
  · rw [h.total, ht, Nat.zero_add]
    unfold firstStakers
    rw [List.map_map]
    refine congrArg List.sum (List.map_congr_left (fun x hx => ?_))
    show x.2 = (σ.tr.stakes.get x.1).getD 0
    have : σ.tr.stakes.get x.1 = some x.2 := Map.get_eq_some_iff.2 (List.mem_of_mem_take hx)
    rw [this]
    rfl

theorem no_total {st : Staking.State} (hr : Staking.Reachable .token st) (h0 : ∀ u, Staking.queryWeight st u = 0) :
    Staking.queryTotal st .never = 0 := by
  have h1 := hr.inv.total
  have h2 : st.mem.wsum = 0 := by
    refine (Map.sum_congr (fun u x hx => ?_)).trans (Map.sum_zero _)
    have := h0 u
    unfold Staking.queryWeight Members.weight at this
    rw [hx] at this
    exact this
  show st.mem.total = 0
  omega

/-- What a history has moved is a first part of the NFTs. -/
structure MovedNfts (σ σ' : NSys) (k : Nat) : Prop where
  kept : σ'.tr.nftStakes.entries = σ.tr.nftStakes.entries.drop k
  staked : ∀ t u, σ'.st.stakes.get t = some u ↔ σ.st.stakes.get t = some u ∨ (t, u) ∈ σ.tr.nftStakes.entries.take k

theorem MovedNfts.refl (σ : NSys) : MovedNfts σ σ 0 := ⟨rfl, fun _ _ => by simp⟩

theorem MovedNfts.trans {σ σ' σ'' : NSys} {j k : Nat} (h : MovedNfts σ σ' j) (h' : MovedNfts σ' σ'' k) :
    MovedNfts σ σ'' (j + k) := by
  refine ⟨by rw [h'.kept, h.kept, List.drop_drop], fun t u => ?_⟩
  rw [h'.staked, h.staked, h.kept, List.take_add, List.mem_append, or_assoc]

theorem nft_batch {gas : Nat} {s s' : State} {l : Option Nat} {outs : List Out} (hd : s.dao = .nft)
    (h : performSafe gas s l = .ok (s', outs)) : s'.nftStakes.entries = s.nftStakes.entries.drop (limitOf .nft l) ∧
      (limitOf .nft l ≤ s.nftStakes.entries.length → s'.stage = .inProgress) := by
  unfold performSafe at h
  split at h
  · cases h
  · obtain ⟨⟨s1, o, n⟩, k, h⟩ := bind_ok_iff.1 h
    cases h
    rw [hd] at k ⊢
    unfold finalize at k
    rw [hd] at k
    obtain ⟨⟨a, o1⟩, k1, k⟩ := bind_ok_iff.1 k
    obtain ⟨⟨b, o2⟩, k2, k⟩ := bind_ok_iff.1 k
    cases k
    obtain ⟨m, mg, rfl, i2, i3, i4⟩ := moveNfts_ok k1
    obtain ⟨m2, rfl, j2, j3, j4⟩ := moveNftClaims_ok k2
    refine ⟨i2, fun hle => ?_⟩
    have hn : o1.length = limitOf .nft l := by
      rw [i4, List.length_map, List.length_take]
      omega
    show (if (o1 ++ o2).length < limitOf .nft l then Stage.completed else Stage.inProgress) = _
    rw [if_neg (by rw [List.length_append]; omega)]

theorem MovedNfts.of_step {coll : Addr} {σ σ' : NSys} (hr : Nft.Reachable σ.st) (hd : σ.tr.dao = .nft) {gas : Nat}
    {l : Option Nat} {e : Nft.NEnv} {outs : List Out} (h1 : perform gas σ.tr l = .ok (σ'.tr, outs))
    (h2 : deliverNfts coll e σ.st outs = .ok σ'.st) : MovedNfts σ σ' (limitOf .nft l) := by
  obtain ⟨n, he, _⟩ := performSafe_ok (perform_safe h1).1
  have hk := (nft_batch hd (perform_safe h1).1).1
  have hdl := deliverNfts_ok outs hr h2
  have ht : σ.tr.nftStakes.entries.take (limitOf .nft l) = outs.flatMap nftsIn := by
    have hb := he.nfts
    rw [hk] at hb
    exact List.append_cancel_right ((List.take_append_drop _ _).trans hb.symm)
  refine ⟨hk, fun t u => ?_⟩
  rw [hdl.staked, ht]

theorem moved_nfts_run (coll : Addr) (h : List (Nft.NEnv × Call)) : ∀ (σ : NSys), Nft.Reachable σ.st → σ.tr.dao = .nft →
    Nft.Reachable (nsysRun coll σ h).st ∧ ∃ k, MovedNfts σ (nsysRun coll σ h) k := by
  induction h with
  | nil => exact fun σ hr _ => ⟨hr, 0, MovedNfts.refl σ⟩
  | cons c h ih =>
    intro σ hr hd
    obtain ⟨a1, a2, _⟩ := nsysStep_share (coll := coll) hr hd c.1 c.2
    obtain ⟨b1, k, hk⟩ := ih (nsysStep coll σ c.1 c.2) a1 a2
    have : ∃ j, MovedNfts σ (nsysStep coll σ c.1 c.2) j := by
      rcases nsysStep_cases coll σ c.1 c.2 with hs | ⟨outs, h1, h2⟩
      · rw [hs]; exact ⟨0, MovedNfts.refl σ⟩
      · exact ⟨_, MovedNfts.of_step hr hd h1 h2⟩
    obtain ⟨j, hj⟩ := this
    exact ⟨b1, j + k, hj.trans hk⟩

theorem MovedNfts.onlyFirst {σ σ' : NSys} {k : Nat} (h : MovedNfts σ σ' k) (hr : Nft.Reachable σ'.st)
    (h0 : ∀ t, σ.st.stakes.get t = none) : OnlyFirstNfts σ.tr k σ'.st := by
  have hs : SortedL (σ.tr.nftStakes.entries.take k) := List.Pairwise.sublist (List.take_sublist _ _) σ.tr.nftStakes.sorted
  have key : ∀ t u, σ'.st.stakes.get t = some u ↔ (t, u) ∈ firstNfts σ.tr k := fun t u => by
    rw [h.staked, h0]
    simp [firstNfts]
  have hm : σ'.st.stakes = ⟨σ.tr.nftStakes.entries.take k, hs⟩ := Map.ext_get (fun t => by
    apply Option.ext
    intro u
    rw [key, Map.get_eq_some_iff]
    rfl)
  obtain ⟨c1, c2, _⟩ := Nft.C28_weight_counts hr
  refine ⟨key, fun u => ?_, ?_⟩
  · rw [c1]
    unfold Nft.stakedBy
    rw [hm]
    rfl
  · rw [c2]
    unfold Nft.stakedCount
    rw [hm]
    rfl

/-- A token DAO whose migration starts: a new staking contract. -/
def smpStart : Sys := ⟨smpToken, Staking.init ⟨5, 50⟩ 12 (.height 100) [] [] []⟩

/-! ## C154 -/

/-- While the migration goes on, whatever the steps, their batch sizes and their failures: those who weigh anything are the
first stakers in the order of addresses, up to some number, and the total weight, against which votes are measured, counts
nobody else. Everybody else has no weight yet, and their stakes are still in the treasury. -/
theorem C154_moved_only (σ : Sys) (hr : Staking.Reachable .token σ.st) (hd : σ.tr.dao = .token)
    (h0 : ∀ u, Staking.queryWeight σ.st u = 0) (h : List (Env × Call)) :
    ∃ k, OnlyFirst σ.tr k (sysRun σ h).st ∧
      ∀ u, u ∉ firstStakers σ.tr k → stakeOf (sysRun σ h).tr u = stakeOf σ.tr u := by
  obtain ⟨k, hk⟩ := moved_run h σ hr hd
  have ht := no_total hr h0
  refine ⟨k, hk.onlyFirst h0 ht, fun u hu => ?_⟩
  obtain ⟨c1, _⟩ := C63_system σ hr hd h
  have h1 := c1 u
  have h2 := (hk.onlyFirst h0 ht).others u hu
  rw [h0, h2] at h1
  exact h1

/-- And whoever sends a step chooses how many they are: for every number of stakes that there are, a step with that batch size
moves just as many (if these stakers are not restricted). -/
theorem C154_any_number (σ : Sys) (hr : ReadyToken σ) (hs : σ.tr.stage = .inProgress)
    (h0 : ∀ u, Staking.queryWeight σ.st u = 0) (k gas : Nat) (hk : k ≤ σ.tr.stakes.entries.length)
    (hg : σ.tr.claims.entries.length < gas) (e : Env) (he : ∀ u ∈ firstStakers σ.tr k, e.restricted u = false) :
    OnlyFirst σ.tr k (sysStep σ e ⟨some k, gas, true⟩).st ∧
      (sysStep σ e ⟨some k, gas, true⟩).tr.stage = .inProgress := by
  obtain ⟨⟨s', outs⟩, hp⟩ := perform_exists hr.treasury hg (some k) hs
  obtain ⟨b1, b2⟩ := token_batch hr.treasury.token (perform_safe hp).1
  have hl : limitOf .token (some k) = k := rfl
  rw [hl] at b1 b2
  obtain ⟨e1, e2⟩ := token_ready_step (c := ⟨some k, gas, true⟩) hr rfl (e := e) (fun x hx hn => by
    refine he x.1 (List.mem_map_of_mem ?_)
    rw [b1] at hn
    rw [← List.take_append_drop k σ.tr.stakes.entries, List.mem_append] at hx
    exact hx.resolve_right hn) hp
  refine ⟨?_, by rw [e1]; exact b2 hk⟩
  have hm : Moved σ (sysStep σ e ⟨some k, gas, true⟩) k := by
    rcases sysStep_cases σ e ⟨some k, gas, true⟩ with hst | ⟨outs', h1, h2⟩
    · have hkk : s' = σ.tr := by rw [← e1, hst]
      have hlen := congrArg List.length b1
      rw [hkk, List.length_drop] at hlen
      obtain rfl : k = 0 := by omega
      rw [hst]
      exact Moved.refl σ
    · exact Moved.of_step hr.reach hr.treasury.token h1 h2
  exact hm.onlyFirst h0 (no_total hr.reach h0)

/-- The same for NFT DAOs: while the migration goes on, the NFTs that count are the first in the order of their ids, up to some
number. -/
theorem C154_moved_only_nft (coll : Addr) (σ : NSys) (hr : Nft.Reachable σ.st) (hd : σ.tr.dao = .nft)
    (h0 : ∀ t, σ.st.stakes.get t = none) (h : List (Nft.NEnv × Call)) :
    ∃ k, OnlyFirstNfts σ.tr k (nsysRun coll σ h).st ∧
      ∀ t u, (nsysRun coll σ h).tr.nftStakes.get t = some u ↔
        σ.tr.nftStakes.get t = some u ∧ (t, u) ∉ firstNfts σ.tr k := by
  obtain ⟨hr', k, hk⟩ := moved_nfts_run coll h σ hr hd
  refine ⟨k, hk.onlyFirst hr' h0, fun t u => ?_⟩
  rw [Map.get_eq_some_iff, Map.get_eq_some_iff, hk.kept]
  have hnd : σ.tr.nftStakes.entries.Nodup := List.Pairwise.imp (fun h e => by rw [e] at h; omega) σ.tr.nftStakes.sorted
  unfold firstNfts
  conv => rhs; rw [← List.take_append_drop k σ.tr.nftStakes.entries]
  rw [← List.take_append_drop k σ.tr.nftStakes.entries, List.nodup_append] at hnd
  constructor
  · exact fun h => ⟨List.mem_append_right _ h, fun h' => hnd.2.2 _ (by simpa using h') _ h rfl⟩
  · rintro ⟨h, h'⟩
    exact (List.mem_append.1 h).resolve_left (by simpa using h')

/-- And whoever sends a step chooses how many they are. -/
theorem C154_any_number_nft (coll : Addr) (σ : NSys) (hr : ReadyNft coll σ) (hs : σ.tr.stage = .inProgress)
    (h0 : ∀ t, σ.st.stakes.get t = none) (k gas : Nat) (hk : k ≤ σ.tr.nftStakes.entries.length)
    (hg : σ.tr.claims.entries.length < gas) (e : Nft.NEnv) (he : ∀ x ∈ firstNfts σ.tr k, e.env.restricted x.2 = false) :
    OnlyFirstNfts σ.tr k (nsysStep coll σ e ⟨some k, gas, true⟩).st ∧
      (nsysStep coll σ e ⟨some k, gas, true⟩).tr.stage = .inProgress := by
  obtain ⟨⟨s', outs⟩, hp⟩ := perform_nft_exists hr.treasury hg (some k) hs
  obtain ⟨b1, b2⟩ := nft_batch hr.treasury.nft (perform_safe hp).1
  have hl : limitOf .nft (some k) = k := rfl
  rw [hl] at b1 b2
  obtain ⟨e1, e2⟩ := ready_step (c := ⟨some k, gas, true⟩) hr rfl (e := e) (fun t u hx hn => by
    refine he (t, u) ?_
    rw [b1] at hn
    have hx := Map.get_eq_some_iff.1 hx
    rw [← List.take_append_drop k σ.tr.nftStakes.entries, List.mem_append] at hx
    exact hx.resolve_right hn) hp
  refine ⟨?_, by rw [e1]; exact b2 hk⟩
  have hm : MovedNfts σ (nsysStep coll σ e ⟨some k, gas, true⟩) k := by
    rcases nsysStep_cases coll σ e ⟨some k, gas, true⟩ with hst | ⟨outs', h1, h2⟩
    · have hkk : s' = σ.tr := by rw [← e1, hst]
      have hlen := congrArg List.length b1
      rw [hkk, List.length_drop] at hlen
      obtain rfl : k = 0 := by omega
      rw [hst]
      exact MovedNfts.refl σ
    · exact MovedNfts.of_step hr.reach hr.treasury.nft h1 h2
  exact hm.onlyFirst e2.reach h0

/-- Hypotheses met, and what comes of it: of the stakers 1 and 2 of the sample, a step with batch size one makes user 1, who
has 10 of the 30 tokens staked, the only one with weight. -/
example : ReadyToken smpStart ∧ smpStart.tr.stage = .inProgress ∧ (∀ u, Staking.queryWeight smpStart.st u = 0) ∧
    1 ≤ smpStart.tr.stakes.entries.length ∧ firstStakers smpStart.tr 1 = [1] ∧
    (smpStart.tr.stakes.entries.map (·.2)).sum = 30 ∧
    Staking.queryWeight (sysStep smpStart ⟨⟨7, 70⟩, 0, 9, fun _ => false⟩ ⟨some 1, 9, true⟩).st 1 = 10 ∧
    Staking.queryTotal (sysStep smpStart ⟨⟨7, 70⟩, 0, 9, fun _ => false⟩ ⟨some 1, 9, true⟩).st .never = 10 :=
  ⟨⟨⟨_, _, _, _, _, _, [], rfl⟩, smpToken_ready.1, by decide +kernel, by decide +kernel⟩, by decide +kernel, fun _ => rfl,
    by decide +kernel, by decide +kernel, by decide +kernel, by decide +kernel, by decide +kernel⟩

/-- Of the NFTs 1, 2 and 3 of the sample, which users 10, 20 and 10 have staked, a step with batch size two moves the first
two. -/
example : ReadyNft 12 ⟨smpNft, Nft.init ⟨5, 50⟩ (.cw721 12) (.height 100) [] [] []⟩ ∧
    firstNfts smpNft 2 = [(1, 10), (2, 20)] ∧
    Nft.queryTotal (nsysStep 12 ⟨smpNft, Nft.init ⟨5, 50⟩ (.cw721 12) (.height 100) [] [] []⟩
      ⟨⟨⟨7, 70⟩, 0, 9, fun _ => false⟩, none⟩ ⟨some 2, 9, true⟩).st .never = 2 :=
  ⟨⟨⟨_, _, _, _, _, _, [], rfl⟩,
    ⟨rfl, by decide, fun _ => (show 0 + smpNft.nftStakes.entries.length < 2 ^ 128 by decide +kernel)⟩, rfl,
    fun _ _ _ => rfl, by decide +kernel, by decide +kernel⟩, by decide +kernel, by decide +kernel⟩

end Verif.Migration
