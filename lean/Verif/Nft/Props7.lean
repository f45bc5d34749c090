import Verif.Nft.Props6

/-!
# NFT staking: what it takes to burden somebody with claims (C185)
-/

set_option linter.unusedSimpArgs false

namespace Verif.Nft
open Verif
open Verif.Staking (Duration ReleaseAt releaseAt)

/-! ### Specification -/

/-- How many claims of a user wait in the contract, due or not. These are what a claim of the user loads from storage. -/
def waiting (s : State) (u : Addr) : Nat := s.claims.sum (fun _ c => if c.user = u then 1 else 0)

/-- How many NFTs these claims are for. -/
def waitingNfts (s : State) (u : Addr) : Nat := s.claims.sum (fun _ c => if c.user = u then c.nfts.length else 0)

/-- How often a user unstaked an empty list of NFTs in a history. -/
def idle (u : Addr) : State → List Call → Nat
  | _, [] => 0
  | s, c :: t =>
    (if accepted s c ∧ c.env.env.sender = u ∧ (match c.msg with | .unstake l => l.isEmpty | _ => false) = true then 1 else 0) +
      idle u (step s c).1 t

/-! ### Lemmas -/

/-- What a message does to the claims. -/
theorem exec_claims {s : State} (hi : Inv s) {e : NEnv} {m : Msg} {r : State × List Out} (hr : exec s e m = .ok r) :
    r.1.claims = s.claims ∨
    (∃ l d, m = .unstake l ∧ r.1.claims = s.claims.set s.nextClaim ⟨s.nextClaim, e.env.sender, l, d⟩) ∨
    (∃ t u d, m = .receiveNft t (.addClaim u d) ∧ nftContract s e.proxyNft = some e.env.sender ∧
      r.1.claims = s.claims.set s.nextClaim ⟨s.nextClaim, u, [t], d⟩) ∨
    (∃ v, m = .claim v ∧ r.1.claims = s.claims.filter (fun _ c => !takes e.env.sender e.env.block c)) := by
  cases m with
  | receiveNft t h =>
    simp only [exec] at hr
    obtain ⟨hc, ⟨u, rfl, hs⟩ | ⟨u, d, rfl, hs⟩⟩ := receiveNft_ok_iff.1 hr
    · obtain ⟨_, _, _, _, rfl⟩ := stakeNft_ok_iff.1 hs
      exact .inl rfl
    · obtain ⟨_, rfl⟩ := addNftClaim_ok_iff.1 hs
      exact .inr (.inr (.inl ⟨t, u, d, rfl, hc, rfl⟩))
  | unstake l =>
    simp only [exec] at hr
    obtain ⟨_, _, _, _, _, rfl⟩ := unstake_ok_iff.1 hr
    exact .inr (.inl ⟨l, _, rfl, rfl⟩)
  | claim v =>
    simp only [exec] at hr
    obtain ⟨_, _, rfl⟩ := (claim_ok_iff hi).1 hr
    exact .inr (.inr (.inr ⟨v, rfl, rfl⟩))
  | updateUnlocking p =>
    simp only [exec] at hr
    obtain ⟨_, rfl⟩ := updateUnlocking_ok_iff.1 hr
    exact .inl rfl
  | addHook a =>
    simp only [exec, bind_ok_iff, pure_ok_iff] at hr
    obtain ⟨_, _, h⟩ := hr
    rw [← h]
    exact .inl rfl
  | removeHook a =>
    simp only [exec, bind_ok_iff, pure_ok_iff] at hr
    obtain ⟨_, _, h⟩ := hr
    rw [← h]
    exact .inl rfl

theorem claims_add {s : State} (hi : Inv s) (g : Claim → Nat) (c : Claim) :
    (s.claims.set s.nextClaim c).sum (fun _ c => g c) = s.claims.sum (fun _ c => g c) + g c := by
  have hs := s.claims.sum_set (fun _ c => g c) s.nextClaim c
  rw [hi.fresh] at hs
  simp only [Map.contrib_none, Nat.add_zero] at hs
  exact hs

theorem claims_filter (g : Claim → Nat) (v : Addr) (b : Block) (m : Map Nat Claim) :
    (m.filter (fun _ c => !takes v b c)).sum (fun _ c => g c) ≤ m.sum (fun _ c => g c) ∧
    ((∀ c, c.user = v → g c = 0) → (m.filter (fun _ c => !takes v b c)).sum (fun _ c => g c) = m.sum (fun _ c => g c)) := by
  unfold Map.filter Map.sum
  simp only
  induction m.entries with
  | nil => exact ⟨le_refl _, fun _ => rfl⟩
  | cons x t ih =>
    simp only [List.filter_cons, List.map_cons, List.sum_cons]
    by_cases ht : takes v b x.2 = true
    · simp only [ht, Bool.not_true, Bool.false_eq_true, if_false]
      refine ⟨by omega, fun hg => ?_⟩
      have hu : x.2.user = v := by
        unfold takes at ht
        exact (of_decide_eq_true ht).1
      rw [hg _ hu, ih.2 hg]
      omega
    · simp only [ht, Bool.not_false, if_true, List.map_cons, List.sum_cons]
      exact ⟨by omega, fun hg => by rw [ih.2 hg]⟩

/-- How many claims of a user are for nothing. -/
def idleClaims (s : State) (u : Addr) : Nat := s.claims.sum (fun _ c => if c.user = u ∧ c.nfts = [] then 1 else 0)

theorem idle_run (u : Addr) : ∀ (h : List Call) {s : State}, Inv s → idleClaims (run s h) u ≤ idleClaims s u + idle u s h
  | [], _, _ => le_refl _
  | c :: t, s, hi => by
    have h1 := idle_run u t (inv_step hi c)
    have h2 : idleClaims (step s c).1 u ≤ idleClaims s u +
        (if accepted s c ∧ c.env.env.sender = u ∧ (match c.msg with | .unstake l => l.isEmpty | _ => false) = true
          then 1 else 0) := by
      rcases step_cases s c with ⟨ha, r, hr, he⟩ | ⟨_, he⟩
      · rw [he]
        unfold idleClaims
        rcases exec_claims hi hr with q | ⟨l, d, hm, q⟩ | ⟨x, v, d, hm, _, q⟩ | ⟨v, hm, q⟩
        · rw [q]; omega
        · rw [q, claims_add hi (fun c => if c.user = u ∧ c.nfts = [] then 1 else 0)]
          simp only [hm, ha, true_and, List.isEmpty_iff]
          exact le_refl _
        · rw [q, claims_add hi (fun c => if c.user = u ∧ c.nfts = [] then 1 else 0)]
          simp
        · rw [q]
          have := (claims_filter (fun c => if c.user = u ∧ c.nfts = [] then 1 else 0) c.env.env.sender c.env.env.block s.claims).1
          omega
      · rw [he]; exact Nat.le_add_right _ _
    show idleClaims (run (step s c).1 t) u ≤ _
    unfold idle
    omega

/-! ### Theorems -/

/-- **Nobody else can take a claim off a user, or add one without giving an NFT.** A message changes the number of waiting claims
of a user who did not send it only if it comes from the collection, with an NFT that was sent to be claimed by this user; then it
adds one claim, of one NFT. A message of the user adds at most one. -/
theorem C185_gift {s : State} (h : Reachable s) {e : NEnv} {m : Msg} {r : State × List Out} (hr : exec s e m = .ok r) (u : Addr) :
    (e.env.sender ≠ u → (waiting r.1 u = waiting s u ∧ waitingNfts r.1 u = waitingNfts s u) ∨
      (∃ t d, m = .receiveNft t (.addClaim u d)) ∧ IsNft s e.proxyNft e.env.sender ∧
        waiting r.1 u = waiting s u + 1 ∧ waitingNfts r.1 u = waitingNfts s u + 1) ∧
    waiting r.1 u ≤ waiting s u + 1 := by
  have hi := h.inv
  unfold waiting waitingNfts
  rcases exec_claims hi hr with q | ⟨l, d, hm, q⟩ | ⟨x, v, d, hm, hc, q⟩ | ⟨v, hm, q⟩
  · rw [q]
    exact ⟨fun _ => .inl ⟨rfl, rfl⟩, by omega⟩
  · rw [q, claims_add hi (fun c => if c.user = u then 1 else 0), claims_add hi (fun c => if c.user = u then c.nfts.length else 0)]
    refine ⟨fun hne => .inl ?_, by split <;> omega⟩
    simp only [if_neg hne]
    exact ⟨rfl, rfl⟩
  · rw [q, claims_add hi (fun c => if c.user = u then 1 else 0), claims_add hi (fun c => if c.user = u then c.nfts.length else 0)]
    refine ⟨fun _ => ?_, by split <;> omega⟩
    by_cases hv : v = u
    · subst hv
      refine .inr ⟨⟨x, d, hm⟩, ?_, by simp, by simp⟩
      unfold nftContract at hc
      unfold IsNft
      cases hn : s.nft with
      | cw721 a => rw [hn] at hc; cases hc; exact .inl rfl
      | ics721 p => rw [hn] at hc; exact .inr ⟨⟨p, rfl⟩, hc⟩
    · simp only [if_neg hv]
      exact .inl ⟨rfl, rfl⟩
  · rw [q]
    have k1 := claims_filter (fun c => if c.user = u then 1 else 0) e.env.sender e.env.block s.claims
    have k2 := claims_filter (fun c => if c.user = u then c.nfts.length else 0) e.env.sender e.env.block s.claims
    refine ⟨fun hne => .inl ⟨k1.2 (fun c hc => ?_), k2.2 (fun c hc => ?_)⟩, by have := k1.1; omega⟩
    · rw [if_neg (by rw [hc]; exact hne)]
    · rw [if_neg (by rw [hc]; exact hne)]

/-- **Each claim has its price.** After any history a user has no more waiting claims than NFTs in them, but for those the user
made by unstaking nothing. -/
theorem C185_price (b : Block) (nft : NftAddr) (p : Duration) (hooks : List Addr) (x y : List (Nat × Nat)) (h : List Call)
    (u : Addr) : waiting (run (init b nft p hooks x y) h) u ≤
      waitingNfts (run (init b nft p hooks x y) h) u + idle u (init b nft p hooks x y) h := by
  have hi : Inv (init b nft p hooks x y) := Reachable.inv ⟨b, nft, p, hooks, x, y, [], rfl⟩
  have h1 := idle_run u h hi
  have h0 : idleClaims (init b nft p hooks x y) u = 0 := rfl
  have h2 : waiting (run (init b nft p hooks x y) h) u ≤
      waitingNfts (run (init b nft p hooks x y) h) u + idleClaims (run (init b nft p hooks x y) h) u := by
    unfold waiting waitingNfts idleClaims
    rw [← Map.sum_add]
    refine Map.sum_le_sum (fun i c _ => ?_)
    by_cases hu : c.user = u
    · cases hn : c.nfts with
      | nil => simp [hu, hn]
      | cons z l => simp [hu, hn]
    · simp [hu]
  omega

/-! ### Examples -/

/-- User 3 is given NFT 105 to claim, and user 1 unstakes an NFT, and then nothing twice. -/
def smpGift : List Call := smp.take 8 ++ [⟨smpEnv 15 1, .unstake [], true⟩, ⟨smpEnv 15 1, .unstake [], true⟩]

/-- All parts of both theorems occur. -/
example : Reachable (run smpInit (smp.take 4)) ∧
    (∃ r, exec (run smpInit (smp.take 4)) (smpEnv 13 5) (.receiveNft 105 (.addClaim 3 (.height 20))) = .ok r ∧
      waiting r.1 3 = 1) ∧
    waiting (run smpInit smpGift) 3 = 1 ∧ waitingNfts (run smpInit smpGift) 3 = 1 ∧ idle 3 smpInit smpGift = 0 ∧
    waiting (run smpInit smpGift) 1 = 3 ∧ waitingNfts (run smpInit smpGift) 1 = 1 ∧ idle 1 smpInit smpGift = 2 :=
  ⟨smp_reachable 4, ⟨_, rfl, by decide +kernel⟩, by decide +kernel, by decide +kernel, by decide +kernel, by decide +kernel,
    by decide +kernel, by decide +kernel⟩

end Verif.Nft
