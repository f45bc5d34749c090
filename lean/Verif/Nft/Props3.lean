import Verif.Nft.Props2

/-!
# NFT staking: what a user owns stays the user's (C121)
-/

namespace Verif.Nft
open Verif
open Verif.Staking (Duration ReleaseAt releaseAt)

/-! ## Specification -/

/-- How often token `t` is with `u`: as a stake of `u`, or in claims of `u`. -/
def ownedBy (s : State) (u : Addr) (t : Nat) : Nat :=
  (if s.stakes.get t = some u then 1 else 0) +
    s.claims.sum (fun _ c => if c.user = u then c.nfts.count t else 0)

/-- How often the sub-messages send token `t` to `u`. -/
def sentTo (u : Addr) (t : Nat) (l : List Out) : Nat := l.count (.sendNft u t)

/-- Sub-messages sent during a history. -/
def sent (s : State) : List Call → List Out
  | [] => []
  | c :: t => (step s c).2 ++ sent (step s c).1 t

/-- The message brings in token `t` for `u`: as a stake or as a claim. -/
def Msg.bringsFor (u : Addr) (t : Nat) : Msg → Nat
  | .receiveNft t' (.stake v) => if t' = t ∧ v = u then 1 else 0
  | .receiveNft t' (.addClaim v _) => if t' = t ∧ v = u then 1 else 0
  | _ => 0

/-- How often the accepted messages of a history brought in token `t` for `u`. -/
def broughtFor (u : Addr) (t : Nat) (s : State) : List Call → Nat
  | [] => 0
  | c :: l => (if accepted s c then c.msg.bringsFor u t else 0) + broughtFor u t (step s c).1 l

/-! ## Lemmas -/

theorem sentTo_report (u : Addr) (t : Nat) (m : Members) (cs : List WeightChange) :
    sentTo u t (m.report cs) = 0 := by
  unfold sentTo Members.report
  rw [List.count_eq_zero]
  intro ho
  obtain ⟨h, _, hh⟩ := List.mem_map.1 ho
  cases hh

theorem sentTo_sendNft (u v : Addr) (t : Nat) (l : List Nat) :
    sentTo u t (l.map (fun x => .sendNft v x)) = if v = u then l.count t else 0 := by
  unfold sentTo
  induction l with
  | nil => simp
  | cons x l ih =>
    rw [List.map_cons, List.count_cons, ih, List.count_cons]
    by_cases hv : v = u
    · subst hv
      by_cases hx : x = t
      · simp [hx]
      · simp [hx]
    · simp [hv]

theorem ownedBy_filter (u v : Addr) (b : Block) (t : Nat) (l : List (Nat × Claim)) :
    ((l.filter (fun e => !takes v b e.2)).map (fun e => if e.2.user = u then e.2.nfts.count t else 0)).sum +
      (if v = u then (((l.filter (fun e => takes v b e.2)).map (·.2)).flatMap (·.nfts)).count t else 0) =
    (l.map (fun e => if e.2.user = u then e.2.nfts.count t else 0)).sum := by
  induction l with
  | nil => simp
  | cons x l ih =>
    rw [List.filter_cons, List.filter_cons, List.map_cons, List.sum_cons]
    by_cases hp : takes v b x.2 = true
    · have hu : x.2.user = v := by
        rw [takes_eq] at hp
        simp only [Bool.and_eq_true, decide_eq_true_eq] at hp
        exact hp.1
      simp only [hp, if_true, Bool.not_true, Bool.false_eq_true, if_false, List.map_cons, List.flatMap_cons,
        List.count_append, hu]
      by_cases hv : v = u
      · simp only [hv, if_true] at ih ⊢; omega
      · simp only [hv, if_false] at ih ⊢; omega
    · simp only [hp, Bool.false_eq_true, if_false, Bool.not_false, if_true, List.map_cons, List.sum_cons]
      omega

/-- One message. -/
theorem owns_exec {s : State} (hi : Inv s) (u : Addr) (t : Nat) {e : NEnv} {m : Msg} {r : State × List Out}
    (h : exec s e m = .ok r) :
    ownedBy r.1 u t + sentTo u t r.2 = ownedBy s u t + m.bringsFor u t := by
  cases m with
  | receiveNft t' hk =>
    simp only [exec] at h
    obtain ⟨_, ⟨v, rfl, h1⟩ | ⟨v, d, rfl, h1⟩⟩ := receiveNft_ok_iff.1 h
    · obtain ⟨_, h2, _, _, rfl⟩ := stakeNft_ok_iff.1 h1
      simp only at h2
      have hg : s.stakes.get t' = none := by
        cases hg : s.stakes.get t' with
        | none => rfl
        | some w => rw [Map.has_iff.2 ⟨w, hg⟩] at h2; cases h2
      simp only [ownedBy, sentTo_report, Msg.bringsFor, Map.get_set]
      by_cases ht : t' = t
      · subst ht
        simp only [hg, if_true, true_and, Option.some.injEq]
        split <;> simp <;> omega
      · simp only [ht, if_false, false_and]
    · obtain ⟨_, rfl⟩ := addNftClaim_ok_iff.1 h1
      have hs := s.claims.sum_set (fun _ c => if c.user = u then c.nfts.count t else 0) s.nextClaim
        ⟨s.nextClaim, v, [t'], d⟩
      rw [hi.fresh] at hs
      simp only [Map.contrib_none, Nat.add_zero] at hs
      simp only [ownedBy, hs, sentTo, List.count_nil, Msg.bringsFor, List.count_singleton]
      by_cases ht : t' = t
      · by_cases hv : v = u <;> simp [ht, hv] <;> omega
      · simp [ht]
  | unstake l =>
    obtain ⟨h1, h2, _, _, _, rfl⟩ := unstake_ok_iff.1 h
    have hs := s.claims.sum_set (fun _ c => if c.user = u then c.nfts.count t else 0) s.nextClaim
      ⟨s.nextClaim, e.env.sender, l, releaseAt s.unlocking e.env.block⟩
    rw [hi.fresh] at hs
    simp only [Map.contrib_none, Nat.add_zero] at hs
    simp only [ownedBy, hs, sentTo_report, Msg.bringsFor, get_removes, h1.count]
    by_cases ht : t ∈ l
    · have hg := h2 t ht
      rw [hg]
      by_cases hv : e.env.sender = u
      · simp [ht, hv]; omega
      · simp [ht, hv]
    · simp [ht]
  | claim v =>
    obtain ⟨_, _, rfl⟩ := (claim_ok_iff hi).1 h
    have := ownedBy_filter u e.env.sender e.env.block t s.claims.entries
    simp only [ownedBy, sentTo_sendNft, Msg.bringsFor, Map.sum, Map.values, Map.filter]
    omega
  | updateUnlocking p =>
    obtain ⟨_, rfl⟩ := updateUnlocking_ok_iff.1 h
    rfl
  | addHook a =>
    simp only [exec, bind_ok_iff, Members.addHook, ite_ok_iff, pure_ok_iff] at h
    obtain ⟨m, ⟨_, h1⟩, rfl⟩ := h
    cases h1
    rfl
  | removeHook a =>
    simp only [exec, bind_ok_iff, Members.removeHook, ite_ok_iff, pure_ok_iff] at h
    obtain ⟨m, ⟨_, h1⟩, rfl⟩ := h
    cases h1
    rfl

/-- One message of somebody else. -/
theorem keeps_exec {s : State} (hi : Inv s) (u : Addr) {e : NEnv} {m : Msg} {r : State × List Out}
    (hu : e.env.sender ≠ u) (h : exec s e m = .ok r) :
    (∀ t, s.stakes.get t = some u → r.1.stakes.get t = some u) ∧
      ∀ i c, s.claims.get i = some c → c.user = u → r.1.claims.get i = some c := by
  cases m with
  | receiveNft t' hk =>
    simp only [exec] at h
    obtain ⟨_, ⟨v, rfl, h1⟩ | ⟨v, d, rfl, h1⟩⟩ := receiveNft_ok_iff.1 h
    · obtain ⟨_, h2, _, _, rfl⟩ := stakeNft_ok_iff.1 h1
      simp only at h2
      refine ⟨fun t hg => ?_, fun _ _ hg _ => hg⟩
      simp only
      rw [Map.get_set_ne]
      · exact hg
      · rintro rfl
        rw [Map.has_iff.2 ⟨u, hg⟩] at h2; cases h2
    · obtain ⟨_, rfl⟩ := addNftClaim_ok_iff.1 h1
      refine ⟨fun t hg => hg, fun i c hg _ => ?_⟩
      have := (hi.ids i c hg).2
      simp only
      rw [Map.get_set_ne _ _ (by omega)]
      exact hg
  | unstake l =>
    obtain ⟨h1, h2, _, _, _, rfl⟩ := unstake_ok_iff.1 h
    refine ⟨fun t hg => ?_, fun i c hg _ => ?_⟩
    · simp only [get_removes]
      rw [if_neg]
      · exact hg
      · intro ht
        rw [h2 t ht] at hg
        cases hg
        exact hu rfl
    · have := (hi.ids i c hg).2
      simp only
      rw [Map.get_set_ne _ _ (by omega)]
      exact hg
  | claim v =>
    obtain ⟨_, _, rfl⟩ := (claim_ok_iff hi).1 h
    refine ⟨fun t hg => hg, fun i c hg hc => ?_⟩
    have : takes e.env.sender e.env.block c = false := by
      rw [takes_eq, hc, decide_eq_false (Ne.symm hu), Bool.false_and]
    simp [Map.get_filter, hg, Option.filter, this]
  | updateUnlocking p =>
    obtain ⟨_, rfl⟩ := updateUnlocking_ok_iff.1 h
    exact ⟨fun _ hg => hg, fun _ _ hg _ => hg⟩
  | addHook a =>
    simp only [exec, bind_ok_iff, Members.addHook, ite_ok_iff, pure_ok_iff] at h
    obtain ⟨m, ⟨_, h1⟩, rfl⟩ := h
    cases h1
    exact ⟨fun _ hg => hg, fun _ _ hg _ => hg⟩
  | removeHook a =>
    simp only [exec, bind_ok_iff, Members.removeHook, ite_ok_iff, pure_ok_iff] at h
    obtain ⟨m, ⟨_, h1⟩, rfl⟩ := h
    cases h1
    exact ⟨fun _ hg => hg, fun _ _ hg _ => hg⟩

/-! ## C121 -/

/-- C121, NFTs: after any history, a token is as often staked by a user, in claims of the user and was sent to the user
as the user had it before and as it was brought in for the user. -/
theorem C121_nft_accounted {s : State} (hr : Reachable s) (u : Addr) (t : Nat) (l : List Call) :
    ownedBy (run s l) u t + sentTo u t (sent s l) = ownedBy s u t + broughtFor u t s l := by
  induction l generalizing s with
  | nil => simp [run, sent, sentTo, broughtFor]
  | cons c l ih =>
    have ih := ih (reachable_step hr c)
    simp only [run, sent, broughtFor]
    have hp : ∀ a b, sentTo u t (a ++ b) = sentTo u t a + sentTo u t b := by
      intro a b; simp [sentTo, List.count_append]
    rw [hp]
    rcases step_cases s c with ⟨ha, r, h1, h2⟩ | ⟨ha, h2⟩
    · have he := owns_exec hr.inv u t h1
      rw [if_pos ha]
      rw [h2] at ih ⊢
      omega
    · rw [if_neg ha]
      rw [h2] at ih ⊢
      simp only [sentTo, List.count_nil] at ih ⊢
      omega

/-- C121, NFTs: without a message of the user, what the user has staked stays staked for the user and the claims of the
user stay as they are, whatever everybody else does. -/
theorem C121_nft_untouched {s : State} (hr : Reachable s) (u : Addr) (l : List Call)
    (hl : ∀ c ∈ l, c.env.env.sender ≠ u) :
    (∀ t, s.stakes.get t = some u → (run s l).stakes.get t = some u) ∧
      ∀ i c, s.claims.get i = some c → c.user = u → (run s l).claims.get i = some c := by
  induction l generalizing s with
  | nil => exact ⟨fun _ hg => hg, fun _ _ hg _ => hg⟩
  | cons c l ih =>
    obtain ⟨h1, h2⟩ := ih (reachable_step hr c) (fun d hd => hl d (List.mem_cons_of_mem _ hd))
    have hs : (∀ t, s.stakes.get t = some u → (step s c).1.stakes.get t = some u) ∧
        ∀ i d, s.claims.get i = some d → d.user = u → (step s c).1.claims.get i = some d := by
      rcases step_cases s c with ⟨_, r, h3, h4⟩ | ⟨_, h4⟩
      · rw [h4]; exact keeps_exec hr.inv u (hl c List.mem_cons_self) h3
      · rw [h4]; exact ⟨fun _ hg => hg, fun _ _ hg _ => hg⟩
    exact ⟨fun t hg => h1 t (hs.1 t hg), fun i d hg hd => h2 i d (hs.2 i d hg hd) hd⟩

/-- In the sample, token 105 comes in for user 3 twice and is sent back once; user 2 sends nothing and keeps token
103. -/
example : broughtFor 3 105 smpInit smp = 2 ∧ ownedBy (run smpInit smp) 3 105 = 1 ∧
    sentTo 3 105 (sent smpInit smp) = 1 ∧ ownedBy (run smpInit smp) 1 102 = 1 ∧
    (∀ c ∈ smp.drop 3, c.env.env.sender ≠ 2) ∧ (run smpInit (smp.take 3)).stakes.get 103 = some 2 := by
  decide +kernel

end Verif.Nft
