import Verif.Staking.Props2

/-!
# Staking: what a user owns stays the user's (C121)
-/

namespace Verif.Staking
open Verif

/-! ## Specification -/

/-- What the sub-messages pay to `u`. -/
def paidTo (u : Addr) (l : List Out) : Nat :=
  (l.map (fun o => match o with | .pay v a => if v = u then a else 0 | _ => 0)).sum

/-- What the claims of `u` add up to. -/
def claimsOf (s : State) (u : Addr) : Nat := s.claims.sum (fun _ c => if c.user = u then c.amount else 0)

/-- What a message brings in for `u`: a stake made for `u`, the stakes listed for `u`, the claims listed for `u`. -/
def Msg.brings (asset : Addr) (u : Addr) (sender : Addr) : Msg → Nat
  | .receive a (.stake v) => if v = u then a else 0
  | .receive _ (.addStakes l) => shareOf l u
  | .receive _ (.addClaims l) => (l.map (fun c => if c.user = u then c.amount else 0)).sum
  | .stakeDenom funds v => if v.getD sender = u then ((funds.filter (fun c => decide (c.denom = asset))).map (·.amount)).sum else 0
  | _ => 0

/-- What the accepted messages of a history brought in for `u`. -/
def broughtFor (k : Kind) (u : Addr) (s : State) : List Call → Nat
  | [] => 0
  | c :: t => (if accepted k s c then c.msg.brings s.asset u c.env.sender else 0) + broughtFor k u (step k s c).1 t

/-! ## Lemmas -/

theorem paidTo_report (u : Addr) (m : Members) (cs : List WeightChange) : paidTo u (m.report cs) = 0 := by
  unfold paidTo Members.report
  rw [List.map_map]
  induction m.hooks.keys with
  | nil => rfl
  | cons a t ih => simp only [List.map_cons, List.sum_cons, ih]; rfl

theorem addClaims_claimsOf (u : Addr) : ∀ (l : List UserClaim) {x y : State × Nat},
    (∀ i c, x.1.claims.get i = some c → i < x.1.nextClaim) → l.foldlM addTokenClaim x = .ok y →
    claimsOf y.1 u = claimsOf x.1 u + (l.map (fun c => if c.user = u then c.amount else 0)).sum := by
  intro l
  induction l with
  | nil =>
    intro x y _ h
    rw [foldlM_nil_ok_iff] at h
    subst h
    simp
  | cons c t ih =>
    intro x y hb h
    obtain ⟨z, h1, h2⟩ := foldlM_cons_ok_iff.1 h
    simp only [addTokenClaim, bind_ok_iff, addClaim_ok_iff, cadd128_ok, pure_ok_iff] at h1
    obtain ⟨_, ⟨h3, rfl⟩, _, ⟨h4, rfl⟩, rfl⟩ := h1
    have hn : x.1.claims.get x.1.nextClaim = none := by
      cases hg : x.1.claims.get x.1.nextClaim with
      | none => rfl
      | some d => have := hb _ _ hg; omega
    have hs := x.1.claims.sum_set (fun _ c => if c.user = u then c.amount else 0) x.1.nextClaim
      ⟨x.1.nextClaim, c.user, c.amount, c.release⟩
    rw [hn] at hs
    simp only [Map.contrib_none, Nat.add_zero] at hs
    rw [ih _ h2]
    · simp only [claimsOf, hs, List.map_cons, List.sum_cons]
      omega
    · intro i d hd
      simp only [Map.get_set] at hd ⊢
      split at hd
      · omega
      · have := hb i d hd; omega

theorem claimsOf_filter (u v : Addr) (b : Block) (m : Map Nat Claim) :
    (m.filter (fun _ c => !takes v b c)).sum (fun _ c => if c.user = u then c.amount else 0) +
      (if v = u then m.sum (fun _ c => if takes v b c then c.amount else 0) else 0) =
    m.sum (fun _ c => if c.user = u then c.amount else 0) := by
  unfold Map.sum Map.filter
  simp only
  generalize m.entries = l
  induction l with
  | nil => simp
  | cons x t ih =>
    rw [List.filter_cons]
    by_cases hp : takes v b x.2 = true
    · have hu : x.2.user = v := by
        unfold takes at hp
        simp only [Bool.and_eq_true, decide_eq_true_eq] at hp
        exact hp.1
      simp only [hp, Bool.not_true, Bool.false_eq_true, if_false, List.map_cons, List.sum_cons, if_true, hu]
      by_cases hv : v = u
      · simp only [hv, if_true] at ih ⊢; omega
      · simp only [hv, if_false] at ih ⊢; omega
    · simp only [hp, Bool.not_false, if_true, List.map_cons, List.sum_cons, Bool.false_eq_true, if_false, Nat.zero_add]
      omega

/-- One message: what `u` owns changes by what is paid to `u` and what is brought in for `u`. -/
theorem owns_exec {k : Kind} {s : State} (hi : Inv s) (u : Addr) {e : Env} {m : Msg} {r : State × List Out}
    (h : exec k s e m = .ok r) :
    queryWeight r.1 u + claimsOf r.1 u + paidTo u r.2 = queryWeight s u + claimsOf s u + m.brings s.asset u e.sender := by
  have hstake : ∀ {v a}, stakeFor s e v a = .ok r →
      queryWeight r.1 u + claimsOf r.1 u + paidTo u r.2 =
        queryWeight s u + claimsOf s u + (if v = u then a else 0) := by
    intro v a h
    obtain ⟨_, _, _, rfl⟩ := stakeFor_ok_iff.1 h
    simp only [queryWeight, Members.saveTotal_weight, Members.weight_setWeight, paidTo_report, claimsOf]
    by_cases hv : u = v
    · subst hv; simp only [if_true]; omega
    · have : ¬ v = u := fun hh => hv hh.symm
      simp only [hv, this, if_false]
  cases m with
  | receive a hk =>
    simp only [exec] at h
    split at h
    · unfold receive at h
      rw [ite_ok_iff] at h
      obtain ⟨_, h⟩ := h
      cases hk with
      | stake v => exact hstake h
      | addStakes l =>
        obtain ⟨_, _, _, mm, ch, rfl, h3, _, _, _, _⟩ := addStakes_ok h
        simp only [queryWeight, Members.saveTotal_weight, paidTo_report, claimsOf, Msg.brings, h3]
        omega
      | addClaims l =>
        obtain ⟨h0, h1, h2⟩ := addTokenClaims_ok h
        have hc := addClaims_claimsOf u l (fun i c hc => (hi.ids i c hc).2) h2
        have hm := (addClaims_loop l h2).2.2.2.1.1
        simp only at hc hm
        have hp : paidTo u r.2 = 0 := by rw [h0]; rfl
        simp only [queryWeight, hm, hc, hp, Msg.brings]
        omega
      | unknown => cases h
    · cases h
  | stakeDenom f v =>
    simp only [exec] at h
    split at h
    · unfold stakeDenom at h
      split at h
      · rw [ite_ok_iff] at h
        have hd := h.1
        have := hstake h.2
        simp only [ne_eq, not_not] at hd
        simpa [Msg.brings, hd] using this
      · cases h
    · cases h
  | unstake a =>
    obtain ⟨h1, _, _, rfl⟩ := unstake_ok_iff.1 h
    have hs := s.claims.sum_set (fun _ c => if c.user = u then c.amount else 0) s.nextClaim
      ⟨s.nextClaim, e.sender, a, releaseAt s.unlocking e.block⟩
    have hn : s.claims.get s.nextClaim = none := by
      cases hg : s.claims.get s.nextClaim with
      | none => rfl
      | some c => have := (hi.ids _ _ hg).2; omega
    rw [hn] at hs
    simp only [Map.contrib_none, Nat.add_zero] at hs
    simp only [queryWeight, Members.saveTotal_weight, Members.weight_setWeight, paidTo_report, claimsOf, hs,
      Msg.brings]
    by_cases hv : u = e.sender
    · subst hv; simp only [if_true]; omega
    · have : ¬ e.sender = u := fun hh => hv hh.symm
      simp only [hv, this, if_false]
      omega
  | claim v =>
    obtain ⟨_, _, rfl⟩ := (claim_ok_iff hi).1 h
    have := claimsOf_filter u e.sender e.block s.claims
    simp only [queryWeight, claimsOf, paidTo, List.map_cons, List.map_nil, List.sum_cons, List.sum_nil, Msg.brings]
    omega
  | updateUnlocking p =>
    obtain ⟨_, rfl⟩ := updateUnlocking_ok_iff.1 h
    rfl
  | addHook a =>
    simp only [exec, bind_ok_iff, Members.addHook, ite_ok_iff, pure_ok_iff] at h
    obtain ⟨m, ⟨_, h1⟩, rfl⟩ := h
    cases h1
    rfl
  | removeHook a =>
    simp only [exec, bind_ok_iff, Members.removeHook, ite_ok_iff, pure_ok_iff] at h
    obtain ⟨m, ⟨_, h1⟩, rfl⟩ := h
    cases h1
    rfl

/-- One message of somebody else. -/
theorem keeps_exec {k : Kind} {s : State} (hi : Inv s) (u : Addr) {e : Env} {m : Msg} {r : State × List Out}
    (hu : e.sender ≠ u) (h : exec k s e m = .ok r) :
    queryWeight s u ≤ queryWeight r.1 u ∧
      ∀ i c, s.claims.get i = some c → c.user = u → r.1.claims.get i = some c := by
  have hstake : ∀ {v a}, stakeFor s e v a = .ok r → queryWeight s u ≤ queryWeight r.1 u ∧
      ∀ i c, s.claims.get i = some c → c.user = u → r.1.claims.get i = some c := by
    intro v a h
    obtain ⟨_, _, _, rfl⟩ := stakeFor_ok_iff.1 h
    refine ⟨?_, fun _ _ hg _ => hg⟩
    simp only [queryWeight, Members.saveTotal_weight, Members.weight_setWeight]
    by_cases hv : u = v
    · subst hv; simp only [if_true]; omega
    · simp only [hv, if_false]; omega
  cases m with
  | receive a hk =>
    simp only [exec] at h
    split at h
    · unfold receive at h
      rw [ite_ok_iff] at h
      obtain ⟨_, h⟩ := h
      cases hk with
      | stake v => exact hstake h
      | addStakes l =>
        obtain ⟨_, _, _, mm, ch, rfl, h3, _, _, _, _⟩ := addStakes_ok h
        refine ⟨?_, fun _ _ hg _ => hg⟩
        simp only [queryWeight, Members.saveTotal_weight, h3]
        omega
      | addClaims l =>
        obtain ⟨h0, h1, h2⟩ := addTokenClaims_ok h
        obtain ⟨_, _, _, hm, hold, _⟩ := addClaims_loop l h2
        simp only at hm hold
        refine ⟨by simp only [queryWeight, hm.1]; omega, fun i c hg _ => ?_⟩
        rw [hold i (hi.ids i c hg).2]
        exact hg
      | unknown => cases h
    · cases h
  | stakeDenom f v =>
    simp only [exec] at h
    split at h
    · unfold stakeDenom at h
      split at h
      · rw [ite_ok_iff] at h
        exact hstake h.2
      · cases h
    · cases h
  | unstake a =>
    obtain ⟨h1, _, _, rfl⟩ := unstake_ok_iff.1 h
    refine ⟨?_, fun i c hg _ => ?_⟩
    · simp only [queryWeight, Members.saveTotal_weight, Members.weight_setWeight, if_neg (Ne.symm hu)]
      omega
    · have := (hi.ids i c hg).2
      simp only
      rw [Map.get_set_ne _ _ (by omega)]
      exact hg
  | claim v =>
    obtain ⟨_, _, rfl⟩ := (claim_ok_iff hi).1 h
    refine ⟨le_refl _, fun i c hg hc => ?_⟩
    simp only [Map.get_filter, hg]
    have : takes e.sender e.block c = false := by
      unfold takes
      rw [hc, decide_eq_false (Ne.symm hu), Bool.false_and]
    simp [Option.filter, this]
  | updateUnlocking p =>
    obtain ⟨_, rfl⟩ := updateUnlocking_ok_iff.1 h
    exact ⟨le_refl _, fun _ _ hg _ => hg⟩
  | addHook a =>
    simp only [exec, bind_ok_iff, Members.addHook, ite_ok_iff, pure_ok_iff] at h
    obtain ⟨m, ⟨_, h1⟩, rfl⟩ := h
    cases h1
    exact ⟨le_refl _, fun _ _ hg _ => hg⟩
  | removeHook a =>
    simp only [exec, bind_ok_iff, Members.removeHook, ite_ok_iff, pure_ok_iff] at h
    obtain ⟨m, ⟨_, h1⟩, rfl⟩ := h
    cases h1
    exact ⟨le_refl _, fun _ _ hg _ => hg⟩

/-! ## C121 -/

/-- C121, tokens: after any history, what a user has staked, has in claims and was paid is exactly what the user had
before and what was brought in for the user. So nothing of it can get lost or go to somebody else. -/
theorem C121_accounted {k : Kind} {s : State} (hr : Reachable k s) (u : Addr) (t : List Call) :
    queryWeight (run k s t) u + claimsOf (run k s t) u + paidTo u (sent k s t) =
      queryWeight s u + claimsOf s u + broughtFor k u s t := by
  induction t generalizing s with
  | nil => simp [run, sent, paidTo, broughtFor]
  | cons c t ih =>
    have ih := ih (reachable_step hr c)
    simp only [run, sent, broughtFor]
    have hp : ∀ a b, paidTo u (a ++ b) = paidTo u a + paidTo u b := by intro a b; simp [paidTo]
    rw [hp]
    rcases step_cases k s c with ⟨ha, r, h1, h2⟩ | ⟨ha, h2⟩
    · have he := owns_exec hr.inv u h1
      rw [if_pos ha]
      rw [h2] at ih ⊢
      omega
    · rw [if_neg ha]
      rw [h2] at ih ⊢
      simp only [paidTo, List.map_nil, List.sum_nil] at ih ⊢
      omega

/-- C121, tokens: without a message of the user, the stake of the user does not fall and the claims of the user stay
as they are, whatever everybody else does. -/
theorem C121_untouched {k : Kind} {s : State} (hr : Reachable k s) (u : Addr) (t : List Call)
    (ht : ∀ c ∈ t, c.env.sender ≠ u) :
    queryWeight s u ≤ queryWeight (run k s t) u ∧
      ∀ i c, s.claims.get i = some c → c.user = u → (run k s t).claims.get i = some c := by
  induction t generalizing s with
  | nil => exact ⟨le_refl _, fun _ _ hg _ => hg⟩
  | cons c t ih =>
    obtain ⟨h1, h2⟩ := ih (reachable_step hr c) (fun d hd => ht d (List.mem_cons_of_mem _ hd))
    have hs : queryWeight s u ≤ queryWeight (step k s c).1 u ∧
        ∀ i d, s.claims.get i = some d → d.user = u → (step k s c).1.claims.get i = some d := by
      rcases step_cases k s c with ⟨_, r, h3, h4⟩ | ⟨_, h4⟩
      · rw [h4]; exact keeps_exec hr.inv u (ht c List.mem_cons_self) h3
      · rw [h4]; exact ⟨le_refl _, fun _ _ hg _ => hg⟩
    exact ⟨Nat.le_trans hs.1 h1, fun i d hg hd => h2 i d (hs.2 i d hg hd) hd⟩

/-- In the sample, user 1 stakes 100 and is given 10, unstakes 40, is given a claim of 3 and claims it; the messages
after the fourth that others send leave it alone. -/
example : broughtFor .token 1 smpInit smpToken = 113 ∧ queryWeight (run .token smpInit smpToken) 1 = 70 ∧
    claimsOf (run .token smpInit smpToken) 1 = 40 ∧ paidTo 1 (sent .token smpInit smpToken) = 3 ∧
    broughtFor .denom 1 smpInit smpDenom = 100 ∧ paidTo 1 (sent .denom smpInit smpDenom) = 40 ∧
    (∀ c ∈ smpToken.drop 3, c.env.sender ≠ 2) ∧ queryWeight (run .token smpInit (smpToken.take 3)) 2 = 50 := by
  decide +kernel

end Verif.Staking
