import Verif.Staking.Lemmas

/-!
# Staking: invariants
-/

namespace Verif.Staking
open Verif

theorem hooks_saves_cur (l : List (Nat × Nat)) (s : Snap) (k : Nat)
    (h : (s.saves l).log.has k = true) : s.log.has k = true ∨ k ∈ l.map (·.2) := by
  unfold Snap.saves at h
  induction l generalizing s with
  | nil => exact Or.inl h
  | cons e t ih =>
    rw [List.foldl_cons] at h
    rcases ih _ h with h1 | h1
    · rw [Snap.has_log_save] at h1
      simp only [Bool.or_eq_true, decide_eq_true_eq] at h1
      rcases h1 with rfl | h1
      · exact Or.inr (by simp)
      · exact Or.inl h1
    · exact Or.inr (by simp only [List.map_cons, List.mem_cons]; exact Or.inr h1)

theorem inv_init (b : Block) (asset : Addr) (u : Duration) (hooks : List Addr) (x y : List (Nat × Nat)) :
    Inv (init b asset u hooks x y) := by
  constructor
  · rfl
  · rfl
  · intro i c h
    simp [init] at h

/-- What a successful message does, seen from the invariants. -/
structure Effect (s : State) (e : Env) (m : Msg) (s' : State) (outs : List Out) : Prop where
  inv : Inv s'
  conserve : s'.mem.wsum + claimSum s' + paid outs = s.mem.wsum + claimSum s + m.transferred s.asset
  asset : s'.asset = s.asset
  byHeight : s'.mem.byHeight = s.mem.byHeight ∨ ∃ v, s'.mem.byHeight = s.mem.byHeight.save v e.block.height
  bySeconds : s'.mem.bySeconds = s.mem.bySeconds ∨ ∃ v, s'.mem.bySeconds = s.mem.bySeconds.save v e.block.seconds
  next : s.nextClaim ≤ s'.nextClaim
  old : ∀ i, i < s.nextClaim → s'.claims.get i = none ∨ s'.claims.get i = s.claims.get i

theorem paid_report (m : Members) (cs : List WeightChange) : paid (m.report cs) = 0 := by
  unfold paid Members.report
  rw [List.map_map]
  induction m.hooks.keys with
  | nil => rfl
  | cons a t ih => simp only [List.map_cons, List.sum_cons, ih]; rfl

theorem effect_stakeFor {s : State} (hi : Inv s) {e : Env} {u : Addr} {a : Nat} {r : State × List Out} {m : Msg}
    (hm : m.transferred s.asset = a) (h : stakeFor s e u a = .ok r) : Effect s e m r.1 r.2 := by
  obtain ⟨h0, h1, h2, rfl⟩ := stakeFor_ok_iff.1 h
  have hw := Members.wsum_setWeight s.mem u (s.mem.weight u + a)
  have ht := hi.total
  constructor
  · constructor
    · simp only [Members.saveTotal, Snap.cur_save, Members.wsum]
      unfold Members.wsum at hw ht
      congr 1
      omega
    · simp only [Members.saveTotal, Snap.cur_save, Members.wsum]
      unfold Members.wsum at hw ht
      congr 1
      omega
    · exact hi.ids
  · simp only [paid_report, Members.saveTotal_wsum, hm]
    show _ + claimSum s + 0 = _
    omega
  · rfl
  · exact Or.inr ⟨_, rfl⟩
  · exact Or.inr ⟨_, rfl⟩
  · exact le_refl _
  · intro i _; exact Or.inr rfl

theorem effect_addStakes {s : State} (hi : Inv s) {e : Env} {a : Nat} {l : List (Addr × Nat)} {r : State × List Out}
    {m : Msg} (hm : m.transferred s.asset = a) (h : addStakes s e a l = .ok r) : Effect s e m r.1 r.2 := by
  obtain ⟨h0, h1, h2, mm, ch, rfl, h3, h4, h5, h6, h7⟩ := addStakes_ok h
  have ht := hi.total
  constructor
  · constructor
    · simp only [Members.saveTotal_wsum]
      simp only [Members.saveTotal, Snap.cur_save]
      rw [h4, ht]
    · simp only [Members.saveTotal_wsum]
      simp only [Members.saveTotal, Snap.cur_save]
      rw [h4, ht]
    · exact hi.ids
  · simp only [paid_report, Members.saveTotal_wsum, hm, h4]
    show _ + claimSum s + 0 = _
    omega
  · rfl
  · right; refine ⟨s.mem.total + a, ?_⟩; rw [← h5.1]; rfl
  · right; refine ⟨s.mem.total + a, ?_⟩; rw [← h5.2.1]; rfl
  · exact le_refl _
  · intro i _; exact Or.inr rfl

theorem effect_addTokenClaims {s : State} (hi : Inv s) {e : Env} {a : Nat} {l : List UserClaim} {r : State × List Out}
    {m : Msg} (hm : m.transferred s.asset = a) (h : addTokenClaims s a l = .ok r) : Effect s e m r.1 r.2 := by
  obtain ⟨h0, h1, h2⟩ := addTokenClaims_ok h
  obtain ⟨i1, i2, i3, i4, i5, i6⟩ := addClaims_loop l h2
  have hsum := addClaims_sum l (fun i c hc => (hi.ids i c hc).2) h2
  simp only at i1 i2 i3 i4 i5 i6 hsum
  constructor
  · constructor
    · rw [i4.1]; exact hi.height
    · rw [i4.1]; exact hi.seconds
    · intro i c hc
      by_cases hlt : i < s.nextClaim
      · rw [i5 i hlt] at hc
        have := hi.ids i c hc
        exact ⟨this.1, by omega⟩
      · obtain ⟨j, rfl⟩ : ∃ j, i = s.nextClaim + j := ⟨i - s.nextClaim, by omega⟩
        rw [i6 j] at hc
        cases hl : l[j]? with
        | none =>
          rw [hl] at hc
          have := (hi.ids _ c hc).2
          omega
        | some d =>
          rw [hl] at hc
          cases hc
          have := (List.getElem?_eq_some_iff.1 hl).1
          exact ⟨rfl, by omega⟩
  · rw [i4.1, hsum, h0, hm, h1]
    simp only [paid, List.map_nil, List.sum_nil]
    omega
  · exact i4.2.1
  · rw [i4.1]; exact Or.inl rfl
  · rw [i4.1]; exact Or.inl rfl
  · omega
  · intro i hlt; exact Or.inr (i5 i hlt)

theorem effect_unstake {s : State} (hi : Inv s) {e : Env} {a : Nat} {r : State × List Out} {m : Msg}
    (hm : m.transferred s.asset = 0) (h : unstake s e a = .ok r) : Effect s e m r.1 r.2 := by
  obtain ⟨h0, h1, h2, rfl⟩ := unstake_ok_iff.1 h
  have hw := Members.wsum_setWeight s.mem e.sender (s.mem.weight e.sender - a)
  have ht := hi.total
  have hs := s.claims.sum_set (fun _ c => c.amount) s.nextClaim
    ⟨s.nextClaim, e.sender, a, releaseAt s.unlocking e.block⟩
  have hn : s.claims.get s.nextClaim = none := by
    cases hg : s.claims.get s.nextClaim with
    | none => rfl
    | some c => have := (hi.ids _ _ hg).2; omega
  rw [hn] at hs
  simp only [Map.contrib_none, Nat.add_zero] at hs
  constructor
  · constructor
    · simp only [Members.saveTotal_wsum]
      simp only [Members.saveTotal, Snap.cur_save]
      congr 1
      omega
    · simp only [Members.saveTotal_wsum]
      simp only [Members.saveTotal, Snap.cur_save]
      congr 1
      omega
    · intro i c hc
      simp only [Map.get_set] at hc ⊢
      split at hc
      · rename_i hii
        cases hc
        exact ⟨hii, by omega⟩
      · have := hi.ids i c hc
        exact ⟨this.1, by omega⟩
  · simp only [paid_report, Members.saveTotal_wsum, hm, claimSum, hs]
    omega
  · rfl
  · exact Or.inr ⟨_, rfl⟩
  · exact Or.inr ⟨_, rfl⟩
  · simp only; omega
  · intro i hlt
    right
    simp only
    rw [Map.get_set_ne _ _ (by omega)]

theorem sum_filter_add (m : Map Nat Claim) (p : Claim → Bool) :
    (m.filter (fun _ c => !p c)).sum (fun _ c => c.amount) + m.sum (fun _ c => if p c then c.amount else 0) =
      m.sum (fun _ c => c.amount) := by
  unfold Map.sum Map.filter
  simp only
  generalize m.entries = l
  induction l with
  | nil => rfl
  | cons x t ih =>
    rw [List.filter_cons]
    by_cases hp : p x.2 = true
    · simp only [hp, Bool.not_true, Bool.false_eq_true, if_false, List.map_cons, List.sum_cons, if_true]
      omega
    · simp only [hp, Bool.not_false, if_true, List.map_cons, List.sum_cons, Bool.false_eq_true, if_false]
      omega

theorem effect_claim {s : State} (hi : Inv s) {e : Env} {u : Option Addr} {r : State × List Out} {m : Msg}
    (hm : m.transferred s.asset = 0) (h : claim s e u = .ok r) : Effect s e m r.1 r.2 := by
  obtain ⟨h0, h1, rfl⟩ := (claim_ok_iff hi).1 h
  have hget : ∀ i, (s.claims.filter (fun _ c => !takes e.sender e.block c)).get i = none ∨
      (s.claims.filter (fun _ c => !takes e.sender e.block c)).get i = s.claims.get i := by
    intro i
    rw [Map.get_filter]
    cases hg : s.claims.get i with
    | none => exact Or.inl rfl
    | some c =>
      by_cases hp : takes e.sender e.block c = true
      · left; simp [Option.filter, hp]
      · right; simp [Option.filter, hp]
  constructor
  · constructor
    · exact hi.height
    · exact hi.seconds
    · intro i c hc
      simp only at hc ⊢
      rcases hget i with h | h
      · rw [h] at hc; cases hc
      · rw [h] at hc; exact hi.ids i c hc
  · have := sum_filter_add s.claims (takes e.sender e.block)
    simp only [paid, List.map_cons, List.map_nil, List.sum_cons, List.sum_nil, claimSum, hm]
    omega
  · rfl
  · exact Or.inl rfl
  · exact Or.inl rfl
  · exact le_refl _
  · intro i _; exact hget i

theorem effect_same {s s' : State} (hi : Inv s) {e : Env} {m : Msg} (hm : m.transferred s.asset = 0)
    (h1 : s'.mem.weights = s.mem.weights) (h2 : s'.mem.byHeight = s.mem.byHeight)
    (h3 : s'.mem.bySeconds = s.mem.bySeconds) (h4 : s'.claims = s.claims) (h5 : s'.nextClaim = s.nextClaim)
    (h6 : s'.asset = s.asset) : Effect s e m s' [] := by
  have hw : s'.mem.wsum = s.mem.wsum := by unfold Members.wsum; rw [h1]
  constructor
  · constructor
    · rw [h2, hw]; exact hi.height
    · rw [h3, hw]; exact hi.seconds
    · rw [h4, h5]; exact hi.ids
  · unfold claimSum
    rw [hw, h4, hm]
    simp [paid]
  · exact h6
  · exact Or.inl h2
  · exact Or.inl h3
  · rw [h5]
  · intro i _; right; rw [h4]

theorem effect_exec {k : Kind} {s : State} (hi : Inv s) {e : Env} {m : Msg} {r : State × List Out}
    (h : exec k s e m = .ok r) : Effect s e m r.1 r.2 := by
  cases m with
  | receive a hk =>
    simp only [exec] at h
    split at h
    · unfold receive at h
      rw [ite_ok_iff] at h
      obtain ⟨_, h⟩ := h
      cases hk with
      | stake u => exact effect_stakeFor hi rfl h
      | addStakes l => exact effect_addStakes hi rfl h
      | addClaims l => exact effect_addTokenClaims hi rfl h
      | unknown => cases h
    · cases h
  | stakeDenom f u =>
    simp only [exec] at h
    split at h
    · unfold stakeDenom at h
      split at h
      · rw [ite_ok_iff] at h
        obtain ⟨h1, h⟩ := h
        refine effect_stakeFor hi ?_ h
        simp only [ne_eq, not_not] at h1
        simp [Msg.transferred, h1]
      · cases h
    · cases h
  | unstake a => exact effect_unstake hi rfl h
  | claim u => exact effect_claim hi rfl h
  | updateUnlocking p =>
    obtain ⟨_, rfl⟩ := updateUnlocking_ok_iff.1 h
    exact effect_same hi rfl rfl rfl rfl rfl rfl rfl
  | addHook a =>
    simp only [exec, bind_ok_iff, Members.addHook, ite_ok_iff, pure_ok_iff] at h
    obtain ⟨m, ⟨_, h1⟩, rfl⟩ := h
    cases h1
    exact effect_same hi rfl rfl rfl rfl rfl rfl rfl
  | removeHook a =>
    simp only [exec, bind_ok_iff, Members.removeHook, ite_ok_iff, pure_ok_iff] at h
    obtain ⟨m, ⟨_, h1⟩, rfl⟩ := h
    cases h1
    exact effect_same hi rfl rfl rfl rfl rfl rfl rfl

/-- A message that is not accepted changes nothing; an accepted one has its effect. -/
theorem step_cases (k : Kind) (s : State) (c : Call) :
    (accepted k s c ∧ ∃ r, exec k s c.env c.msg = .ok r ∧ step k s c = r) ∨
    (¬ accepted k s c ∧ step k s c = (s, [])) := by
  unfold step accepted
  cases he : exec k s c.env c.msg with
  | error x => right; exact ⟨(by rintro ⟨_, r, h⟩; cases h), rfl⟩
  | ok r =>
    cases hd : c.delivered with
    | true => left; exact ⟨⟨rfl, r, rfl⟩, r, rfl, rfl⟩
    | false => right; exact ⟨(by rintro ⟨h, _⟩; cases h), rfl⟩

theorem inv_step {k : Kind} {s : State} (hi : Inv s) (c : Call) : Inv (step k s c).1 := by
  rcases step_cases k s c with ⟨_, r, h1, h2⟩ | ⟨_, h2⟩
  · rw [h2]; exact (effect_exec hi h1).inv
  · rw [h2]; exact hi

theorem inv_run {k : Kind} {s : State} (hi : Inv s) (h : List Call) : Inv (run k s h) := by
  induction h generalizing s with
  | nil => exact hi
  | cons c t ih => exact ih (inv_step hi c)

theorem Reachable.inv {k : Kind} {s : State} (h : Reachable k s) : Inv s := by
  obtain ⟨b, as, u, hk, x, y, h, rfl⟩ := h
  exact inv_run (inv_init b as u hk x y) h

theorem run_append (k : Kind) (s : State) (h1 h2 : List Call) : run k s (h1 ++ h2) = run k (run k s h1) h2 := by
  induction h1 generalizing s with
  | nil => rfl
  | cons c t ih => exact ih _

theorem reachable_step {k : Kind} {s : State} (h : Reachable k s) (c : Call) : Reachable k (step k s c).1 := by
  obtain ⟨b, as, u, hk, x, y, h, rfl⟩ := h
  exact ⟨b, as, u, hk, x, y, h ++ [c], by rw [run_append]; rfl⟩

/-- Conservation along a history. -/
theorem conserve_run {k : Kind} {s : State} (hi : Inv s) (h : List Call) :
    (run k s h).mem.wsum + claimSum (run k s h) + paid (sent k s h) =
      s.mem.wsum + claimSum s + received k s h := by
  induction h generalizing s with
  | nil => simp [run, sent, received, paid]
  | cons c t ih =>
    have hi' := inv_step (k := k) hi c
    have := ih hi'
    simp only [run, sent, received]
    have hp : ∀ a b, paid (a ++ b) = paid a + paid b := by intro a b; simp [paid]
    rw [hp]
    rcases step_cases k s c with ⟨ha, r, h1, h2⟩ | ⟨ha, h2⟩
    · have he := (effect_exec hi h1).conserve
      rw [if_pos ha]
      rw [h2] at this ⊢
      omega
    · rw [if_neg ha]
      rw [h2] at this ⊢
      simp only [paid, List.map_nil, List.sum_nil] at this ⊢
      omega

/-- The snapshot by height along a history. -/
theorem byHeight_run {k : Kind} {s : State} (hi : Inv s) (h : List Call) {H : Nat}
    (hmono : (h.map (·.env.block.height)).Pairwise (· ≤ ·))
    (hge : ∀ c ∈ h, H ≤ c.env.block.height ∧ s.mem.byHeight.upTo c.env.block.height) :
    (run k s h).mem.byHeight.mayLoadAt H = s.mem.byHeight.mayLoadAt H := by
  induction h generalizing s with
  | nil => rfl
  | cons c t ih =>
    simp only [List.map_cons, List.pairwise_cons, List.mem_map, forall_exists_index, and_imp,
      forall_apply_eq_imp_iff₂] at hmono
    have hc := hge c List.mem_cons_self
    have hs : (step k s c).1.mem.byHeight = s.mem.byHeight ∨
        ∃ v, (step k s c).1.mem.byHeight = s.mem.byHeight.save v c.env.block.height := by
      rcases step_cases k s c with ⟨_, r, h1, h2⟩ | ⟨_, h2⟩
      · rw [h2]; exact (effect_exec hi h1).byHeight
      · rw [h2]; exact Or.inl rfl
    rw [run, ih (inv_step hi c) hmono.2]
    · rcases hs with hs | ⟨v, hs⟩
      · rw [hs]
      · rw [hs, Snap.mayLoadAt_save hc.1 hc.2]
    · intro d hd
      refine ⟨(hge d (List.mem_cons_of_mem _ hd)).1, ?_⟩
      rcases hs with hs | ⟨v, hs⟩
      · rw [hs]; exact (hge d (List.mem_cons_of_mem _ hd)).2
      · rw [hs]; exact Snap.upTo_mono (Snap.upTo_save v hc.2 (le_refl _)) (hmono.1 d hd)

/-- The snapshot by seconds along a history. -/
theorem bySeconds_run {k : Kind} {s : State} (hi : Inv s) (h : List Call) {H : Nat}
    (hmono : (h.map (·.env.block.seconds)).Pairwise (· ≤ ·))
    (hge : ∀ c ∈ h, H ≤ c.env.block.seconds ∧ s.mem.bySeconds.upTo c.env.block.seconds) :
    (run k s h).mem.bySeconds.mayLoadAt H = s.mem.bySeconds.mayLoadAt H := by
  induction h generalizing s with
  | nil => rfl
  | cons c t ih =>
    simp only [List.map_cons, List.pairwise_cons, List.mem_map, forall_exists_index, and_imp,
      forall_apply_eq_imp_iff₂] at hmono
    have hc := hge c List.mem_cons_self
    have hs : (step k s c).1.mem.bySeconds = s.mem.bySeconds ∨
        ∃ v, (step k s c).1.mem.bySeconds = s.mem.bySeconds.save v c.env.block.seconds := by
      rcases step_cases k s c with ⟨_, r, h1, h2⟩ | ⟨_, h2⟩
      · rw [h2]; exact (effect_exec hi h1).bySeconds
      · rw [h2]; exact Or.inl rfl
    rw [run, ih (inv_step hi c) hmono.2]
    · rcases hs with hs | ⟨v, hs⟩
      · rw [hs]
      · rw [hs, Snap.mayLoadAt_save hc.1 hc.2]
    · intro d hd
      refine ⟨(hge d (List.mem_cons_of_mem _ hd)).1, ?_⟩
      rcases hs with hs | ⟨v, hs⟩
      · rw [hs]; exact (hge d (List.mem_cons_of_mem _ hd)).2
      · rw [hs]; exact Snap.upTo_mono (Snap.upTo_save v hc.2 (le_refl _)) (hmono.1 d hd)

/-- The logged heights come from the history. -/
theorem logs_run {k : Kind} {s : State} (hi : Inv s) (h : List Call) (j : Nat) :
    ((run k s h).mem.byHeight.log.has j = true → s.mem.byHeight.log.has j = true ∨
      ∃ c ∈ h, c.env.block.height = j) ∧
    ((run k s h).mem.bySeconds.log.has j = true → s.mem.bySeconds.log.has j = true ∨
      ∃ c ∈ h, c.env.block.seconds = j) := by
  induction h generalizing s with
  | nil => exact ⟨Or.inl, Or.inl⟩
  | cons c t ih =>
    have hs : ((step k s c).1.mem.byHeight = s.mem.byHeight ∨
        ∃ v, (step k s c).1.mem.byHeight = s.mem.byHeight.save v c.env.block.height) ∧
        ((step k s c).1.mem.bySeconds = s.mem.bySeconds ∨
        ∃ v, (step k s c).1.mem.bySeconds = s.mem.bySeconds.save v c.env.block.seconds) := by
      rcases step_cases k s c with ⟨_, r, h1, h2⟩ | ⟨_, h2⟩
      · rw [h2]; exact ⟨(effect_exec hi h1).byHeight, (effect_exec hi h1).bySeconds⟩
      · rw [h2]; exact ⟨Or.inl rfl, Or.inl rfl⟩
    have := ih (inv_step (k := k) hi c)
    rw [run]
    constructor
    · intro hj
      rcases this.1 hj with h1 | ⟨d, hd, h1⟩
      · rcases hs.1 with h2 | ⟨v, h2⟩
        · rw [h2] at h1; exact Or.inl h1
        · rw [h2, Snap.has_log_save] at h1
          simp only [Bool.or_eq_true, decide_eq_true_eq] at h1
          rcases h1 with h1 | h1
          · exact Or.inr ⟨c, List.mem_cons_self, h1⟩
          · exact Or.inl h1
      · exact Or.inr ⟨d, List.mem_cons_of_mem _ hd, h1⟩
    · intro hj
      rcases this.2 hj with h1 | ⟨d, hd, h1⟩
      · rcases hs.2 with h2 | ⟨v, h2⟩
        · rw [h2] at h1; exact Or.inl h1
        · rw [h2, Snap.has_log_save] at h1
          simp only [Bool.or_eq_true, decide_eq_true_eq] at h1
          rcases h1 with h1 | h1
          · exact Or.inr ⟨c, List.mem_cons_self, h1⟩
          · exact Or.inl h1
      · exact Or.inr ⟨d, List.mem_cons_of_mem _ hd, h1⟩

theorem init_logs {b : Block} {asset : Addr} {u : Duration} {hooks : List Addr} {x y : List (Nat × Nat)} {j : Nat} :
    ((init b asset u hooks x y).mem.byHeight.log.has j = true → j = b.height ∨ j ∈ x.map (·.2)) ∧
    ((init b asset u hooks x y).mem.bySeconds.log.has j = true → j = b.seconds ∨ j ∈ y.map (·.2)) := by
  have key : ∀ (l : List (Nat × Nat)) (t : Nat), ((Snap.empty.saves l).save 0 t).log.has j = true →
      j = t ∨ j ∈ l.map (·.2) := by
    intro l t h
    rw [Snap.has_log_save] at h
    simp only [Bool.or_eq_true, decide_eq_true_eq] at h
    rcases h with rfl | h
    · exact Or.inl rfl
    · rcases hooks_saves_cur l _ j h with h | h
      · simp [Snap.empty, Map.has] at h
      · exact Or.inr h
  exact ⟨key x b.height, key y b.seconds⟩

end Verif.Staking
