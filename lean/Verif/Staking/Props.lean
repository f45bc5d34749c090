import Verif.Staking.Lemmas2
import Mathlib.Data.List.Infix

/-!
# Token and denom staking: properties C16-C27

The theorems hold for both kinds of contract (`k`). Sample histories show that the hypotheses can be met.
-/

namespace Verif.Staking
open Verif

/-! ## Sample histories -/

/-- Environment of the samples: controller 9, token or denom 5, user 66 restricted. -/
def smpEnv (h : Nat) (sender : Addr) : Env := ⟨⟨h, h * 10 ^ 9⟩, sender, 9, fun u => decide (u = 66)⟩

/-- Sample start: two hooks, an unlocking period of 100 seconds. -/
def smpInit : State := init ⟨10, 10 * 10 ^ 9⟩ 5 (.time 100) [7, 8] [] []

/-- Sample history of the token contract. -/
def smpToken : List Call :=
  [⟨smpEnv 11 5, .receive 100 (.stake 1), true⟩,
   ⟨smpEnv 12 5, .receive 60 (.addStakes [(1, 10), (2, 20), (66, 0), (2, 30)]), true⟩,
   ⟨smpEnv 13 1, .unstake 40, true⟩,
   ⟨smpEnv 14 5, .receive 7 (.addClaims [⟨3, 4, .height 20⟩, ⟨1, 3, .height 20⟩]), true⟩,
   ⟨smpEnv 14 5, .receive 50 (.stake 66), true⟩,
   ⟨smpEnv 15 1, .unstake 1000, true⟩,
   ⟨smpEnv 40 1, .claim none, true⟩]

/-- Sample history of the denom contract. -/
def smpDenom : List Call :=
  [⟨smpEnv 11 1, .stakeDenom [⟨5, 100⟩] none, true⟩,
   ⟨smpEnv 12 1, .stakeDenom [⟨5, 100⟩, ⟨6, 1⟩] none, true⟩,
   ⟨smpEnv 13 1, .unstake 40, true⟩,
   ⟨smpEnv 400 1, .claim (some 1), true⟩]

theorem smp_reachable : Reachable .token (run .token smpInit (smpToken.take 4)) := ⟨_, _, _, _, _, _, _, rfl⟩

/-! ## C16 -/

/-- C16. The reported total weight is the sum of the weights of all members. -/
theorem C16_total_is_sum {k : Kind} {s : State} (h : Reachable k s) : queryTotal s .never = weightSum s :=
  h.inv.total

example : Reachable .token (run .token smpInit smpToken) ∧
    queryTotal (run .token smpInit smpToken) .never = 120 ∧ queryWeight (run .token smpInit smpToken) 1 = 70 :=
  ⟨⟨_, _, _, _, _, _, _, rfl⟩, by decide +kernel⟩

/-! ## C17 -/

/-- C17. What was received is what was paid plus all stakes plus all outstanding claims. -/
theorem C17_conservation (k : Kind) (b : Block) (asset : Addr) (u : Duration) (hooks : List Addr)
    (x y : List (Nat × Nat)) (h : List Call) :
    received k (init b asset u hooks x y) h =
      paid (sent k (init b asset u hooks x y) h) + weightSum (run k (init b asset u hooks x y) h) +
        claimSum (run k (init b asset u hooks x y) h) := by
  have := conserve_run (k := k) (inv_init b asset u hooks x y) h
  have h1 : (init b asset u hooks x y).mem.wsum = 0 := rfl
  have h2 : claimSum (init b asset u hooks x y) = 0 := rfl
  unfold weightSum
  unfold Members.wsum at this h1
  omega

example : received .token smpInit smpToken = 167 ∧ paid (sent .token smpInit smpToken) = 3 ∧
    claimSum (run .token smpInit smpToken) = 44 := by decide +kernel

example : received .denom smpInit smpDenom = 100 ∧ paid (sent .denom smpInit smpDenom) = 40 := by decide +kernel

/-! ## C18 -/

/-- C18. `Unstake` succeeds exactly when the weight of the sender is at least the amount (and the counter of claims is
not exhausted). It lowers weight and total by the amount, adds one claim with a fresh id, and changes nothing else. -/
theorem C18_unstake {k : Kind} {s : State} (h : Reachable k s) (e : Env) (a : Nat) :
    ((∃ r, exec k s e (.unstake a) = .ok r) ↔ a ≤ queryWeight s e.sender ∧ s.nextClaim + 1 < 2 ^ 64) ∧
    (∀ r, exec k s e (.unstake a) = .ok r →
      queryWeight r.1 e.sender = queryWeight s e.sender - a ∧
      queryTotal r.1 .never = queryTotal s .never - a ∧
      (∀ v, v ≠ e.sender → queryWeight r.1 v = queryWeight s v) ∧
      s.claims.get s.nextClaim = none ∧
      (∃ c, r.1.claims.get s.nextClaim = some c ∧ c.user = e.sender ∧ c.amount = a) ∧
      (∀ i, i ≠ s.nextClaim → r.1.claims.get i = s.claims.get i) ∧
      r.1.unlocking = s.unlocking ∧ r.1.asset = s.asset) := by
  have hi := h.inv
  constructor
  · constructor
    · rintro ⟨r, hr⟩
      have := unstake_ok_iff.1 hr
      unfold M64 at this
      exact ⟨this.1, this.2.2.1⟩
    · rintro ⟨h1, h2⟩
      have h3 := s.mem.weight_le_wsum e.sender
      have h4 := hi.total
      unfold queryWeight at h1
      exact ⟨_, unstake_ok_iff.2 ⟨h1, by omega, by unfold M64; exact h2, rfl⟩⟩
  · intro r hr
    obtain ⟨h1, h2, h3, rfl⟩ := unstake_ok_iff.1 hr
    refine ⟨?_, rfl, ?_, ?_, ?_, ?_, rfl, rfl⟩
    · simp only [queryWeight, Members.saveTotal_weight, Members.weight_setWeight, if_true]
    · intro v hv
      simp only [queryWeight, Members.saveTotal_weight, Members.weight_setWeight, if_neg hv]
    · cases hg : s.claims.get s.nextClaim with
      | none => rfl
      | some c => have := (hi.ids _ _ hg).2; omega
    · exact ⟨_, Map.get_set_self _ _ _, rfl, rfl⟩
    · intro i hi
      exact Map.get_set_ne _ _ (fun hh => hi hh.symm)

example : Reachable .token (run .token smpInit (smpToken.take 4)) ∧
    (exec .token (run .token smpInit (smpToken.take 4)) (smpEnv 15 2) (.unstake 50)).toOption.isSome = true ∧
    (exec .token (run .token smpInit (smpToken.take 4)) (smpEnv 15 2) (.unstake 51)).toOption.isSome = false :=
  ⟨smp_reachable, by decide +kernel⟩

/-! ## C19 -/

theorem takes_eq (u : Addr) (b : Block) (c : Claim) : takes u b c = decide (Due u b c) := by
  unfold takes isReleasable
  rw [Bool.eq_iff_iff]
  simp only [Bool.and_eq_true, decide_eq_true_eq]
  unfold Due
  cases c.release <;> simp

/-- C19. `Claim` succeeds exactly for claims of the sender (whose sum fits 128 bits). It pays the sender exactly the
sum of the sender's claims that are due and deletes exactly those. -/
theorem C19_claim {k : Kind} {s : State} (h : Reachable k s) (e : Env) (u : Option Addr) :
    ((∃ r, exec k s e (.claim u) = .ok r) ↔ (u = none ∨ u = some e.sender) ∧ dueSum s e.sender e.block < 2 ^ 128) ∧
    (∀ r, exec k s e (.claim u) = .ok r →
      r.2 = [.pay e.sender (dueSum s e.sender e.block)] ∧
      (∀ i c, s.claims.get i = some c → Due e.sender e.block c → r.1.claims.get i = none) ∧
      (∀ i c, s.claims.get i = some c → ¬ Due e.sender e.block c → r.1.claims.get i = some c) ∧
      (∀ i, s.claims.get i = none → r.1.claims.get i = none) ∧
      (∀ v, queryWeight r.1 v = queryWeight s v) ∧ queryTotal r.1 .never = queryTotal s .never ∧
      r.1.nextClaim = s.nextClaim) := by
  have hi := h.inv
  have hsum : (s.claims.sum fun _ c => if takes e.sender e.block c then c.amount else 0) =
      dueSum s e.sender e.block := by
    unfold dueSum
    simp only [takes_eq, decide_eq_true_eq]
  have hu : u.getD e.sender = e.sender ↔ (u = none ∨ u = some e.sender) := by
    cases u <;> simp
  constructor
  · constructor
    · rintro ⟨r, hr⟩
      have := (claim_ok_iff hi).1 hr
      rw [hsum, hu] at this
      exact ⟨this.1, this.2.1⟩
    · rintro ⟨h1, h2⟩
      exact ⟨_, (claim_ok_iff hi).2 ⟨hu.2 h1, by rw [hsum]; exact h2, rfl⟩⟩
  · intro r hr
    obtain ⟨h1, h2, rfl⟩ := (claim_ok_iff hi).1 hr
    refine ⟨by rw [hsum], ?_, ?_, ?_, fun _ => rfl, rfl, rfl⟩
    · intro i c hc hd
      simp only [Map.get_filter, hc, takes_eq]
      simp [Option.filter, hd]
    · intro i c hc hd
      simp only [Map.get_filter, hc, takes_eq]
      simp [Option.filter, hd]
    · intro i hc
      simp only [Map.get_filter, hc]
      rfl

/-- C19, exactly once: whatever the user claims again in the same block pays nothing. -/
theorem C19_once {k : Kind} {s : State} (h : Reachable k s) (e : Env) (u v : Option Addr) (r r' : State × List Out)
    (h1 : exec k s e (.claim u) = .ok r) (h2 : exec k r.1 e (.claim v) = .ok r') :
    r'.2 = [.pay e.sender 0] ∧ r'.1.claims = r.1.claims := by
  have hs := ((C19_claim h e u).2 r h1)
  have hr : Reachable k r.1 := by
    have := reachable_step h ⟨e, .claim u, true⟩
    simpa only [step, h1, if_true] using this
  have hn : ∀ i c, r.1.claims.get i = some c → ¬ Due e.sender e.block c := by
    intro i c hc hd
    cases hg : s.claims.get i with
    | none => rw [hs.2.2.2.1 i hg] at hc; cases hc
    | some d =>
      by_cases hd' : Due e.sender e.block d
      · rw [hs.2.1 i d hg hd'] at hc; cases hc
      · rw [hs.2.2.1 i d hg hd'] at hc
        cases hc
        exact hd' hd
  have hs' := ((C19_claim hr e v).2 r' h2)
  constructor
  · rw [hs'.1]
    have : dueSum r.1 e.sender e.block = 0 := by
      unfold dueSum
      have hc : (r.1.claims.sum fun _ c => if Due e.sender e.block c then c.amount else 0) =
          r.1.claims.sum (fun _ _ => 0) := by
        apply Map.sum_congr
        intro i c hc
        rw [if_neg (hn i c hc)]
      rw [hc]
      simp [Map.sum]
    rw [this]
  · apply Map.ext_get
    intro i
    cases hg : r.1.claims.get i with
    | none => exact hs'.2.2.2.1 i hg
    | some d => exact hs'.2.2.1 i d hg (hn i d hg)

example : Reachable .token (run .token smpInit (smpToken.take 4)) ∧
    dueSum (run .token smpInit (smpToken.take 4)) 1 ⟨40, 40 * 10 ^ 9⟩ = 3 ∧
    dueSum (run .token smpInit (smpToken.take 4)) 1 ⟨200, 200 * 10 ^ 9⟩ = 43 :=
  ⟨smp_reachable, by decide +kernel⟩

/-! ## C20 -/

theorem old_run {k : Kind} {s : State} (hi : Inv s) (h : List Call) :
    s.nextClaim ≤ (run k s h).nextClaim ∧
    ∀ i, i < s.nextClaim → (run k s h).claims.get i = none ∨ (run k s h).claims.get i = s.claims.get i := by
  induction h generalizing s with
  | nil => exact ⟨le_refl _, fun i _ => Or.inr rfl⟩
  | cons c t ih =>
    have hi' := inv_step (k := k) hi c
    obtain ⟨h1, h2⟩ := ih hi'
    have hs : s.nextClaim ≤ (step k s c).1.nextClaim ∧ ∀ i, i < s.nextClaim →
        (step k s c).1.claims.get i = none ∨ (step k s c).1.claims.get i = s.claims.get i := by
      rcases step_cases k s c with ⟨_, r, h3, h4⟩ | ⟨_, h4⟩
      · rw [h4]; exact ⟨(effect_exec hi h3).next, (effect_exec hi h3).old⟩
      · rw [h4]; exact ⟨le_refl _, fun i _ => Or.inr rfl⟩
    rw [run]
    refine ⟨le_trans hs.1 h1, fun i hlt => ?_⟩
    rcases h2 i (by omega) with h5 | h5
    · exact Or.inl h5
    · rcases hs.2 i hlt with h6 | h6
      · left; rw [h5, h6]
      · right; rw [h5, h6]

/-- C20. An id that was ever used is below the counter, the counter never decreases, and below the counter nothing is
ever written again: whatever is stored there later is what was stored before, and what was paid stays absent. Every
claim is stored under its own id. -/
theorem C20_ids_never_reused {k : Kind} {s : State} (h : Reachable k s) (t : List Call) :
    (∀ i c, s.claims.get i = some c → c.id = i ∧ i < s.nextClaim) ∧
    s.nextClaim ≤ (run k s t).nextClaim ∧
    (∀ i, i < s.nextClaim → s.claims.get i = none → (run k s t).claims.get i = none) ∧
    (∀ i c d, s.claims.get i = some c → (run k s t).claims.get i = some d → d = c) := by
  have hi := h.inv
  obtain ⟨h1, h2⟩ := old_run (k := k) hi t
  refine ⟨hi.ids, h1, ?_, ?_⟩
  · intro i hlt hn
    rcases h2 i hlt with h3 | h3
    · exact h3
    · rw [h3, hn]
  · intro i c d hc hd
    rcases h2 i (hi.ids i c hc).2 with h3 | h3
    · rw [h3] at hd; cases hd
    · rw [h3, hc] at hd; cases hd; rfl

/-- C20. A claim made by `Unstake` gets an id that no earlier claim had: at every earlier moment of the history the id
was not below the counter. -/
theorem C20_unstake_fresh {k : Kind} {s : State} (h : Reachable k s) (t : List Call) (e : Env) (a : Nat)
    (r : State × List Out) (hr : exec k (run k s t) e (.unstake a) = .ok r) :
    ∃ i c, r.1.claims.get i = some c ∧ (run k s t).claims.get i = none ∧ s.claims.get i = none ∧ s.nextClaim ≤ i ∧
      c.user = e.sender ∧ c.amount = a := by
  have hi := h.inv
  have hi' := inv_run (k := k) hi t
  obtain ⟨h1, -⟩ := old_run (k := k) hi t
  obtain ⟨_, _, _, rfl⟩ := unstake_ok_iff.1 hr
  refine ⟨(run k s t).nextClaim, _, Map.get_set_self _ _ _, ?_, ?_, h1, rfl, rfl⟩
  · cases hg : (run k s t).claims.get (run k s t).nextClaim with
    | none => rfl
    | some c => have := (hi'.ids _ _ hg).2; omega
  · cases hg : s.claims.get (run k s t).nextClaim with
    | none => rfl
    | some c => have := (hi.ids _ _ hg).2; omega

example : (run .token smpInit smpToken).nextClaim = 3 ∧ (run .token smpInit smpToken).claims.get 2 = none ∧
    (run .token smpInit (smpToken.take 4)).claims.get 2 = some ⟨2, 1, 3, .height 20⟩ := by decide +kernel

/-! ## C21 -/

/-- Who pays for a message: the token contract announces a transfer, or exactly one coin of the denom is attached. -/
def PaysIn (k : Kind) (s : State) (e : Env) (m : Msg) : Prop :=
  (k = .token ∧ e.sender = s.asset ∧ ∃ a h, m = .receive a h) ∨
  (k = .denom ∧ ∃ a u, m = .stakeDenom [⟨s.asset, a⟩] u)

theorem share_bound {s : State} (hi : Inv s) {k : Kind} {e : Env} {m : Msg} {r : State × List Out}
    (h : exec k s e m = .ok r) :
    (∃ v, s.mem.weight v < r.1.mem.weight v) →
    PaysIn k s e m ∧ ∀ l : List Addr, l.Nodup →
      (l.map r.1.mem.weight).sum ≤ (l.map s.mem.weight).sum + m.transferred s.asset := by
  have single : ∀ (u : Addr) (a : Nat) (w w' : Addr → Nat), (∀ v, w' v = w v + if v = u then a else 0) →
      ∀ l : List Addr, l.Nodup → (l.map w').sum ≤ (l.map w).sum + a := by
    intro u a w w' hw l hl
    have : (l.map w').sum ≤ (l.map w).sum + (if u ∈ l then a else 0) := by
      induction l with
      | nil => simp
      | cons x t ih =>
        rw [List.nodup_cons] at hl
        have := ih hl.2
        simp only [List.map_cons, List.sum_cons, hw x, List.mem_cons]
        by_cases hx : x = u
        · subst hx
          rw [if_neg hl.1] at this
          simp
          omega
        · have hx' : ¬ u = x := fun hh => hx hh.symm
          simp only [hx, hx', if_false, false_or]
          omega
    split at this <;> omega
  have stk : ∀ {u : Addr} {a : Nat} {r : State × List Out}, stakeFor s e u a = .ok r →
      ∀ l : List Addr, l.Nodup → (l.map r.1.mem.weight).sum ≤ (l.map s.mem.weight).sum + a := by
    intro u a r h
    obtain ⟨_, _, _, rfl⟩ := stakeFor_ok_iff.1 h
    apply single u a
    intro v
    simp only [Members.saveTotal_weight, Members.weight_setWeight]
    by_cases hv : v = u
    · subst hv; simp
    · simp [hv]
  rintro ⟨v, hv⟩
  cases m with
  | receive a hk =>
    simp only [exec] at h
    split at h
    · rename_i hkk
      unfold receive at h
      rw [ite_ok_iff] at h
      obtain ⟨hs, h⟩ := h
      refine ⟨Or.inl ⟨hkk, not_not.1 hs, a, hk, rfl⟩, ?_⟩
      cases hk with
      | stake u => exact stk h
      | addStakes l =>
        obtain ⟨h0, _, _, mm, ch, rfl, h3, _⟩ := addStakes_ok h
        intro l' hl'
        show _ ≤ _ + a
        have : ∀ (ls : List (Addr × Nat)), ((l'.map (shareOf ls)).sum) ≤ listSum ls := by
          intro ls
          induction ls with
          | nil =>
            have : (l'.map (shareOf [])).sum = 0 := by
              clear hl'
              induction l' with
              | nil => rfl
              | cons x t ih => rw [List.map_cons, List.sum_cons, ih]; rfl
            omega
          | cons st t ih =>
            rw [listSum_cons]
            have := single st.1 st.2 (shareOf t) (shareOf (st :: t)) (by
              intro v; rw [shareOf_cons]; omega) l' hl'
            omega
        have h5 := this l
        have h6 : (l'.map (mm.saveTotal (s.mem.total + a) e.block).weight).sum =
            (l'.map s.mem.weight).sum + (l'.map (shareOf l)).sum := by
          clear h5 this hl'
          induction l' with
          | nil => rfl
          | cons x t ih =>
            simp only [List.map_cons, List.sum_cons, Members.saveTotal_weight, h3] at ih ⊢
            omega
        show (l'.map (mm.saveTotal (s.mem.total + a) e.block).weight).sum ≤ _
        rw [h6]
        omega
      | addClaims l =>
        obtain ⟨_, _, h2⟩ := addTokenClaims_ok h
        have := (addClaims_loop l h2).2.2.2.1.1
        simp only at this
        rw [this] at hv
        omega
      | unknown => cases h
    · cases h
  | stakeDenom f u =>
    simp only [exec] at h
    split at h
    · rename_i hkk
      unfold stakeDenom at h
      split at h
      · rename_i coin
        rw [ite_ok_iff] at h
        obtain ⟨h1, h⟩ := h
        simp only [ne_eq, not_not] at h1
        refine ⟨Or.inr ⟨hkk, coin.amount, u, by rw [← h1]⟩, ?_⟩
        have := stk h
        simpa [Msg.transferred, h1] using this
      · cases h
    · cases h
  | unstake a =>
    obtain ⟨_, _, _, rfl⟩ := unstake_ok_iff.1 h
    simp only [Members.saveTotal_weight, Members.weight_setWeight] at hv
    split at hv
    · rename_i hh; subst hh; omega
    · omega
  | claim u =>
    obtain ⟨_, _, rfl⟩ := (claim_ok_iff hi).1 h
    simp at hv
  | updateUnlocking p =>
    obtain ⟨_, rfl⟩ := updateUnlocking_ok_iff.1 h
    simp at hv
  | addHook a =>
    simp only [exec, bind_ok_iff, Members.addHook, ite_ok_iff, pure_ok_iff] at h
    obtain ⟨m, ⟨_, h1⟩, rfl⟩ := h
    cases h1
    exact absurd hv (lt_irrefl _)
  | removeHook a =>
    simp only [exec, bind_ok_iff, Members.removeHook, ite_ok_iff, pure_ok_iff] at h
    obtain ⟨m, ⟨_, h1⟩, rfl⟩ := h
    cases h1
    exact absurd hv (lt_irrefl _)

/-- C21. If any weight increases, the message is a `Receive` sent by the token contract (a payment of exactly one coin of
the denom), and the weights of any set of members together grow by at most the amount transferred. -/
theorem C21_only_transfer_stakes {k : Kind} {s : State} (h : Reachable k s) (c : Call) (v : Addr)
    (hv : queryWeight s v < queryWeight (step k s c).1 v) :
    PaysIn k s c.env c.msg ∧
    ∀ l : List Addr, l.Nodup →
      (l.map (queryWeight (step k s c).1)).sum ≤ (l.map (queryWeight s)).sum + c.msg.transferred s.asset := by
  rcases step_cases k s c with ⟨_, r, h1, h2⟩ | ⟨_, h2⟩
  · rw [h2] at hv ⊢
    exact share_bound h.inv h1 ⟨v, hv⟩
  · rw [h2] at hv
    exact absurd hv (lt_irrefl _)

example : queryWeight (run .token smpInit (smpToken.take 1)) 2 <
    queryWeight (step .token (run .token smpInit (smpToken.take 1))
      ⟨smpEnv 12 5, .receive 60 (.addStakes [(1, 10), (2, 20), (66, 0), (2, 30)]), true⟩).1 2 := by decide +kernel

/-! ## C22 -/

/-- C22. `AddStakes` succeeds exactly when the token contract sends it, the amounts sum to the transferred amount, no
restricted user gets stake, and the total fits 128 bits. Each user then gets exactly the sum of the user's entries. -/
theorem C22_add_stakes {s : State} (h : Reachable .token s) (e : Env) (a : Nat) (l : List (Addr × Nat)) :
    ((∃ r, exec .token s e (.receive a (.addStakes l)) = .ok r) ↔
      e.sender = s.asset ∧ (l.map (·.2)).sum = a ∧ (∀ st ∈ l, st.2 ≠ 0 → e.restricted st.1 = false) ∧
        queryTotal s .never + a < 2 ^ 128) ∧
    (∀ r, exec .token s e (.receive a (.addStakes l)) = .ok r →
      (∀ u, queryWeight r.1 u = queryWeight s u + shareOf l u) ∧
      queryTotal r.1 .never = queryTotal s .never + a ∧ r.1.claims = s.claims ∧ r.1.nextClaim = s.nextClaim) := by
  have hi := h.inv
  simp only [exec, if_true, receive, ite_ok_iff, ne_eq, not_not]
  constructor
  · constructor
    · rintro ⟨r, h1, h2⟩
      obtain ⟨h3, h4, h5, _⟩ := addStakes_ok h2
      exact ⟨h1, h3, h5, h4⟩
    · rintro ⟨h1, h2, h3, h4⟩
      obtain ⟨r, hr⟩ := addStakes_exists (a := a) hi h2 (by unfold M128; exact h4) h3
      exact ⟨r, h1, hr⟩
  · rintro r ⟨h1, h2⟩
    obtain ⟨h3, h4, h5, mm, ch, rfl, h6, h7, h8⟩ := addStakes_ok h2
    refine ⟨h6, rfl, rfl, rfl⟩

/-- C22. `AddClaims` succeeds exactly when the token contract sends it, the amounts sum to the transferred amount
(which fits 128 bits), and the counter of claims is not exhausted. It appends exactly the listed claims. -/
theorem C22_add_claims {s : State} (h : Reachable .token s) (e : Env) (a : Nat) (ha : a < 2 ^ 128)
    (l : List UserClaim) :
    ((∃ r, exec .token s e (.receive a (.addClaims l)) = .ok r) ↔
      e.sender = s.asset ∧ (l.map (·.amount)).sum = a ∧ (l = [] ∨ s.nextClaim + l.length < 2 ^ 64)) ∧
    (∀ r, exec .token s e (.receive a (.addClaims l)) = .ok r →
      r.1.mem = s.mem ∧ r.1.nextClaim = s.nextClaim + l.length ∧
      (∀ i, i < s.nextClaim → r.1.claims.get i = s.claims.get i) ∧
      (∀ j, r.1.claims.get (s.nextClaim + j) =
        (l[j]?).map (fun c => ⟨s.nextClaim + j, c.user, c.amount, c.release⟩))) := by
  have hi := h.inv
  simp only [exec, if_true, receive, ite_ok_iff, ne_eq, not_not]
  constructor
  · constructor
    · rintro ⟨r, h1, h2⟩
      obtain ⟨h3, h4, h5⟩ := addTokenClaims_ok h2
      obtain ⟨_, i2, i3, _⟩ := addClaims_loop l h5
      refine ⟨h1, h4, ?_⟩
      by_cases hl : l = []
      · exact Or.inl hl
      · right
        have := i3 hl
        rw [i2] at this
        exact this
    · rintro ⟨h1, h2, h3⟩
      have : ∃ y, l.foldlM addTokenClaim (s, 0) = .ok y := by
        rcases h3 with rfl | h3
        · exact ⟨_, foldlM_nil_ok_iff.2 rfl⟩
        · apply addClaims_loop_exists
          · unfold M64; exact h3
          · simp only [Nat.zero_add]; unfold M128; omega
      obtain ⟨y, hy⟩ := this
      have h4 := (addClaims_loop l hy).1
      refine ⟨(y.1, []), h1, ?_⟩
      unfold addTokenClaims
      rw [bind_ok_iff]
      refine ⟨y, hy, ?_⟩
      simp only
      rw [ite_ok_iff]
      simp only at h4
      exact ⟨by simp only [ne_eq, not_not]; omega, rfl⟩
  · rintro r ⟨h1, h2⟩
    obtain ⟨h3, h4, h5⟩ := addTokenClaims_ok h2
    obtain ⟨_, i2, i3, i4, i5, i6⟩ := addClaims_loop l h5
    refine ⟨i4.1, i2, i5, ?_⟩
    intro j
    have := i6 j
    simp only at this
    have hn : s.claims.get (s.nextClaim + j) = none := by
      cases hg : s.claims.get (s.nextClaim + j) with
      | none => rfl
      | some c => have := (hi.ids _ _ hg).2; omega
    rw [this, hn, Option.or_none]
    rfl

/-- C22. When refused, the state does not change. -/
theorem C22_refused (k : Kind) (s : State) (c : Call) (h : ¬ accepted k s c) : step k s c = (s, []) := by
  rcases step_cases k s c with ⟨h1, _⟩ | ⟨_, h2⟩
  · exact absurd h1 h
  · exact h2

example : (exec .token smpInit (smpEnv 12 5) (.receive 60 (.addStakes [(1, 10), (2, 20), (66, 0), (2, 30)]))).toOption.isSome = true ∧
    (exec .token smpInit (smpEnv 12 5) (.receive 61 (.addStakes [(1, 10), (2, 20), (66, 0), (2, 30)]))).toOption.isSome = false ∧
    (exec .token smpInit (smpEnv 12 5) (.receive 7 (.addClaims [⟨3, 4, .height 20⟩, ⟨1, 3, .height 20⟩]))).toOption.isSome = true ∧
    (exec .token smpInit (smpEnv 12 5) (.receive 8 (.addClaims [⟨3, 4, .height 20⟩, ⟨1, 3, .height 20⟩]))).toOption.isSome = false := by
  decide +kernel

/-! ## C23 -/

theorem loadAt_of_cur {sn : Snap} {w H : Nat} (h : sn.cur = some w) (hlt : ∀ j, sn.log.has j = true → j < H) :
    sn.mayLoadAt H = some w := by
  rw [Snap.mayLoadAt_of_lt hlt, h]

/-- C23, by height. Split a history at height `H` (everything before, including instantiation and the checkpoints given
at instantiation, is at a smaller height, everything after is at height `H` or above and in order). Then the total
reported for height `H` at the end of the history is the total after the first part. -/
theorem C23_total_at_height (k : Kind) (b : Block) (asset : Addr) (u : Duration) (hooks : List Addr)
    (x y : List (Nat × Nat)) (h1 h2 : List Call) (H : Nat)
    (hb : b.height < H) (hx : ∀ p ∈ x, p.2 < H) (hh1 : ∀ c ∈ h1, c.env.block.height < H)
    (hh2 : ∀ c ∈ h2, H ≤ c.env.block.height) (hmono : Monotone h2) :
    queryTotal (run k (init b asset u hooks x y) (h1 ++ h2)) (.height H) =
      queryTotal (run k (init b asset u hooks x y) h1) .never := by
  have hi := inv_init b asset u hooks x y
  have hi1 := inv_run (k := k) hi h1
  have hlog : ∀ j, (run k (init b asset u hooks x y) h1).mem.byHeight.log.has j = true → j < H := by
    intro j hj
    rcases (logs_run hi h1 j).1 hj with h | ⟨c, hc, h⟩
    · rcases init_logs.1 h with h | h
      · omega
      · obtain ⟨p, hp, rfl⟩ := List.mem_map.1 h
        exact hx p hp
    · rw [← h]; exact hh1 c hc
  rw [run_append]
  have hup : ∀ c ∈ h2, H ≤ c.env.block.height ∧
      (run k (init b asset u hooks x y) h1).mem.byHeight.upTo c.env.block.height := by
    intro c hc
    refine ⟨hh2 c hc, ?_⟩
    intro j hj
    have := hlog j hj
    have := hh2 c hc
    omega
  have := byHeight_run (k := k) hi1 h2 hmono.1 hup
  simp only [queryTotal, Members.totalAtHeight, Members.total, Snap.loadAt, Snap.load]
  rw [this, loadAt_of_cur hi1.height hlog, hi1.height]

/-- C23, by time: the total reported for a time `T` is the total at the start of the second of `T`. -/
theorem C23_total_at_time (k : Kind) (b : Block) (asset : Addr) (u : Duration) (hooks : List Addr)
    (x y : List (Nat × Nat)) (h1 h2 : List Call) (T : Nat)
    (hb : b.seconds < T / 10 ^ 9) (hy : ∀ p ∈ y, p.2 < T / 10 ^ 9)
    (hh1 : ∀ c ∈ h1, c.env.block.seconds < T / 10 ^ 9)
    (hh2 : ∀ c ∈ h2, T / 10 ^ 9 ≤ c.env.block.seconds) (hmono : Monotone h2) :
    queryTotal (run k (init b asset u hooks x y) (h1 ++ h2)) (.time T) =
      queryTotal (run k (init b asset u hooks x y) h1) .never := by
  have hi := inv_init b asset u hooks x y
  have hi1 := inv_run (k := k) hi h1
  have hlog : ∀ j, (run k (init b asset u hooks x y) h1).mem.bySeconds.log.has j = true → j < T / 10 ^ 9 := by
    intro j hj
    rcases (logs_run hi h1 j).2 hj with h | ⟨c, hc, h⟩
    · rcases init_logs.2 h with h | h
      · omega
      · obtain ⟨p, hp, rfl⟩ := List.mem_map.1 h
        exact hy p hp
    · rw [← h]; exact hh1 c hc
  rw [run_append]
  have hup : ∀ c ∈ h2, T / 10 ^ 9 ≤ c.env.block.seconds ∧
      (run k (init b asset u hooks x y) h1).mem.bySeconds.upTo c.env.block.seconds := by
    intro c hc
    refine ⟨hh2 c hc, ?_⟩
    intro j hj
    have := hlog j hj
    have := hh2 c hc
    omega
  have hsec : (h2.map (·.env.block.seconds)).Pairwise (· ≤ ·) := by
    have := hmono.2
    rw [List.pairwise_map] at this ⊢
    exact this.imp (fun {a b} hab => Nat.div_le_div_right hab)
  have := bySeconds_run (k := k) hi1 h2 hsec hup
  simp only [queryTotal, Members.totalAtTime, Members.total, Snap.loadAt, Snap.load]
  rw [this, loadAt_of_cur hi1.seconds hlog, hi1.height]

/-- C23. What is reported for height `H` does not change through messages at height `H` or later. -/
theorem C23_past_immutable {k : Kind} {s : State} (h : Reachable k s) (t : List Call) (H : Nat)
    (hpast : ∀ j, s.mem.byHeight.log.has j = true → ∀ c ∈ t, j ≤ c.env.block.height)
    (hh : ∀ c ∈ t, H ≤ c.env.block.height) (hmono : Monotone t) :
    queryTotal (run k s t) (.height H) = queryTotal s (.height H) := by
  have := byHeight_run (k := k) h.inv t hmono.1 (fun c hc => ⟨hh c hc, fun j hj => hpast j hj c hc⟩)
  simp only [queryTotal, Members.totalAtHeight, Snap.loadAt]
  rw [this]

example : Monotone (smpToken.drop 2) ∧ (∀ c ∈ smpToken.take 2, c.env.block.height < 13) ∧
    (∀ c ∈ smpToken.drop 2, 13 ≤ c.env.block.height) ∧
    queryTotal (run .token smpInit smpToken) (.height 13) = 160 ∧
    queryTotal (run .token smpInit smpToken) (.time (13 * 10 ^ 9 + 5)) = 160 ∧
    queryTotal (run .token smpInit smpToken) (.height 12) = 100 ∧
    queryTotal (run .token smpInit smpToken) .never = 120 := by
  refine ⟨⟨?_, ?_⟩, ?_⟩ <;> decide +kernel

/-! ## C24 -/

/-- C24. A successful message that stakes, imports stakes or unstakes sends exactly one notification to each hook, all
with the same list of changes, and the list leads from the old weights to the stored ones. -/
theorem C24_hooks_notified (k : Kind) (s : State) (e : Env) (m : Msg) (r : State × List Out)
    (hr : exec k s e m = .ok r)
    (hm : (∃ a, m = .unstake a) ∨ (∃ f u, m = .stakeDenom f u) ∨ (∃ a u, m = .receive a (.stake u)) ∨
      (∃ a l, m = .receive a (.addStakes l))) :
    ∃ changes, r.2 = s.mem.hooks.keys.map (fun hk => .notify hk changes) ∧ s.mem.hooks.keys.Nodup ∧
      (∀ hk, hk ∈ s.mem.hooks.keys ↔ s.mem.hooks.has hk = true) ∧
      Explains (queryWeight s) changes (queryWeight r.1) := by
  have stk : ∀ {u : Addr} {a : Nat} {r : State × List Out}, stakeFor s e u a = .ok r →
      ∃ changes, r.2 = s.mem.hooks.keys.map (fun hk => .notify hk changes) ∧
        Explains (queryWeight s) changes (queryWeight r.1) := by
    intro u a r h
    obtain ⟨_, _, _, rfl⟩ := stakeFor_ok_iff.1 h
    refine ⟨_, rfl, rfl, ?_⟩
    intro v
    simp only [queryWeight, Members.saveTotal_weight, Members.weight_setWeight]
  suffices ∃ changes, r.2 = s.mem.hooks.keys.map (fun hk => .notify hk changes) ∧
      Explains (queryWeight s) changes (queryWeight r.1) by
    obtain ⟨ch, h1, h2⟩ := this
    exact ⟨ch, h1, Map.nodup_keys _, fun hk => Map.mem_keys.trans Map.has_iff.symm, h2⟩
  rcases hm with ⟨a, rfl⟩ | ⟨f, u, rfl⟩ | ⟨a, u, rfl⟩ | ⟨a, l, rfl⟩
  · obtain ⟨_, _, _, rfl⟩ := unstake_ok_iff.1 hr
    refine ⟨_, rfl, rfl, ?_⟩
    intro v
    simp only [queryWeight, Members.saveTotal_weight, Members.weight_setWeight]
  · simp only [exec] at hr
    split at hr
    · unfold stakeDenom at hr
      split at hr
      · rw [ite_ok_iff] at hr
        exact stk hr.2
      · cases hr
    · cases hr
  · simp only [exec] at hr
    split at hr
    · simp only [receive, ite_ok_iff] at hr
      exact stk hr.2
    · cases hr
  · simp only [exec] at hr
    split at hr
    · simp only [receive, ite_ok_iff] at hr
      obtain ⟨h0, h1, h2, mm, ch, rfl, h3, h4, h5, h6, h7⟩ := addStakes_ok hr.2
      exact ⟨ch, rfl, h6⟩
    · cases hr

/-- C24. Stake and unstake report one change: the member with its old and its new, stored, weight. -/
theorem C24_single_change (k : Kind) (s : State) (e : Env) (r : State × List Out) :
    (∀ a, exec k s e (.unstake a) = .ok r →
      r.2 = s.mem.hooks.keys.map
        (fun hk => .notify hk [⟨e.sender, queryWeight s e.sender, queryWeight r.1 e.sender⟩])) ∧
    (∀ f u, exec k s e (.stakeDenom f u) = .ok r →
      r.2 = s.mem.hooks.keys.map
        (fun hk => .notify hk [⟨u.getD e.sender, queryWeight s (u.getD e.sender), queryWeight r.1 (u.getD e.sender)⟩])) ∧
    (∀ a u, exec k s e (.receive a (.stake u)) = .ok r →
      r.2 = s.mem.hooks.keys.map (fun hk => .notify hk [⟨u, queryWeight s u, queryWeight r.1 u⟩])) := by
  have stk : ∀ {u : Addr} {a : Nat} {r : State × List Out}, stakeFor s e u a = .ok r →
      r.2 = s.mem.hooks.keys.map (fun hk => .notify hk [⟨u, queryWeight s u, queryWeight r.1 u⟩]) := by
    intro u a r h
    obtain ⟨_, _, _, rfl⟩ := stakeFor_ok_iff.1 h
    simp only [queryWeight, Members.saveTotal_weight, Members.weight_setWeight, if_true]
    rfl
  refine ⟨?_, ?_, ?_⟩
  · intro a hr
    obtain ⟨_, _, _, rfl⟩ := unstake_ok_iff.1 hr
    simp only [queryWeight, Members.saveTotal_weight, Members.weight_setWeight, if_true]
    rfl
  · intro f u hr
    simp only [exec] at hr
    split at hr
    · unfold stakeDenom at hr
      split at hr
      · rw [ite_ok_iff] at hr
        exact stk hr.2
      · cases hr
    · cases hr
  · intro a u hr
    simp only [exec] at hr
    split at hr
    · simp only [receive, ite_ok_iff] at hr
      exact stk hr.2
    · cases hr

example : (exec .token smpInit (smpEnv 12 5) (.receive 60 (.addStakes [(1, 10), (2, 20), (66, 0), (2, 30)]))).toOption.map (·.2) =
    some [.notify 7 [⟨1, 0, 10⟩, ⟨2, 0, 20⟩, ⟨2, 20, 50⟩], .notify 8 [⟨1, 0, 10⟩, ⟨2, 0, 20⟩, ⟨2, 20, 50⟩]] := by
  decide +kernel

/-! ## C25 -/

theorem share_restricted {e : Env} {v : Addr} (hv : e.restricted v = true) (l : List (Addr × Nat))
    (h : ∀ st ∈ l, st.2 ≠ 0 → e.restricted st.1 = false) : shareOf l v = 0 := by
  induction l with
  | nil => rfl
  | cons st t ih =>
    rw [shareOf_cons, ih (fun st' hst' => h st' (List.mem_cons_of_mem _ hst'))]
    split
    · rename_i hst
      by_contra hne
      have := h st List.mem_cons_self (by omega)
      rw [← hst, hv] at this
      cases this
    · rfl

theorem restricted_gain {k : Kind} {s : State} (hi : Inv s) {e : Env} {m : Msg} {r : State × List Out}
    (h1 : exec k s e m = .ok r) {v : Addr} (hv : e.restricted v = true) : r.1.mem.weight v ≤ s.mem.weight v := by
  have stk : ∀ {u : Addr} {a : Nat} {r : State × List Out}, stakeFor s e u a = .ok r →
      r.1.mem.weight v ≤ s.mem.weight v := by
    intro u a r h
    obtain ⟨h0, _, _, rfl⟩ := stakeFor_ok_iff.1 h
    simp only [Members.saveTotal_weight, Members.weight_setWeight]
    split
    · rename_i hh; subst hh; rw [hv] at h0; cases h0
    · exact le_refl _
  by_contra hlt
  have hlt : s.mem.weight v < r.1.mem.weight v := Nat.lt_of_not_le hlt
  obtain ⟨⟨rfl, hs, a, hk, hm⟩ | ⟨rfl, a, u, hm⟩, -⟩ := share_bound hi h1 ⟨v, hlt⟩
  · rw [hm] at h1
    simp only [exec, if_true, receive, ite_ok_iff] at h1
    obtain ⟨_, h1⟩ := h1
    cases hk with
    | stake u => have := stk h1; omega
    | addStakes l =>
      obtain ⟨h0, _, hres, mm, ch, rfl, h3, _⟩ := addStakes_ok h1
      have h3 := h3 v
      have : shareOf l v = 0 := share_restricted hv l hres
      simp only [Members.saveTotal_weight] at hlt
      omega
    | addClaims l =>
      obtain ⟨_, _, h2⟩ := addTokenClaims_ok h1
      have := (addClaims_loop l h2).2.2.2.1.1
      simp only at this
      rw [this] at hlt
      omega
    | unknown => cases h1
  · rw [hm] at h1
    simp only [exec, if_true, stakeDenom, ite_ok_iff] at h1
    have := stk h1.2
    omega

/-- C25. A restricted user gains no weight through any message. -/
theorem C25_restricted_gain_nothing {k : Kind} {s : State} (h : Reachable k s) (c : Call) (v : Addr)
    (hv : c.env.restricted v = true) : queryWeight (step k s c).1 v ≤ queryWeight s v := by
  rcases step_cases k s c with ⟨_, r, h1, h2⟩ | ⟨_, h2⟩
  · rw [h2]
    exact restricted_gain h.inv h1 hv
  · rw [h2]

/-- C25. A message that would stake for a restricted user is refused. -/
theorem C25_refused (k : Kind) (s : State) (e : Env) (v : Addr) (hv : e.restricted v = true) :
    (∀ a r, exec k s e (.receive a (.stake v)) ≠ .ok r) ∧
    (∀ f u r, u.getD e.sender = v → exec k s e (.stakeDenom f u) ≠ .ok r) ∧
    (∀ a l n r, (v, n) ∈ l → n ≠ 0 → exec k s e (.receive a (.addStakes l)) ≠ .ok r) := by
  refine ⟨?_, ?_, ?_⟩
  · intro a r hr
    simp only [exec] at hr
    split at hr
    · simp only [receive, ite_ok_iff] at hr
      have := (stakeFor_ok_iff.1 hr.2).1
      rw [hv] at this
      cases this
    · cases hr
  · intro f u r hu hr
    simp only [exec] at hr
    split at hr
    · unfold stakeDenom at hr
      split at hr
      · rw [ite_ok_iff] at hr
        have := (stakeFor_ok_iff.1 hr.2).1
        rw [hu, hv] at this
        cases this
      · cases hr
    · cases hr
  · intro a l n r hl hn hr
    simp only [exec] at hr
    split at hr
    · simp only [receive, ite_ok_iff] at hr
      have := (addStakes_ok hr.2).2.2.1 (v, n) hl hn
      simp only at this
      rw [hv] at this
      cases this
    · cases hr

example : (smpEnv 14 5).restricted 66 = true ∧
    (exec .token smpInit (smpEnv 14 5) (.receive 50 (.stake 66))).toOption.isSome = false ∧
    (exec .token smpInit (smpEnv 14 5) (.receive 50 (.stake 67))).toOption.isSome = true := by decide +kernel

/-! ## C26 -/

/-- C26. The claim made by an unstake is not due in a block in which the unlocking period in force at the unstake has not
elapsed, provided the end of the period fits 64 bits. -/
theorem C26_waits {k : Kind} {s : State} (h : Reachable k s) (e : Env) (a : Nat) (r : State × List Out)
    (hr : exec k s e (.unstake a) = .ok r) (hf : Fits s.unlocking e.block) (later : Block) :
    ∃ c, r.1.claims.get s.nextClaim = some c ∧ s.claims.get s.nextClaim = none ∧ c.user = e.sender ∧ c.amount = a ∧
      (Due e.sender later c ↔ Elapsed s.unlocking e.block later) := by
  have hi := h.inv
  obtain ⟨h1, h2, h3, rfl⟩ := unstake_ok_iff.1 hr
  refine ⟨_, Map.get_set_self _ _ _, ?_, rfl, rfl, ?_⟩
  · cases hg : s.claims.get s.nextClaim with
    | none => rfl
    | some c => have := (hi.ids _ _ hg).2; omega
  · unfold Due Elapsed releaseAt
    unfold Fits at hf
    cases hu : s.unlocking with
    | height n =>
      rw [hu] at hf
      simp only at hf ⊢
      have : wadd64 e.block.height n = e.block.height + n := by
        unfold wadd64 M64; exact Nat.mod_eq_of_lt hf
      simp [this]
    | time n =>
      rw [hu] at hf
      simp only at hf ⊢
      have h5 : n * 10 ^ 9 % M64 = n * 10 ^ 9 := by
        unfold M64; apply Nat.mod_eq_of_lt; omega
      have : wadd64 e.block.time (n * 10 ^ 9) = e.block.time + n * 10 ^ 9 := by
        unfold wadd64 M64; exact Nat.mod_eq_of_lt hf
      rw [h5, this]
      simp

/-- C26 over histories: as long as the unlocking period has not elapsed, the claim is not paid: whatever messages run
in blocks before that, the claim is still there. -/
theorem C26_not_paid_before {k : Kind} {s : State} (h : Reachable k s) (e : Env) (a : Nat) (r : State × List Out)
    (hr : exec k s e (.unstake a) = .ok r) (hf : Fits s.unlocking e.block) (t : List Call)
    (ht : ∀ c ∈ t, ¬ Elapsed s.unlocking e.block c.env.block) :
    (run k r.1 t).claims.get s.nextClaim = r.1.claims.get s.nextClaim := by
  have hR : Reachable k r.1 := by
    have := reachable_step h ⟨e, .unstake a, true⟩
    simpa only [step, hr, if_true] using this
  obtain ⟨h1, h2, h3, hreq⟩ := unstake_ok_iff.1 hr
  have hnext : s.nextClaim < r.1.nextClaim := by rw [hreq]; simp
  have hnd : ∀ later, ¬ Elapsed s.unlocking e.block later → ∀ c, r.1.claims.get s.nextClaim = some c →
      ∀ v, ¬ Due v later c := by
    intro later hl c hc v hd
    obtain ⟨c', hc', _, hu, _, hiff⟩ := C26_waits h e a r hr hf later
    rw [hc] at hc'
    cases hc'
    have hv := hd.1
    rw [hu] at hv
    subst hv
    exact hl (hiff.1 hd)
  have hsome : ∃ c, r.1.claims.get s.nextClaim = some c := by
    rw [hreq]; exact ⟨_, Map.get_set_self _ _ _⟩
  obtain ⟨c, hc⟩ := hsome
  generalize hn : s.nextClaim = n at *
  clear hreq
  have key : ∀ (t : List Call) (q : State), Reachable k q → n < q.nextClaim → q.claims.get n = some c →
      (∀ d ∈ t, ¬ Elapsed s.unlocking e.block d.env.block) → (run k q t).claims.get n = some c := by
    intro t
    induction t with
    | nil => intro q _ _ hq _; exact hq
    | cons d t ih =>
      intro q hq hlt hg hel
      rw [run]
      apply ih _ (reachable_step hq d) _ _ (fun d' hd' => hel d' (List.mem_cons_of_mem _ hd'))
      · rcases step_cases k q d with ⟨_, r', h4, h5⟩ | ⟨_, h5⟩
        · rw [h5]; have := (effect_exec hq.inv h4).next; omega
        · rw [h5]; exact hlt
      · rcases step_cases k q d with ⟨_, r', h4, h5⟩ | ⟨_, h5⟩
        · rw [h5]
          have hold := (effect_exec hq.inv h4).old n hlt
          rcases hold with hold | hold
          · -- only a claim message removes claims
            exfalso
            have hkeep : r'.1.claims.get n = some c := by
              have hel' := hel d List.mem_cons_self
              have hnext' := (effect_exec hq.inv h4).next
              revert h4
              cases d.msg with
              | receive a hk =>
                intro h4
                simp only [exec] at h4
                split at h4
                · simp only [receive, ite_ok_iff] at h4
                  obtain ⟨_, h4⟩ := h4
                  cases hk with
                  | stake u => obtain ⟨_, _, _, rfl⟩ := stakeFor_ok_iff.1 h4; exact hg
                  | addStakes l => obtain ⟨_, _, _, mm, ch, rfl, _⟩ := addStakes_ok h4; exact hg
                  | addClaims l =>
                    obtain ⟨_, _, h6⟩ := addTokenClaims_ok h4
                    have := (addClaims_loop l h6).2.2.2.2.1 n hlt
                    simp only at this
                    rw [this]; exact hg
                  | unknown => cases h4
                · cases h4
              | stakeDenom f u =>
                intro h4
                simp only [exec] at h4
                split at h4
                · unfold stakeDenom at h4
                  split at h4
                  · rw [ite_ok_iff] at h4
                    obtain ⟨_, _, _, rfl⟩ := stakeFor_ok_iff.1 h4.2; exact hg
                  · cases h4
                · cases h4
              | unstake a =>
                intro h4
                obtain ⟨_, _, _, rfl⟩ := unstake_ok_iff.1 h4
                simp only
                rw [Map.get_set_ne _ _ (by omega)]; exact hg
              | claim u =>
                intro h4
                have := ((C19_claim hq d.env u).2 r' h4).2.2.1 n c hg
                exact this (hnd d.env.block hel' c hc d.env.sender)
              | updateUnlocking p =>
                intro h4
                obtain ⟨_, rfl⟩ := updateUnlocking_ok_iff.1 h4; exact hg
              | addHook a =>
                intro h4
                simp only [exec, bind_ok_iff, Members.addHook, ite_ok_iff, pure_ok_iff] at h4
                obtain ⟨m, ⟨_, h1⟩, rfl⟩ := h4
                exact hg
              | removeHook a =>
                intro h4
                simp only [exec, bind_ok_iff, Members.removeHook, ite_ok_iff, pure_ok_iff] at h4
                obtain ⟨m, ⟨_, h1⟩, rfl⟩ := h4
                exact hg
            rw [hold] at hkeep
            cases hkeep
          · rw [hold]; exact hg
        · rw [h5]; exact hg
  rw [hc]
  exact key t r.1 hR hnext hc ht

/-- C26, the guard is needed: with an unlocking period whose end does not fit 64 bits, the claim is due at once. -/
theorem C26_wrap_witness :
    ∃ (s : State) (e : Env) (r : State × List Out) (c : Claim), Reachable .token s ∧
      exec .token s e (.unstake 5) = .ok r ∧ r.1.claims.get s.nextClaim = some c ∧
      Due e.sender e.block c ∧ ¬ Elapsed s.unlocking e.block e.block := by
  have hs : Reachable .token (run .token (init ⟨10, 10 ^ 10⟩ 5 (.height (2 ^ 64 - 1)) [] [] [])
    [⟨smpEnv 11 5, .receive 100 (.stake 1), true⟩]) := ⟨_, _, _, _, _, _, _, rfl⟩
  obtain ⟨r, hr⟩ := (C18_unstake hs (smpEnv 12 1) 5).1.2 ⟨by decide +kernel, by decide +kernel⟩
  refine ⟨_, _, r, ⟨0, 1, 5, .height 11⟩, hs, hr, ?_, ?_, ?_⟩
  · simp only [exec] at hr
    obtain ⟨_, _, _, rfl⟩ := unstake_ok_iff.1 hr
    decide +kernel
  · decide +kernel
  · decide +kernel

example : Fits (run .token smpInit (smpToken.take 2)).unlocking (smpEnv 13 1).block ∧
    ¬ Elapsed (run .token smpInit (smpToken.take 2)).unlocking (smpEnv 13 1).block (smpEnv 112 1).block ∧
    Elapsed (run .token smpInit (smpToken.take 2)).unlocking (smpEnv 13 1).block (smpEnv 113 1).block := by
  decide +kernel

/-! ## C27 -/

/-- C27. `UpdateUnlockingPeriod` is accepted exactly from the governance controller and changes only the period. -/
theorem C27_update_unlocking (k : Kind) (s : State) (e : Env) (p : Option Duration) :
    ((∃ r, exec k s e (.updateUnlocking p) = .ok r) ↔ e.sender = e.controller) ∧
    (∀ r, exec k s e (.updateUnlocking p) = .ok r →
      (∀ v, queryWeight r.1 v = queryWeight s v) ∧ (∀ i, queryTotal r.1 i = queryTotal s i) ∧
      r.1.claims = s.claims ∧ r.1.nextClaim = s.nextClaim ∧ r.1.mem.hooks = s.mem.hooks ∧ r.1.asset = s.asset ∧
      (p = none → r.1.unlocking = s.unlocking) ∧ (∀ d, p = some d → r.1.unlocking = d) ∧ r.2 = []) := by
  constructor
  · constructor
    · rintro ⟨r, hr⟩; exact (updateUnlocking_ok_iff.1 hr).1
    · intro h; exact ⟨_, updateUnlocking_ok_iff.2 ⟨h, rfl⟩⟩
  · intro r hr
    obtain ⟨_, rfl⟩ := updateUnlocking_ok_iff.1 hr
    refine ⟨fun _ => rfl, fun _ => ?_, rfl, rfl, rfl, rfl, ?_, ?_, rfl⟩
    · rename_i i; cases i <;> rfl
    · rintro rfl; rfl
    · rintro d rfl; rfl

/-- C27. The unlocking period changes through no other message. -/
theorem C27_only_controller {k : Kind} {s : State} (h : Reachable k s) (c : Call)
    (hne : (step k s c).1.unlocking ≠ s.unlocking) :
    c.env.sender = c.env.controller ∧ ∃ d, c.msg = .updateUnlocking (some d) ∧ (step k s c).1.unlocking = d := by
  have hi := h.inv
  rcases step_cases k s c with ⟨_, r, h1, h2⟩ | ⟨_, h2⟩
  · rw [h2] at hne ⊢
    obtain ⟨e, m, d⟩ := c
    simp only at h1 ⊢
    cases m with
    | receive a hk =>
      simp only [exec] at h1
      split at h1
      · simp only [receive, ite_ok_iff] at h1
        obtain ⟨_, h1⟩ := h1
        cases hk with
        | stake u => obtain ⟨_, _, _, rfl⟩ := stakeFor_ok_iff.1 h1; exact absurd rfl hne
        | addStakes l => obtain ⟨_, _, _, mm, ch, rfl, _⟩ := addStakes_ok h1; exact absurd rfl hne
        | addClaims l =>
          obtain ⟨_, _, h6⟩ := addTokenClaims_ok h1
          exact absurd (addClaims_loop l h6).2.2.2.1.2.2 hne
        | unknown => cases h1
      · cases h1
    | stakeDenom f u =>
      simp only [exec] at h1
      split at h1
      · unfold stakeDenom at h1
        split at h1
        · rw [ite_ok_iff] at h1
          obtain ⟨_, _, _, rfl⟩ := stakeFor_ok_iff.1 h1.2; exact absurd rfl hne
        · cases h1
      · cases h1
    | unstake a => obtain ⟨_, _, _, rfl⟩ := unstake_ok_iff.1 h1; exact absurd rfl hne
    | claim u => obtain ⟨_, _, rfl⟩ := (claim_ok_iff hi).1 h1; exact absurd rfl hne
    | updateUnlocking p =>
      obtain ⟨h3, rfl⟩ := updateUnlocking_ok_iff.1 h1
      cases p with
      | none => exact absurd rfl hne
      | some d => exact ⟨h3, d, rfl, rfl⟩
    | addHook a =>
      simp only [exec, bind_ok_iff, Members.addHook, ite_ok_iff, pure_ok_iff] at h1
      obtain ⟨m, ⟨_, h1⟩, rfl⟩ := h1
      exact absurd rfl hne
    | removeHook a =>
      simp only [exec, bind_ok_iff, Members.removeHook, ite_ok_iff, pure_ok_iff] at h1
      obtain ⟨m, ⟨_, h1⟩, rfl⟩ := h1
      exact absurd rfl hne
  · rw [h2] at hne; exact absurd rfl hne

example : (step .token (run .token smpInit (smpToken.take 4)) ⟨smpEnv 15 9, .updateUnlocking (some (.height 3)), true⟩).1.unlocking ≠
    (run .token smpInit (smpToken.take 4)).unlocking := by decide +kernel

end Verif.Staking
