import Verif.Distributor.Props2

/-!
# Funds distributor: what a user has earned stays the user's (C121)
-/

namespace Verif.Distributor
open Verif

theorem distributed_append (a : AssetInfo) (s : State) (h t : List Call) :
    distributed a s (h ++ t) = distributed a s h + distributed a (run s h) t := by
  induction h generalizing s with
  | nil => simp [distributed, run]
  | cons c h ih =>
    simp only [List.cons_append, distributed, run]
    rw [ih]
    omega

theorem run_run (s : State) (h t : List Call) : run s (h ++ t) = run (run s h) t := by
  induction h generalizing s with
  | nil => rfl
  | cons c h ih => exact ih _

/-- One message: what is claimable is paid or stays claimable. -/
theorem keeps_step {s : State} (hr : Reachable s) (c : Call) (u : Addr) (a : AssetInfo)
    (ho : owedOf (step s c).1 a < ONE * M128) :
    claimable s u a ≤ paid u a (step s c).2 + claimable (step s c).1 u a := by
  by_cases ha : accepted s c
  · cases hm : c.msg with
    | claim v ds ts =>
      obtain ⟨h1, h2⟩ := claim_assets hr.inv hm ha u a
      by_cases hl : u = v ∧ ((∃ d ∈ ds, a = .native d) ∨ (∃ t ∈ ts, a = .cw20 t))
      · rw [(h1 hl.1 hl.2).2]; exact Nat.le_add_right _ _
      · rw [(h2 hl).1]; exact Nat.le_add_left _ _
    | updateWeights l =>
      rw [(C36_update_keeps_rewards s hr c l hm u [] [] a).2]; exact Nat.le_add_left _ _
    | updateMin m =>
      rw [(C39_keeps_rewards s hr c m hm u [] [] a).2]; exact Nat.le_add_left _ _
    | distributeNative l =>
      refine Nat.le_trans ?_ (Nat.le_add_left _ _)
      cases a with
      | native d =>
        obtain ⟨n, hn⟩ := amt_exists (u := u) (a := d) (hr.step c).inv.native ho
        obtain ⟨b, hb, hle, _⟩ := C37_native s hr c l hm ha u d n (query_native.2 hn)
        rw [claimable_native, claimable_native]
        have hn' : (step s c).1.native.amt u (effective (step s c).1 u) d = .ok n := hn
        rw [query_native.1 hb, hn']
        exact hle
      | cw20 t =>
        rw [C37_others s hr c (.cw20 t) (Or.inl ⟨l, hm, fun f _ hf => by cases hf⟩) u]
      | cw1155 _ _ => exact Nat.zero_le _
    | receiveCw20 k n =>
      refine Nat.le_trans ?_ (Nat.le_add_left _ _)
      by_cases hs : AssetInfo.cw20 c.env.sender = a
      · subst hs
        obtain ⟨m, hn⟩ := amt_exists (u := u) (a := c.env.sender) (hr.step c).inv.cw20 ho
        obtain ⟨b, hb, hle, _⟩ := C37_cw20 s hr c k n hm ha u m (query_cw20.2 hn)
        rw [claimable_cw20, claimable_cw20]
        have hn' : (step s c).1.cw20.amt u (effective (step s c).1 u) c.env.sender = .ok m := hn
        rw [query_cw20.1 hb, hn']
        exact hle
      · rw [C37_others s hr c a (Or.inr ⟨k, n, hm, hs⟩) u]
  · rcases step_cases s c with ⟨x, _, _, _, ha'⟩ | ⟨he, _⟩
    · exact absurd ha' ha
    · rw [he]; exact Nat.le_add_left _ _

/-- C121, rewards: whatever happens after a history, what a user could claim is paid to the user or can still be
claimed. The guard is that less than 2^128 units of the asset were distributed in all. -/
theorem C121_rewards_accounted (ad : Addr) (mw : Option Nat) (ws : List (Addr × Nat)) (s0 : State)
    (h0 : init ad mw ws = .ok s0) (h t : List Call) (u : Addr) (a : AssetInfo)
    (hb : distributed a s0 (h ++ t) < 2 ^ 128) :
    claimable (run s0 h) u a ≤ claimed u a (run s0 h) t + claimable (run s0 (h ++ t)) u a := by
  induction t generalizing h with
  | nil => simp [claimed]
  | cons c t ih =>
    have e : h ++ c :: t = (h ++ [c]) ++ t := by simp
    rw [e] at hb ⊢
    have hle : distributed a s0 (h ++ [c]) < 2 ^ 128 := by
      rw [distributed_append] at hb
      omega
    have h1 := ih (h ++ [c]) hb
    have ho := history_owed h0 a hle
    rw [run_append] at h1 ho
    have h2 := keeps_step ⟨ad, mw, ws, s0, h, h0, rfl⟩ c u a ho
    rw [claimed]
    omega

/-- C121, rewards: without a message of the user, nothing is paid to the user and the user can claim at least as much as
before, whatever everybody else does. -/
theorem C121_rewards_untouched (ad : Addr) (mw : Option Nat) (ws : List (Addr × Nat)) (s0 : State)
    (h0 : init ad mw ws = .ok s0) (h t : List Call) (u : Addr) (a : AssetInfo)
    (hb : distributed a s0 (h ++ t) < 2 ^ 128) (ht : ∀ c ∈ t, c.env.sender ≠ u) :
    claimed u a (run s0 h) t = 0 ∧ claimable (run s0 h) u a ≤ claimable (run s0 (h ++ t)) u a := by
  have key : ∀ (t : List Call) (s : State), Reachable s → (∀ c ∈ t, c.env.sender ≠ u) → claimed u a s t = 0 := by
    intro t
    induction t with
    | nil => intro s _ _; rfl
    | cons c t ih =>
      intro s hr ht
      rw [claimed, ih _ (hr.step c) (fun d hd => ht d (List.mem_cons_of_mem _ hd)), Nat.add_zero]
      by_cases ha : accepted s c
      · cases hm : c.msg with
        | claim v ds ts =>
          obtain ⟨h1, _⟩ := C41_owner_only s hr c v ds ts hm
          have hv := (h1 ha).1
          exact ((claim_assets hr.inv hm ha u a).2
            (fun hx => ht c List.mem_cons_self (by rw [hv, hx.1]))).2
        | updateWeights l => rw [C41_only_claims_pay s c (by rw [hm]; intros; simp)]; rfl
        | updateMin l => rw [C41_only_claims_pay s c (by rw [hm]; intros; simp)]; rfl
        | distributeNative l => rw [C41_only_claims_pay s c (by rw [hm]; intros; simp)]; rfl
        | receiveCw20 k n => rw [C41_only_claims_pay s c (by rw [hm]; intros; simp)]; rfl
      · rcases step_cases s c with ⟨x, _, _, _, ha'⟩ | ⟨he, _⟩
        · exact absurd ha' ha
        · rw [he]; rfl
  have h1 := key t _ ⟨ad, mw, ws, s0, h, h0, rfl⟩ ht
  have h2 := C121_rewards_accounted ad mw ws s0 h0 h t u a hb
  exact ⟨h1, by omega⟩

/-- In the example user 2 sends nothing in the whole history and can claim 6 of denom 5 at the end. -/
example : init 10 (some 1) [(1, 1), (2, 2), (3, 0)] = .ok exInit ∧
    (∀ c ∈ exHistory, c.env.sender ≠ 2) ∧ distributed (.native 5) exInit (exHistory ++ exHistory) < 2 ^ 128 ∧
    claimable (run exInit exHistory) 2 (.native 5) = 6 ∧
    6 < claimable (run exInit (exHistory ++ exHistory)) 2 (.native 5) ∧
    claimed 1 (.native 5) exInit exHistory = 3 :=
  ⟨exInit_eq, by decide +kernel⟩

end Verif.Distributor
