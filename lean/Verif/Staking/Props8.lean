import Verif.Staking.Props7

/-!
# Token and denom staking: staking in parts (C188)
-/

set_option linter.unusedSimpArgs false

namespace Verif.Staking
open Verif

/-! ## Specification -/

/-- The message that stakes an amount for a user: tokens sent by the token contract, or coins sent along. -/
def stakeMsg (k : Kind) (asset : Addr) (u : Addr) (n : Nat) : Msg :=
  match k with
  | .token => .receive n (.stake u)
  | .denom => .stakeDenom [⟨asset, n⟩] (some u)

/-- Staking these amounts for a user one after the other in the same block. -/
def stakes (k : Kind) (e : Env) (asset : Addr) (u : Addr) (ns : List Nat) : List Call :=
  ns.map (fun n => ⟨e, stakeMsg k asset u n, true⟩)

/-! ## Staking is adding -/

/-- The contract takes stakes that come with these messages. -/
def Takes (k : Kind) (s : State) (e : Env) : Prop := k = .token → e.sender = s.asset

theorem exec_stakeMsg (k : Kind) (s : State) (e : Env) (u : Addr) (n : Nat) (r : State × List Out) :
    exec k s e (stakeMsg k s.asset u n) = .ok r ↔ Takes k s e ∧ stakeFor s e u n = .ok r := by
  cases k with
  | token =>
    simp only [stakeMsg, exec, if_true, receive, ite_ok_iff, ne_eq, not_not, Takes, true_implies]
  | denom =>
    simp [stakeMsg, exec, stakeDenom, Takes]

theorem accepted_stake {k : Kind} {s : State} (hi : Inv s) {e : Env} {u : Addr} {n : Nat} :
    accepted k s ⟨e, stakeMsg k s.asset u n, true⟩ ↔
      Takes k s e ∧ e.restricted u = false ∧ s.mem.total + n < M128 := by
  unfold accepted
  simp only [exec_stakeMsg, stakeFor_ok_iff, true_and]
  have hw := hi.weight_le u
  constructor
  · rintro ⟨r, h0, h1, _, h3, _⟩; exact ⟨h0, h1, h3⟩
  · rintro ⟨h0, h1, h3⟩; exact ⟨_, h0, h1, by omega, h3, rfl⟩

theorem step_stake {k : Kind} {s : State} (hi : Inv s) {e : Env} {u : Addr} {n : Nat}
    (h : accepted k s ⟨e, stakeMsg k s.asset u n, true⟩) : (step k s ⟨e, stakeMsg k s.asset u n, true⟩).1 =
      { s with mem := (s.mem.setWeight u (s.mem.weight u + n)).saveTotal (s.mem.total + n) e.block } := by
  obtain ⟨h0, h1, h2⟩ := (accepted_stake hi).1 h
  have hw := hi.weight_le u
  have := (exec_stakeMsg k s e u n _).2 ⟨h0, stakeFor_ok_iff.2 ⟨h1, by omega, h2, rfl⟩⟩
  unfold step
  simp only [this, if_true]

/-! ## C188 -/

/-- C188. Staking an amount in parts within a block is accepted exactly when staking it at once is, and then leaves
exactly the same state. -/
theorem C188_parts {k : Kind} {s : State} (hs : Reachable k s) (e : Env) (u : Addr) {ns : List Nat} (hne : ns ≠ []) :
    (allAccepted k s (stakes k e s.asset u ns) ↔ accepted k s ⟨e, stakeMsg k s.asset u ns.sum, true⟩) ∧
    (accepted k s ⟨e, stakeMsg k s.asset u ns.sum, true⟩ →
      run k s (stakes k e s.asset u ns) = run k s [⟨e, stakeMsg k s.asset u ns.sum, true⟩]) := by
  have key : ∀ (ns : List Nat) {s : State}, Inv s → ns ≠ [] →
      (allAccepted k s (stakes k e s.asset u ns) ↔ accepted k s ⟨e, stakeMsg k s.asset u ns.sum, true⟩) ∧
      (accepted k s ⟨e, stakeMsg k s.asset u ns.sum, true⟩ →
        run k s (stakes k e s.asset u ns) = (step k s ⟨e, stakeMsg k s.asset u ns.sum, true⟩).1) := by
    intro ns
    induction ns with
    | nil => intro s _ h; exact absurd rfl h
    | cons n t ih =>
      intro s hi _
      by_cases ht : t = []
      · subst ht
        simp only [List.sum_cons, List.sum_nil, Nat.add_zero]
        exact ⟨⟨fun h => h.1, fun h => ⟨h, trivial⟩⟩, fun _ => rfl⟩
      · rw [List.sum_cons]
        by_cases h1 : accepted k s ⟨e, stakeMsg k s.asset u n, true⟩
        · have hi' : Inv (step k s ⟨e, stakeMsg k s.asset u n, true⟩).1 := inv_step hi _
          have st := step_stake hi h1
          have has : (step k s ⟨e, stakeMsg k s.asset u n, true⟩).1.asset = s.asset := by rw [st]
          have htot : (step k s ⟨e, stakeMsg k s.asset u n, true⟩).1.mem.total = s.mem.total + n := by rw [st]; rfl
          have hwt : (step k s ⟨e, stakeMsg k s.asset u n, true⟩).1.mem.weight u = s.mem.weight u + n := by
            rw [st]
            simp only [Members.saveTotal_weight, Members.weight_setWeight, if_true]
          obtain ⟨i1, i2⟩ := ih hi' ht
          have a1 := (accepted_stake hi).1 h1
          have hacc : accepted k (step k s ⟨e, stakeMsg k s.asset u n, true⟩).1
              ⟨e, stakeMsg k (step k s ⟨e, stakeMsg k s.asset u n, true⟩).1.asset u t.sum, true⟩ ↔
              accepted k s ⟨e, stakeMsg k s.asset u (n + t.sum), true⟩ := by
            rw [accepted_stake hi', accepted_stake hi, htot, Nat.add_assoc]
            unfold Takes
            rw [has]
          refine ⟨⟨fun h => ?_, fun h => ⟨h1, ?_⟩⟩, fun h => ?_⟩
          · have h2 : allAccepted k (step k s ⟨e, stakeMsg k s.asset u n, true⟩).1 (stakes k e s.asset u t) := h.2
            exact hacc.1 (i1.1 (by rw [has]; exact h2))
          · have h2 := i1.2 (hacc.2 h)
            rw [has] at h2
            exact h2
          · have h2 := i2 (hacc.2 h)
            have h3 := step_stake hi' (hacc.2 h)
            rw [step_stake hi h]
            rw [h3, hwt, htot, has, st] at h2
            have h4 : run k s (stakes k e s.asset u (n :: t)) =
                run k (step k s ⟨e, stakeMsg k s.asset u n, true⟩).1 (stakes k e s.asset u t) := rfl
            rw [h4, st, h2, mem_twice, Nat.add_assoc, Nat.add_assoc]
        · have h2 : ¬ accepted k s ⟨e, stakeMsg k s.asset u (n + t.sum), true⟩ := by
            intro h
            obtain ⟨a1, a2, a3⟩ := (accepted_stake hi).1 h
            exact h1 ((accepted_stake hi).2 ⟨a1, a2, by omega⟩)
          exact ⟨⟨fun h => absurd h.1 h1, fun h => absurd h h2⟩, fun h => absurd h h2⟩
  exact key ns hs.inv hne

/-- The token contract sends 20, 0 and 10 tokens for user 2 in a block. -/
example : Reachable .token (run .token smpInit (smpToken.take 4)) ∧
    accepted .token (run .token smpInit (smpToken.take 4))
      ⟨smpEnv 15 5, stakeMsg .token (run .token smpInit (smpToken.take 4)).asset 2 ([20, 0, 10] : List Nat).sum, true⟩ :=
  ⟨smp_reachable, by decide +kernel⟩

/-- It takes more than no parts: nothing at all leaves no trace, but a stake of nothing is logged. -/
theorem C188_none_witness : ∃ s, Reachable .token s ∧
    run .token s (stakes .token (smpEnv 15 5) s.asset 2 []) ≠
      run .token s [⟨smpEnv 15 5, stakeMsg .token s.asset 2 0, true⟩] :=
  ⟨run .token smpInit (smpToken.take 4), smp_reachable, by decide +kernel⟩

end Verif.Staking
