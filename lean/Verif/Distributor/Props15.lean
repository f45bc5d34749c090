import Verif.Distributor.Props14

/-!
# Funds distributor: claiming in several messages (C189)
-/

set_option linter.unusedSimpArgs false

namespace Verif.Distributor
open Verif

/-! ## Specification -/

/-- Every message of a list is accepted, one after the other. -/
def eachAccepted : State → List Call → Prop
  | _, [] => True
  | s, c :: t => accepted s c ∧ eachAccepted (step s c).1 t

/-- What is paid during a history. -/
def payments : State → List Call → List Out
  | _, [] => []
  | s, c :: t => (step s c).2 ++ payments (step s c).1 t

/-- A claim of rewards in these denoms and tokens. -/
def claiming (e : Env) (u : Addr) (q : List Nat × List Nat) : Call := ⟨e, .claim u q.1 q.2, true⟩

/-- Several lists of denoms and tokens put together. -/
def together (qs : List (List Nat × List Nat)) : List Nat × List Nat := (qs.flatMap (·.1), qs.flatMap (·.2))

/-! ## The loops -/

theorem claimOne_from (u : Addr) (w : Nat) (L : Ledger) (acc : List (Nat × Nat)) (a : Nat) :
    Ledger.claimOne u w (L, acc) a = (Ledger.claimOne u w (L, []) a).map (fun x => (x.1, acc ++ x.2)) := by
  unfold Ledger.claimOne
  simp only
  by_cases h0 : L.global a = 0
  · simp [h0, Except.map]
  · simp only [h0, if_false]
    cases reward (L.global a) (L.dist.get (toLex (u, a))) w with
    | error x => rfl
    | ok r =>
      by_cases h1 : r = 0
      · simp [h1, Except.map, bind, Except.bind]
      · simp [h1, Except.map, bind, Except.bind]

theorem claimLoop_from (u : Addr) (w : Nat) : ∀ (l : List Nat) (L : Ledger) (acc : List (Nat × Nat)),
    l.foldlM (Ledger.claimOne u w) (L, acc) =
      (l.foldlM (Ledger.claimOne u w) (L, [])).map (fun x => (x.1, acc ++ x.2))
  | [], L, acc => by simp [pure, Except.pure, Except.map]
  | a :: t, L, acc => by
    rw [List.foldlM_cons, List.foldlM_cons, claimOne_from u w L acc a]
    cases Ledger.claimOne u w (L, []) a with
    | error x => rfl
    | ok y =>
      obtain ⟨L1, p⟩ := y
      simp only [Except.map, bind, Except.bind]
      rw [claimLoop_from u w t L1 (acc ++ p), claimLoop_from u w t L1 p]
      cases t.foldlM (Ledger.claimOne u w) (L1, []) with
      | error x => rfl
      | ok z => simp [Except.map]

theorem claimLoop_append {u : Addr} {w : Nat} {l l' : List Nat} {L : Ledger} {z : Ledger × List (Nat × Nat)} :
    (l ++ l').foldlM (Ledger.claimOne u w) (L, []) = .ok z ↔ ∃ x y, l.foldlM (Ledger.claimOne u w) (L, []) = .ok x ∧
      l'.foldlM (Ledger.claimOne u w) (x.1, []) = .ok y ∧ z = (y.1, x.2 ++ y.2) := by
  rw [List.foldlM_append, bind_ok_iff]
  constructor
  · rintro ⟨⟨L1, p⟩, h1, h2⟩
    rw [claimLoop_from] at h2
    cases h3 : l'.foldlM (Ledger.claimOne u w) (L1, []) with
    | error x => rw [h3] at h2; cases h2
    | ok y =>
      rw [h3] at h2
      cases h2
      exact ⟨_, y, h1, h3, rfl⟩
  · rintro ⟨⟨L1, p⟩, y, h1, h2, rfl⟩
    refine ⟨_, h1, ?_⟩
    rw [claimLoop_from, h2]
    rfl

theorem claim_parts_iff {s : State} {e : Env} {u : Addr} {d t : List Nat} {r : State × List Out} :
    claim s e u d t = .ok r ↔ e.restricted u = false ∧ e.sender = u ∧
      ∃ n c, d.foldlM (Ledger.claimOne u ((s.effective.get u).getD 0)) (s.native, []) = .ok n ∧
        t.foldlM (Ledger.claimOne u ((s.effective.get u).getD 0)) (s.cw20, []) = .ok c ∧
        r = ({ s with native := n.1, cw20 := c.1 },
          n.2.map (fun p => ⟨u, .native p.1, p.2⟩) ++ c.2.map (fun p => ⟨u, .cw20 p.1, p.2⟩)) := by
  unfold claim
  simp only [ite_ok_iff, bind_ok_iff, pure_ok_iff, ne_eq, not_not, Bool.not_eq_true]
  constructor
  · rintro ⟨h1, h2, n, h3, c, h4, rfl⟩; exact ⟨h1, h2, n, c, h3, h4, rfl⟩
  · rintro ⟨h1, h2, n, c, h3, h4, rfl⟩; exact ⟨h1, h2, n, h3, c, h4, rfl⟩

theorem claim_two {s : State} {e : Env} {u : Addr} {d d' t t' : List Nat} :
    (∀ r, claim s e u (d ++ d') (t ++ t') = .ok r → ∃ r1 r2, claim s e u d t = .ok r1 ∧ claim r1.1 e u d' t' = .ok r2) ∧
    ∀ r1 r2, claim s e u d t = .ok r1 → claim r1.1 e u d' t' = .ok r2 →
      ∃ o, claim s e u (d ++ d') (t ++ t') = .ok (r2.1, o) ∧ (r1.2 ++ r2.2).Perm o := by
  constructor
  · intro r h
    obtain ⟨h1, h2, n, c, h3, h4, _⟩ := claim_parts_iff.1 h
    obtain ⟨n1, n2, a1, a2, _⟩ := claimLoop_append.1 h3
    obtain ⟨c1, c2, b1, b2, _⟩ := claimLoop_append.1 h4
    exact ⟨_, _, claim_parts_iff.2 ⟨h1, h2, n1, c1, a1, b1, rfl⟩, claim_parts_iff.2 ⟨h1, h2, n2, c2, a2, b2, rfl⟩⟩
  · intro r1 r2 g1 g2
    obtain ⟨h1, h2, n1, c1, a1, b1, rfl⟩ := claim_parts_iff.1 g1
    obtain ⟨_, _, n2, c2, a2, b2, rfl⟩ := claim_parts_iff.1 g2
    refine ⟨_, claim_parts_iff.2 ⟨h1, h2, (n2.1, n1.2 ++ n2.2), (c2.1, c1.2 ++ c2.2),
      claimLoop_append.2 ⟨n1, n2, a1, a2, rfl⟩, claimLoop_append.2 ⟨c1, c2, b1, b2, rfl⟩, rfl⟩, ?_⟩
    simp only [List.map_append]
    rw [List.append_assoc, List.append_assoc]
    apply List.Perm.append_left
    rw [← List.append_assoc, ← List.append_assoc]
    exact List.Perm.append_right _ List.perm_append_comm

theorem accepted_claiming {s : State} {e : Env} {u : Addr} {q : List Nat × List Nat} :
    accepted s (claiming e u q) ↔ ∃ r, claim s e u q.1 q.2 = .ok r := by
  unfold accepted claiming
  simp only [true_and, exec]

theorem step_claiming {s : State} {e : Env} {u : Addr} {q : List Nat × List Nat} {r : State × List Out}
    (h : claim s e u q.1 q.2 = .ok r) : step s (claiming e u q) = r := by
  unfold step claiming
  simp only [exec, h, if_true]

/-! ## C189 -/

/-- C189. Claims of a user in several messages are all accepted exactly when one claim of everything is; they then leave
exactly the same state and pay the same amounts of the same assets, payment by payment. -/
theorem C189_together (e : Env) (u : Addr) (qs : List (List Nat × List Nat)) (hne : qs ≠ []) (s : State) :
    (eachAccepted s (qs.map (claiming e u)) ↔ accepted s (claiming e u (together qs))) ∧
    (accepted s (claiming e u (together qs)) →
      run s (qs.map (claiming e u)) = run s [claiming e u (together qs)] ∧
      (payments s (qs.map (claiming e u))).Perm (payments s [claiming e u (together qs)])) := by
  induction qs generalizing s with
  | nil => exact absurd rfl hne
  | cons q t ih =>
    by_cases ht : t = []
    · subst ht
      have : together [q] = q := by simp [together]
      rw [this]
      exact ⟨⟨fun h => h.1, fun h => ⟨h, trivial⟩⟩, fun _ => ⟨rfl, List.Perm.refl _⟩⟩
    · have hcons : together (q :: t) = (q.1 ++ (together t).1, q.2 ++ (together t).2) := by simp [together]
      have tw := claim_two (s := s) (e := e) (u := u) (d := q.1) (d' := (together t).1) (t := q.2) (t' := (together t).2)
      rw [hcons]
      refine ⟨⟨fun h => ?_, fun h => ?_⟩, fun h => ?_⟩
      · obtain ⟨h1, h2⟩ := h
        have h3 := ((ih ht _).1).1 h2
        obtain ⟨r1, g1⟩ := accepted_claiming.1 h1
        rw [step_claiming g1] at h3
        obtain ⟨r2, g2⟩ := accepted_claiming.1 h3
        obtain ⟨o, g3, _⟩ := tw.2 r1 r2 g1 g2
        exact accepted_claiming.2 ⟨_, g3⟩
      · obtain ⟨r, hr⟩ := accepted_claiming.1 h
        obtain ⟨r1, r2, g1, g2⟩ := tw.1 r hr
        refine ⟨accepted_claiming.2 ⟨_, g1⟩, ?_⟩
        have := ((ih ht (step s (claiming e u q)).1).1).2 (by
          rw [step_claiming g1]; exact accepted_claiming.2 ⟨_, g2⟩)
        exact this
      · obtain ⟨r, hr⟩ := accepted_claiming.1 h
        obtain ⟨r1, r2, g1, g2⟩ := tw.1 r hr
        obtain ⟨o, g3, g4⟩ := tw.2 r1 r2 g1 g2
        have s1 := step_claiming g1
        have s2 := step_claiming g2
        have s3 : step s (claiming e u (q.1 ++ (together t).1, q.2 ++ (together t).2)) = (r2.1, o) := step_claiming g3
        obtain ⟨i1, i2⟩ := (ih ht r1.1).2 (accepted_claiming.2 ⟨_, g2⟩)
        simp only [List.map_cons, run, payments, s1, s2, s3, List.append_nil] at i1 i2 ⊢
        exact ⟨i1, (List.Perm.append_left _ i2).trans g4⟩

/-- Both assets may be distributed. -/
def twoEnv (sender : Addr) : Env := ⟨sender, fun _ => false, ⟨Map.empty, Map.empty, Map.empty⟩, [.native 5, .cw20 6]⟩

/-- User 7 claims coins twice and tokens once: in three messages, or all of it in one. -/
example : ∃ s0, init 1 none [(7, 3), (8, 1)] = .ok s0 ∧
    accepted (run s0 [giving (twoEnv 9) 100 (.native 5), giving (twoEnv 9) 40 (.cw20 6)])
      (claiming (twoEnv 7) 7 (together [([5], []), ([], [6]), ([5], [])])) ∧
    payments (run s0 [giving (twoEnv 9) 100 (.native 5), giving (twoEnv 9) 40 (.cw20 6)])
      ([([5], []), ([], [6]), ([5], [])].map (claiming (twoEnv 7) 7)) = [⟨7, .native 5, 75⟩, ⟨7, .cw20 6, 30⟩] :=
  ⟨_, rfl, by decide +kernel, by decide +kernel⟩

end Verif.Distributor
