import Verif.Gov.Lemmas2

/-!
# Governance: votes with different keys commute
-/

namespace Verif.Gov
open Verif

/-- Two successful votes with different keys give the same state in either order. -/
theorem castVote_comm_aux {s s1 s2 s12 s21 : State} (hi : Inv s) {now now' : Nat}
    {i j : Nat} {o o' : Outcome} {v w : Addr} {a b : Nat} (ha : a < 2 ^ 128) (hb : b < 2 ^ 128)
    (hne : v ≠ w ∨ i ≠ j)
    (h1 : castVote s now i o v a = .ok s1) (h12 : castVote s1 now' j o' w b = .ok s12)
    (h2 : castVote s now' j o' w b = .ok s2) (h21 : castVote s2 now i o v a = .ok s21) : s12 = s21 := by
  have i1 := inv_castVote hi ha h1
  have i2 := inv_castVote hi hb h2
  have i12 := inv_castVote i1 hb h12
  have i21 := inv_castVote i2 ha h21
  have hkne : vkey v i ≠ vkey w j := by
    intro hk
    have := vkey_inj.1 hk
    rcases hne with h | h
    · exact h this.1
    · exact h this.2
  obtain ⟨_, _, p, hp, _, _, _, e1⟩ := castVote_ok_iff.1 h1
  obtain ⟨_, _, p', hp', _, _, _, e12⟩ := castVote_ok_iff.1 h12
  obtain ⟨_, _, q, hq, _, _, _, e2⟩ := castVote_ok_iff.1 h2
  obtain ⟨_, _, q', hq', _, _, _, e21⟩ := castVote_ok_iff.1 h21
  have hvotes : s12.votes = s21.votes := by
    rw [e12, e21, e1, e2]
    exact Map.set_comm _ _ _ hkne
  have hsums : ∀ k o, votedSum s12 k o = votedSum s21 k o := by
    intro k o; unfold votedSum; rw [hvotes]
  have hcount : s12.pollCount = s21.pollCount := by
    rw [(castVote_pollCount h12).1, (castVote_pollCount h21).1, (castVote_pollCount h1).1,
      (castVote_pollCount h2).1]
  have hadmin : s12.admin = s21.admin := by
    rw [(castVote_pollCount h12).2, (castVote_pollCount h21).2, (castVote_pollCount h1).2,
      (castVote_pollCount h2).2]
  -- results agree when the presence of keys agrees
  have hres : ∀ k P Q, s12.polls.get k = some P → s21.polls.get k = some Q → P.terms = Q.terms →
      P.status = Q.status → (∀ x, P.results.has x = Q.results.has x) → P = Q := by
    intro k P Q hP hQ ht hst hhas
    have hr : P.results = Q.results := by
      apply Map.ext_get
      intro x
      by_cases hx : P.results.has x = true
      · have hx' : Q.results.has x = true := by rw [← hhas]; exact hx
        obtain ⟨a1, ha1⟩ := Map.has_iff.1 hx
        obtain ⟨b1, hb1⟩ := Map.has_iff.1 hx'
        have hlt := i12.resKeys k P x hP hx
        have : ∃ oo : Outcome, oo.idx = x := by
          have : x = 0 ∨ x = 1 ∨ x = 2 ∨ x = 3 := by omega
          rcases this with rfl | rfl | rfl | rfl
          exacts [⟨.yes, rfl⟩, ⟨.no, rfl⟩, ⟨.abstain, rfl⟩, ⟨.veto, rfl⟩]
        obtain ⟨oo, rfl⟩ := this
        have t1 := i12.tally k P hP oo
        have t2 := i21.tally k Q hQ oo
        rw [hsums] at t1
        unfold Poll.votesFor at t1 t2
        rw [ha1] at t1 ⊢
        rw [hb1] at t2 ⊢
        simp only [Option.getD_some] at t1 t2
        rw [t1, t2]
      · have hx' : ¬ Q.results.has x = true := by rw [← hhas]; exact hx
        have n1 : P.results.get x = none := by
          cases hg : P.results.get x with
          | none => rfl
          | some a1 => exact absurd (Map.has_iff.2 ⟨a1, hg⟩) hx
        have n2 : Q.results.get x = none := by
          cases hg : Q.results.get x with
          | none => rfl
          | some a1 => exact absurd (Map.has_iff.2 ⟨a1, hg⟩) hx'
        rw [n1, n2]
    cases P; cases Q
    simp only [Poll.terms, Terms.mk.injEq] at ht
    simp only at hst hr
    simp_all
  have hpolls : s12.polls = s21.polls := by
    by_cases hij : i = j
    · subst hij
      rw [e1] at hp' e12
      rw [e2] at hq' e21
      simp only [Map.get_set_self, Option.some.injEq] at hp' hq'
      have hpq : p = q := by rw [hp] at hq; exact Option.some.inj hq
      subst hpq
      have g12 : s12.polls.get i = some (p'.recount (s1.votes.get (vkey w i)) o' b) := by
        rw [e12, e1]; simp
      have g21 : s21.polls.get i = some (q'.recount (s2.votes.get (vkey v i)) o a) := by
        rw [e21, e2]; simp
      have heq := hres i _ _ g12 g21 (by rw [terms_recount, terms_recount, ← hp', ← hq']; simp)
        (by rw [status_recount, status_recount, ← hp', ← hq']; simp) (by
          intro x
          rw [has_recount, has_recount, ← hp', ← hq', has_recount, has_recount]
          cases decide (o.idx = x) <;> cases decide (o'.idx = x) <;> simp)
      apply Map.ext_get
      intro k
      by_cases hk : i = k
      · subst hk; rw [g12, g21, heq]
      · rw [e12, e21]
        simp [Map.get_set, hk]
    · have hji : ¬ j = i := fun hh => hij hh.symm
      have hpp : p' = q := by
        rw [e1] at hp'
        simp only [Map.get_set, hij, if_false] at hp'
        rw [hq] at hp'; exact (Option.some.inj hp').symm
      have hqq : q' = p := by
        rw [e2] at hq'
        simp only [Map.get_set, hji, if_false] at hq'
        rw [hp] at hq'; exact (Option.some.inj hq').symm
      subst hpp; subst hqq
      have hv1 : s1.votes.get (vkey w j) = s.votes.get (vkey w j) := by
        rw [e1]; simp [Map.get_set, hkne]
      have hv2 : s2.votes.get (vkey v i) = s.votes.get (vkey v i) := by
        rw [e2]; simp [Map.get_set, hkne.symm]
      rw [e12, e21, hv1, hv2, e1, e2]
      exact Map.set_comm _ _ _ hij
  cases s12; cases s21
  simp_all

/-- A vote does not influence whether another vote is accepted. -/
theorem castVote_accepts {s s1 : State} {now now' i j : Nat} {o o' : Outcome} {v w : Addr} {a b : Nat}
    (h1 : castVote s now i o v a = .ok s1) :
    (∃ s2, castVote s1 now' j o' w b = .ok s2) ↔ (∃ s2, castVote s now' j o' w b = .ok s2) := by
  obtain ⟨_, _, p, hp, hl, hst, hen, rfl⟩ := castVote_ok_iff.1 h1
  have ht := terms_recount p (s.votes.get (vkey v i)) o a
  have hs := status_recount p (s.votes.get (vkey v i)) o a
  have e1 := terms_startedAt ht
  have e2 := terms_endsAt ht
  constructor
  · rintro ⟨s2, h2⟩
    obtain ⟨g0, g1, q, hq, gl, gst, gen, -⟩ := castVote_ok_iff.1 h2
    simp only [Map.get_set] at hq
    split at hq
    · rename_i hij
      subst hij
      cases hq
      refine ⟨_, castVote_ok_iff.2 ⟨g0, g1, p, hp, hl, ?_, ?_, rfl⟩⟩
      · rw [← e1]; exact gst
      · rw [← e2]; exact gen
    · exact ⟨_, castVote_ok_iff.2 ⟨g0, g1, q, hq, gl, gst, gen, rfl⟩⟩
  · rintro ⟨s2, h2⟩
    obtain ⟨g0, g1, q, hq, gl, gst, gen, -⟩ := castVote_ok_iff.1 h2
    by_cases hij : i = j
    · subst hij
      rw [hp] at hq; cases hq
      refine ⟨_, castVote_ok_iff.2 ⟨g0, g1, _, by simp; rfl, ?_, ?_, ?_, rfl⟩⟩
      · unfold Poll.live; rw [hs]; exact hl
      · rw [e1]; exact gst
      · rw [e2]; exact gen
    · exact ⟨_, castVote_ok_iff.2 ⟨g0, g1, q, by simp [Map.get_set, hij, hq], gl, gst, gen, rfl⟩⟩

/-- The effect of a message that may fail. -/
theorem step_castVote (s : State) (now : Nat) (sender : Addr) (i : Nat) (o : Outcome) (v : Addr) (a : Nat) :
    step s ⟨now, sender, .castVote i o v a⟩ =
      if sender = s.admin then (match castVote s now i o v a with | .ok s' => s' | .error _ => s) else s := by
  unfold step exec
  by_cases h : sender = s.admin
  · simp only [h, ne_eq, not_true, if_false, if_true]
    cases castVote s now i o v a <;> rfl
  · simp [h]

/-- Votes with different keys commute, whether accepted or not. -/
theorem step_castVote_comm {s : State} (hi : Inv s) {now now' : Nat} {x x' : Addr}
    {i j : Nat} {o o' : Outcome} {v w : Addr} {a b : Nat} (ha : a < 2 ^ 128) (hb : b < 2 ^ 128)
    (hne : v ≠ w ∨ i ≠ j) :
    step (step s ⟨now, x, .castVote i o v a⟩) ⟨now', x', .castVote j o' w b⟩ =
      step (step s ⟨now', x', .castVote j o' w b⟩) ⟨now, x, .castVote i o v a⟩ := by
  by_cases hx : x = s.admin
  · by_cases hx' : x' = s.admin
    · have e1 := step_castVote s now x i o v a
      have e2 := step_castVote s now' x' j o' w b
      rw [if_pos hx] at e1
      rw [if_pos hx'] at e2
      cases h1 : castVote s now i o v a with
      | error e =>
        rw [h1] at e1
        simp only at e1
        rw [e1]
        cases h2 : castVote s now' j o' w b with
        | error e' =>
          rw [h2] at e2
          simp only at e2
          rw [e2, e1]
        | ok s2 =>
          rw [h2] at e2
          simp only at e2
          rw [e2, step_castVote, if_pos (by rw [(castVote_pollCount h2).2]; exact hx)]
          cases h21 : castVote s2 now i o v a with
          | error _ => rfl
          | ok s21 =>
            have := (castVote_accepts (now' := now) (j := i) (o' := o) (w := v) (b := a) h2).1 ⟨s21, h21⟩
            rw [h1] at this
            obtain ⟨_, hh⟩ := this
            cases hh
      | ok s1 =>
        rw [h1] at e1
        simp only at e1
        rw [e1, step_castVote, if_pos (by rw [(castVote_pollCount h1).2]; exact hx')]
        cases h2 : castVote s now' j o' w b with
        | error e' =>
          rw [h2] at e2
          simp only at e2
          rw [e2, e1]
          cases h12 : castVote s1 now' j o' w b with
          | error _ => rfl
          | ok s12 =>
            have := (castVote_accepts (now' := now') (j := j) (o' := o') (w := w) (b := b) h1).1 ⟨s12, h12⟩
            rw [h2] at this
            obtain ⟨_, hh⟩ := this
            cases hh
        | ok s2 =>
          rw [h2] at e2
          simp only at e2
          rw [e2, step_castVote, if_pos (by rw [(castVote_pollCount h2).2]; exact hx)]
          obtain ⟨s12, h12⟩ := (castVote_accepts (now' := now') (j := j) (o' := o') (w := w) (b := b) h1).2 ⟨s2, h2⟩
          obtain ⟨s21, h21⟩ := (castVote_accepts (now' := now) (j := i) (o' := o) (w := v) (b := a) h2).2 ⟨s1, h1⟩
          rw [h12, h21]
          exact castVote_comm_aux hi ha hb hne h1 h12 h2 h21
    · have hno : ∀ t : State, t.admin = s.admin → step t ⟨now', x', .castVote j o' w b⟩ = t := by
        intro t ht; rw [step_castVote, if_neg (by rw [ht]; exact hx')]
      rw [hno s rfl, hno]
      rw [step_castVote, if_pos hx]
      cases h1 : castVote s now i o v a with
      | error _ => rfl
      | ok s1 => exact (castVote_pollCount h1).2
  · have hno : ∀ t : State, t.admin = s.admin → step t ⟨now, x, .castVote i o v a⟩ = t := by
      intro t ht; rw [step_castVote, if_neg (by rw [ht]; exact hx)]
    rw [hno s rfl, hno]
    rw [step_castVote]
    split
    · cases h1 : castVote s now' j o' w b with
      | error _ => rfl
      | ok s1 => exact (castVote_pollCount h1).2
    · rfl

/-- The check for early ending, from the recorded votes. -/
theorem earlyOk_iff {s : State} (h : Inv s) {i m : Nat} {p : Poll} (hp : s.polls.get i = some p)
    (hfit : votedTotal s i < 2 ^ 128) :
    earlyOk m p ↔ quorumMet (votedTotal s i) m p.quorum ∧ someOptionReaches s i p := by
  obtain ⟨h1, h2⟩ := totalVotes_of_inv h hp hfit
  have hb : wsub128 p.totalVotes (p.votesFor .abstain) =
      votedSum s i .yes + votedSum s i .no + votedSum s i .veto := by
    rw [h2, h1, votedTotal_eq, wsub128_of_le (by omega) (by rw [← votedTotal_eq]; exact hfit)]; omega
  have hthr : ∀ o, (o ≠ Outcome.abstain) → (p.thresholdReached o = true ↔ reaches (votedSum s i o)
      (votedSum s i .yes + votedSum s i .no + votedSum s i .veto) (p.thresholdFor o)) := by
    intro o ho
    unfold Poll.thresholdReached Poll.geThreshold
    rw [decide_eq_true_iff, hb, h1]
    apply le_ratio_of_le
    cases o <;> simp_all <;> omega
  unfold earlyOk someOptionReaches
  have hq : p.quorumReached p.quorum m = true ↔ quorumMet (votedTotal s i) m p.quorum := by
    unfold Poll.quorumReached quorumMet
    rw [decide_eq_true_iff, h2, le_ratio_iff]
  rw [hq]
  apply and_congr_right
  intro _
  have hv := hthr .veto (by simp)
  have hy := hthr .yes (by simp)
  have hn := hthr .no (by simp)
  simp only [Poll.thresholdFor, if_true] at hv hy hn
  simp only [reduceCtorEq, if_false] at hy hn
  change _ ↔ (reaches _ _ _ ∨ reaches _ _ _ ∨ reaches _ _ _)
  rw [← hv, ← hy, ← hn]
  unfold Poll.mostVoted
  cases p.thresholdReached .veto <;> cases p.thresholdReached .yes <;> cases p.thresholdReached .no <;>
    simp
  split_ifs <;> simp

end Verif.Gov
