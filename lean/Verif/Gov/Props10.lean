import Verif.Gov.Props9

/-!
# Governance: what stricter rules do (C180)
-/

set_option linter.unusedSimpArgs false

namespace Verif.Gov

/-! ## Specification

`Passes s i m` (C145): if poll `i` ended now, with `m` votes available, it would pass. `Vetoed s i`: the veto votes reach the
threshold for a veto. -/

/-- Poll `i` in one state and poll `j` in the other have the same votes for each option. -/
def SameVotes (s : State) (i : Nat) (s' : State) (j : Nat) : Prop := ∀ o, votedSum s i o = votedSum s' j o

/-! ## C180 -/

theorem reaches_lax {c b t t' : Nat} (h : t' ≤ t) (hr : reaches c b t) : reaches c b t' := by
  unfold reaches at hr ⊢
  rcases hr with hr | ⟨h1, h2⟩
  · exact Or.inl (by omega)
  · exact Or.inr ⟨h1, le_trans (Nat.mul_le_mul_right _ h) h2⟩

theorem quorum_lax {n m m' q q' : Nat} (hq : q' ≤ q) (hm : m' ≤ m) (hn : n ≤ m') (h0 : 0 < n) (h : quorumMet n m q) :
    quorumMet n m' q' := by
  unfold quorumMet at h ⊢
  rcases h with h | ⟨h1, h2, _⟩
  · exact Or.inl (by omega)
  · refine Or.inr ⟨by omega, le_trans (Nat.mul_le_mul hq hm) h2, ?_⟩
    calc n * 10 ^ 18 ≤ m' * 10 ^ 18 := Nat.mul_le_mul_right _ hn
      _ < m' * 2 ^ 128 := Nat.mul_lt_mul_of_pos_left (by decide) (by omega)
      _ = 2 ^ 128 * m' := Nat.mul_comm _ _

/-- **Laxer rules let more pass, unless they make it easier to veto.** Two polls with the same votes, in whatever histories; the
second has a quorum, a threshold and a number of available votes that are not larger. If the first passes, the second passes or
is vetoed. -/
theorem C180_laxer {s s' : State} (h : Reachable s) (h' : Reachable s') {i j : Nat} {p q : Poll} (hp : queryPoll s i = .ok p)
    (hq : queryPoll s' j = .ok q) (hv : SameVotes s i s' j) (hquorum : q.quorum ≤ p.quorum) (hthr : q.threshold ≤ p.threshold)
    {m m' : Nat} (hm : m' ≤ m) (hcast : votedTotal s' j ≤ m') (hfit : m' < 2 ^ 128) (hpass : Passes s i m) :
    Passes s' j m' ∨ Vetoed s' j := by
  have htot : votedTotal s i = votedTotal s' j := by
    rw [votedTotal_eq, votedTotal_eq, hv .yes, hv .no, hv .abstain, hv .veto]
  have f' : votedTotal s' j < 2 ^ 128 := by omega
  rw [passes_iff h hp (by omega), htot, hv .yes, hv .no, hv .veto] at hpass
  rw [passes_iff h' hq f']
  obtain ⟨h1, _, h3, h4⟩ := hpass
  by_cases hve : reaches (votedSum s' j .veto) (votedSum s' j .yes + votedSum s' j .no + votedSum s' j .veto)
      (q.vetoThreshold.getD q.threshold)
  · exact Or.inr ⟨q, hq, hve⟩
  · refine Or.inl ⟨quorum_lax hquorum hm hcast ?_ h1, hve, reaches_lax hthr h3, h4⟩
    rw [votedTotal_eq]
    omega

/-- **Stricter rules let less pass**, where the threshold for a veto is not raised: a poll that passes with the stricter rules
passes with the laxer ones. -/
theorem C180_stricter {s s' : State} (h : Reachable s) (h' : Reachable s') {i j : Nat} {p q : Poll} (hp : queryPoll s i = .ok p)
    (hq : queryPoll s' j = .ok q) (hv : SameVotes s i s' j) (hquorum : q.quorum ≤ p.quorum) (hthr : q.threshold ≤ p.threshold)
    (hveto : p.vetoThreshold.getD p.threshold ≤ q.vetoThreshold.getD q.threshold)
    {m m' : Nat} (hm : m' ≤ m) (hcast : votedTotal s' j ≤ m') (hfit : m' < 2 ^ 128) (hpass : Passes s i m) :
    Passes s' j m' := by
  rcases C180_laxer h h' hp hq hv hquorum hthr hm hcast hfit hpass with hh | ⟨q', hq', hr⟩
  · exact hh
  · exfalso
    rw [hq] at hq'
    cases hq'
    have htot : votedTotal s i = votedTotal s' j := by
      rw [votedTotal_eq, votedTotal_eq, hv .yes, hv .no, hv .abstain, hv .veto]
    rw [passes_iff h hp (by omega), hv .yes, hv .no, hv .veto] at hpass
    exact hpass.2.1 (reaches_lax hveto hr)

/-- In particular with a threshold of its own for vetoes, the same before and after. -/
theorem C180_own_veto {s s' : State} (h : Reachable s) (h' : Reachable s') {i j : Nat} {p q : Poll} (hp : queryPoll s i = .ok p)
    (hq : queryPoll s' j = .ok q) (hv : SameVotes s i s' j) (hquorum : q.quorum ≤ p.quorum) (hthr : q.threshold ≤ p.threshold)
    {v : Nat} (hpv : p.vetoThreshold = some v) (hqv : q.vetoThreshold = some v)
    {m m' : Nat} (hm : m' ≤ m) (hcast : votedTotal s' j ≤ m') (hfit : m' < 2 ^ 128) (hpass : Passes s i m) :
    Passes s' j m' :=
  C180_stricter h h' hp hq hv hquorum hthr (by rw [hpv, hqv]; exact le_refl _) hm hcast hfit hpass

/-- A poll with this threshold, with 60 votes for and 40 vetoes. -/
def contested (t : Nat) (v : Option Nat) : State :=
  run (init 1) [⟨10, 1, .createPoll ⟨5, 0, 0, 0, 100, ONE / 10, t, v⟩⟩, ⟨11, 1, .castVote 1 .yes 7 60⟩,
    ⟨12, 1, .castVote 1 .veto 8 40⟩]

theorem contested_reachable {t : Nat} {v : Option Nat} (ht : t < M128) (hv : ∀ x, v = some x → x < M128) :
    Reachable (contested t v) := by
  refine ⟨1, _, ?_, by simp [creates, M64], rfl⟩
  intro c hc
  simp only [List.mem_cons, List.not_mem_nil, or_false] at hc
  rcases hc with rfl | rfl | rfl
  · exact ⟨(by decide : ONE / 10 < M128), ht, hv⟩
  · show 60 < M128; decide
  · show 40 < M128; decide

/-- **Raising the threshold can make a proposal pass**, if there is no threshold for vetoes: then the threshold is that for
vetoes, too. With a threshold of 30% a proposal with 60% for it and 40% vetoes is vetoed; with one of 50% it passes. -/
theorem C180_raised_witness : Reachable (contested (3 * ONE / 10) none) ∧ Reachable (contested (ONE / 2) none) ∧
    SameVotes (contested (3 * ONE / 10) none) 1 (contested (ONE / 2) none) 1 ∧
    ¬ Passes (contested (3 * ONE / 10) none) 1 100 ∧ Passes (contested (ONE / 2) none) 1 100 ∧
    simulateEnd (contested (3 * ONE / 10) none) 1 100 = .ok (.rejected .isVetoOutcome) := by
  refine ⟨contested_reachable (by decide) (fun x hx => by cases hx), contested_reachable (by decide) (fun x hx => by cases hx),
    fun o => by cases o <;> decide +kernel, ?_, ⟨0, 60, by decide +kernel⟩, by decide +kernel⟩
  rintro ⟨o, n, hh⟩
  have : simulateEnd (contested (3 * ONE / 10) none) 1 100 = .ok (.rejected .isVetoOutcome) := by decide +kernel
  rw [this] at hh
  cases hh

/-- Hypotheses of `C180_own_veto`, so of the others: the same votes with thresholds of 60% and 50%, vetoes at 50%. -/
example : ∃ p q, queryPoll (contested (6 * ONE / 10) (some (ONE / 2))) 1 = .ok p ∧
    queryPoll (contested (ONE / 2) (some (ONE / 2))) 1 = .ok q ∧ q.quorum ≤ p.quorum ∧ q.threshold < p.threshold ∧
    p.vetoThreshold = some (ONE / 2) ∧ q.vetoThreshold = some (ONE / 2) ∧
    SameVotes (contested (6 * ONE / 10) (some (ONE / 2))) 1 (contested (ONE / 2) (some (ONE / 2))) 1 ∧
    Reachable (contested (6 * ONE / 10) (some (ONE / 2))) ∧ Reachable (contested (ONE / 2) (some (ONE / 2))) ∧
    votedTotal (contested (ONE / 2) (some (ONE / 2))) 1 ≤ 200 ∧ Passes (contested (6 * ONE / 10) (some (ONE / 2))) 1 300 :=
  ⟨_, _, rfl, rfl, by decide +kernel, by decide +kernel, by decide +kernel, by decide +kernel,
    fun o => by cases o <;> decide +kernel, contested_reachable (by decide) (fun x hx => by cases hx; decide),
    contested_reachable (by decide) (fun x hx => by cases hx; decide), by decide +kernel, ⟨0, 60, by decide +kernel⟩⟩

end Verif.Gov
