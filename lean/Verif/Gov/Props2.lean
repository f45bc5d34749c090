import Verif.Gov.Props
import Verif.Base.Except

/-!
# Governance: how one vote can change a result (C145)
-/

set_option linter.unusedSimpArgs false

namespace Verif.Gov
open Verif

/-! ### Specification -/

/-- If poll `i` ended now, with `m` votes available, it would pass. -/
def Passes (s : State) (i m : Nat) : Prop := ∃ o n, simulateEnd s i m = .ok (.passed o n)

/-- The votes on poll `i` reach its quorum. -/
def Quorate (s : State) (i m : Nat) : Prop :=
  ∃ p, queryPoll s i = .ok p ∧ quorumMet (votedTotal s i) m p.quorum

/-- The veto votes on poll `i` reach the threshold for a veto. -/
def Vetoed (s : State) (i : Nat) : Prop :=
  ∃ p, queryPoll s i = .ok p ∧ reaches (votedSum s i .veto) (votedSum s i .yes + votedSum s i .no + votedSum s i .veto)
    (p.vetoThreshold.getD p.threshold)

/-! ### Lemmas -/

theorem queryPoll_iff {s : State} {i : Nat} {p : Poll} : queryPoll s i = .ok p ↔ s.polls.get i = some p := by
  unfold queryPoll
  cases s.polls.get i with
  | none => simp
  | some q => simp

/-- The rule for passing, in short. -/
theorem rule_passed {y n a v q t : Nat} {vt : Option Nat} {m : Nat} :
    (∃ o c, ruleStatus y n a v q t vt m = .passed o c) ↔
      quorumMet (y + n + a + v) m q ∧ ¬ reaches v (y + n + v) (vt.getD t) ∧ reaches y (y + n + v) t ∧ n < y := by
  unfold ruleStatus
  simp only
  by_cases h1 : quorumMet (y + n + a + v) m q
  · by_cases h2 : reaches v (y + n + v) (vt.getD t)
    · simp [h1, h2]
    · by_cases h3 : reaches y (y + n + v) t
      · by_cases h4 : n < y
        · simp [h1, h2, h3, h4]
        · have h5 : reaches n (y + n + v) t := by
            unfold reaches at h3 ⊢
            rcases h3 with h3 | ⟨h3, h6⟩
            · exact Or.inl h3
            · exact Or.inr ⟨h3, le_trans h6 (Nat.mul_le_mul_right _ (by omega))⟩
          simp only [h1, h2, h3, h4, h5, not_true, if_false, or_false, and_false, true_and, not_false_eq_true, false_or]
          constructor
          · rintro ⟨o, c, h⟩
            split at h
            · cases h
            · split at h <;> cases h
          · intro h; exact absurd h (by simp)
      · simp only [h1, h2, h3, not_true, if_false, false_and, and_false, not_false_eq_true, true_and, true_or, and_true]
        constructor
        · rintro ⟨o, c, h⟩
          split at h <;> cases h
        · intro h; exact absurd h (by simp)
  · simp [h1]

theorem passes_iff {s : State} (h : Reachable s) {i : Nat} {p : Poll} (hp : queryPoll s i = .ok p)
    (hfit : votedTotal s i < 2 ^ 128) (m : Nat) :
    Passes s i m ↔ quorumMet (votedTotal s i) m p.quorum ∧
      ¬ reaches (votedSum s i .veto) (votedSum s i .yes + votedSum s i .no + votedSum s i .veto)
        (p.vetoThreshold.getD p.threshold) ∧
      reaches (votedSum s i .yes) (votedSum s i .yes + votedSum s i .no + votedSum s i .veto) p.threshold ∧
      votedSum s i .no < votedSum s i .yes := by
  unfold Passes
  rw [C05_final_status_rule h hp hfit, votedTotal_eq]
  simp only [Except.ok.injEq]
  exact rule_passed

/-- What a voter had on a poll for an option. -/
def had (s : State) (i : Nat) (u : Addr) (o : Outcome) : Nat :=
  match queryPollVoter s i u with
  | some v => if v.outcome = o then v.amount else 0
  | none => 0

/-- The sums before and after a vote. -/
theorem vote_sums {s s' : State} (h : Reachable s) {now : Nat} {sender : Addr} {i : Nat} {o : Outcome} {u : Addr} {a : Nat}
    (he : exec s ⟨now, sender, .castVote i o u a⟩ = .ok s') :
    (∀ x, votedSum s' i x + had s i u x = votedSum s i x + if o = x then a else 0) ∧
    ∃ p p', queryPoll s i = .ok p ∧ queryPoll s' i = .ok p' ∧ p'.quorum = p.quorum ∧ p'.threshold = p.threshold ∧
      p'.vetoThreshold = p.vetoThreshold := by
  unfold exec at he
  rw [ite_ok_iff] at he
  obtain ⟨_, _, p, hp, _, _, _, rfl⟩ := castVote_ok_iff.1 he.2
  refine ⟨fun x => ?_, p, _, queryPoll_iff.2 hp, queryPoll_iff.2 (Map.get_set_self _ _ _), (congrArg Terms.quorum (terms_recount p _ o a) :),
    (congrArg Terms.threshold (terms_recount p _ o a) :), (congrArg Terms.vetoThreshold (terms_recount p _ o a) :)⟩
  have hs := votedSum_set s i x (vkey u i) ⟨i, u, o, a⟩ (s.polls.set i (p.recount (s.votes.get (vkey u i)) o a))
  simp only [true_and] at hs
  rw [← hs]
  congr 1
  unfold had queryPollVoter Map.contrib
  cases hv : s.votes.get (vkey u i) with
  | none => rfl
  | some v =>
    have hk := (h.inv.vkeys _ _ hv).1
    have := (vkey_inj.1 hk).2
    simp only [← this, true_and]

theorem vote_reachable {s s' : State} (h : Reachable s) {now : Nat} {sender : Addr} {i : Nat} {o : Outcome} {u : Addr}
    {a : Nat} (ha : a < 2 ^ 128) (he : exec s ⟨now, sender, .castVote i o u a⟩ = .ok s') : Reachable s' := by
  obtain ⟨ad, l, h1, h2, rfl⟩ := h
  refine ⟨ad, l ++ [⟨now, sender, .castVote i o u a⟩], ?_, ?_, ?_⟩
  · intro c hc
    rcases List.mem_append.1 hc with hc | hc
    · exact h1 c hc
    · rw [List.mem_singleton.1 hc]; exact ha
  · have : ∀ l : List Call, creates (l ++ [⟨now, sender, .castVote i o u a⟩]) = creates l := by
      intro l
      induction l with
      | nil => rfl
      | cons c t ih => simp only [List.cons_append, creates, ih]
    rw [this]; exact h2
  · have : ∀ (l : List Call) (x : State), run x (l ++ [⟨now, sender, .castVote i o u a⟩]) =
        step (run x l) ⟨now, sender, .castVote i o u a⟩ := by
      intro l
      induction l with
      | nil => intro x; rfl
      | cons c t ih => intro x; exact ih _
    rw [this]
    unfold step
    rw [he]

/-- A vote that does not lower the amount of the voter: the four sums, what moved between them, and the terms. -/
theorem vote_shape {s s' : State} (h : Reachable s) {now : Nat} {sender : Addr} {i : Nat} {o : Outcome} {u : Addr} {a : Nat}
    (ha : a < 2 ^ 128) (he : exec s ⟨now, sender, .castVote i o u a⟩ = .ok s')
    (hold : ∀ w, queryPollVoter s i u = some w → w.amount ≤ a) {m : Nat} (hm : votedTotal s' i ≤ m) (hm' : m < 2 ^ 128) :
    ∃ p x, x ≤ a ∧ queryPoll s i = .ok p ∧
      (∀ e, had s i u e = match queryPollVoter s i u with | some w => if w.outcome = e then x else 0 | none => 0) ∧
      (∀ e, votedSum s' i e + had s i u e = votedSum s i e + if o = e then a else 0) ∧
      votedTotal s i ≤ votedTotal s' i ∧
      (Quorate s i m → Quorate s' i m) ∧
      (Quorate s i m ↔ quorumMet (votedTotal s i) m p.quorum) ∧
      (Quorate s' i m ↔ quorumMet (votedTotal s' i) m p.quorum) ∧
      (Passes s i m ↔ quorumMet (votedTotal s i) m p.quorum ∧
        ¬ reaches (votedSum s i .veto) (votedSum s i .yes + votedSum s i .no + votedSum s i .veto)
          (p.vetoThreshold.getD p.threshold) ∧
        reaches (votedSum s i .yes) (votedSum s i .yes + votedSum s i .no + votedSum s i .veto) p.threshold ∧
        votedSum s i .no < votedSum s i .yes) ∧
      (Passes s' i m ↔ quorumMet (votedTotal s' i) m p.quorum ∧
        ¬ reaches (votedSum s' i .veto) (votedSum s' i .yes + votedSum s' i .no + votedSum s' i .veto)
          (p.vetoThreshold.getD p.threshold) ∧
        reaches (votedSum s' i .yes) (votedSum s' i .yes + votedSum s' i .no + votedSum s' i .veto) p.threshold ∧
        votedSum s' i .no < votedSum s' i .yes) ∧ p.threshold ≤ ONE := by
  obtain ⟨hs, p, p', hp, hp', h1, h2, h3⟩ := vote_sums h he
  have hr := vote_reachable h ha he
  have hle : votedTotal s i ≤ votedTotal s' i := by
    have e1 := hs .yes
    have e2 := hs .no
    have e3 := hs .abstain
    have e4 := hs .veto
    rw [votedTotal_eq, votedTotal_eq]
    unfold had at e1 e2 e3 e4
    cases hv : queryPollVoter s i u with
    | none =>
      rw [hv] at e1 e2 e3 e4
      simp only at e1 e2 e3 e4
      omega
    | some w =>
      have := hold w hv
      rw [hv] at e1 e2 e3 e4
      cases hw : w.outcome <;> cases o <;> simp [hw] at e1 e2 e3 e4 <;> omega
  have q1 : Quorate s i m ↔ quorumMet (votedTotal s i) m p.quorum := by
    unfold Quorate
    constructor
    · rintro ⟨r, hr, hq⟩
      rw [hp] at hr
      cases hr
      exact hq
    · exact fun hq => ⟨p, hp, hq⟩
  have q2 : Quorate s' i m ↔ quorumMet (votedTotal s' i) m p.quorum := by
    unfold Quorate
    rw [← h1]
    constructor
    · rintro ⟨r, hr, hq⟩
      rw [hp'] at hr
      cases hr
      exact hq
    · exact fun hq => ⟨p', hp', hq⟩
  refine ⟨p, (match queryPollVoter s i u with | some w => w.amount | none => 0), ?_, hp, ?_, hs, hle, ?_, q1, q2, ?_, ?_,
    (h.inv.typed i p (queryPoll_iff.1 hp)).1⟩
  · cases hv : queryPollVoter s i u with
    | none => exact Nat.zero_le _
    | some w => exact hold w hv
  · intro e
    unfold had
    cases hv : queryPollVoter s i u with
    | none => rfl
    | some w => rfl
  · rw [q1, q2]
    unfold quorumMet
    rintro (hq | ⟨hq, hq1, _⟩)
    · exact Or.inl hq
    · refine Or.inr ⟨hq, le_trans hq1 (Nat.mul_le_mul_right _ hle), ?_⟩
      calc votedTotal s' i * 10 ^ 18 ≤ m * 10 ^ 18 := Nat.mul_le_mul_right _ hm
        _ = 10 ^ 18 * m := Nat.mul_comm _ _
        _ < 2 ^ 128 * m := Nat.mul_lt_mul_of_pos_right (by decide) hq
  · exact passes_iff h hp (by omega) m
  · have := passes_iff hr hp' (by omega) m
    rw [h1, h2, h3] at this
    exact this

theorem reaches_up {y n v y' n' v' t : Nat} (ht : t ≤ ONE) (h1 : y ≤ y') (h2 : n' ≤ n) (h3 : v' ≤ v)
    (h : reaches y (y + n + v) t) (hpos : 0 < y) : reaches y' (y' + n' + v') t := by
  unfold reaches at h ⊢
  rcases h with h | ⟨_, h⟩
  · exact Or.inl h
  · refine Or.inr ⟨by omega, ?_⟩
    obtain ⟨d, rfl⟩ := Nat.exists_eq_add_of_le h1
    have ht' : t ≤ 10 ^ 18 := ht
    calc t * (y + d + n' + v') ≤ t * (y + n + v + d) := Nat.mul_le_mul_left _ (by omega)
      _ = t * (y + n + v) + t * d := Nat.mul_add _ _ _
      _ ≤ y * 10 ^ 18 + 10 ^ 18 * d := Nat.add_le_add h (Nat.mul_le_mul_right _ ht')
      _ = (y + d) * 10 ^ 18 := by rw [Nat.add_mul, Nat.mul_comm (10 ^ 18) d]

theorem reaches_down {c c' b b' t : Nat} (h1 : c' ≤ c) (h2 : b ≤ b') (h : reaches c' b' t) (hpos : 0 < b) :
    reaches c b t := by
  unfold reaches at h ⊢
  rcases h with h | ⟨_, h⟩
  · exact Or.inl h
  · exact Or.inr ⟨hpos, le_trans (Nat.mul_le_mul_left _ h2) (le_trans h (Nat.mul_le_mul_right _ h1))⟩

/-- A share that grows by what is added to the base goes on reaching a threshold. -/
theorem reaches_add {c c' b b' t : Nat} (hcb : c ≤ b) (h1 : b ≤ b') (h2 : b' + c ≤ b + c') (h : reaches c b t) :
    reaches c' b' t := by
  unfold reaches at h ⊢
  rcases h with h | ⟨h0, h⟩
  · exact Or.inl h
  · refine Or.inr ⟨by omega, ?_⟩
    have ht : t ≤ 10 ^ 18 := by
      by_contra hn
      have : b * 10 ^ 18 < t * b := by
        rw [Nat.mul_comm t b]
        exact Nat.mul_lt_mul_of_pos_left (by omega) h0
      have := Nat.mul_le_mul_right (10 ^ 18) hcb
      omega
    obtain ⟨d, rfl⟩ := Nat.exists_eq_add_of_le h1
    have hc : c + d ≤ c' := by omega
    calc t * (b + d) = t * b + t * d := Nat.mul_add _ _ _
      _ ≤ c * 10 ^ 18 + 10 ^ 18 * d := Nat.add_le_add h (Nat.mul_le_mul_right _ ht)
      _ = (c + d) * 10 ^ 18 := by rw [Nat.add_mul, Nat.mul_comm (10 ^ 18) d]
      _ ≤ c' * 10 ^ 18 := Nat.mul_le_mul_right _ hc

/-! ## C145: how one vote can change a result -/

/-- **A vote never loses a quorum**, whatever it is for, if the voter does not lower the amount. -/
theorem C145_quorum_kept {s s' : State} (h : Reachable s) {now : Nat} {sender : Addr} {i : Nat} {o : Outcome} {u : Addr}
    {a : Nat} (ha : a < 2 ^ 128) (he : exec s ⟨now, sender, .castVote i o u a⟩ = .ok s')
    (hold : ∀ w, queryPollVoter s i u = some w → w.amount ≤ a) {m : Nat} (hm : votedTotal s' i ≤ m) (hm' : m < 2 ^ 128)
    (hq : Quorate s i m) : Quorate s' i m := by
  obtain ⟨_, _, _, _, _, _, _, hk, _⟩ := vote_shape h ha he hold hm hm'
  exact hk hq

/-- **A "yes" never hurts.** A poll that would pass before a vote for "yes" would pass after it, whatever the voter
had voted before. -/
theorem C145_yes_never_hurts {s s' : State} (h : Reachable s) {now : Nat} {sender : Addr} {i : Nat} {u : Addr} {a : Nat}
    (ha : a < 2 ^ 128) (he : exec s ⟨now, sender, .castVote i .yes u a⟩ = .ok s')
    (hold : ∀ w, queryPollVoter s i u = some w → w.amount ≤ a) {m : Nat} (hm : votedTotal s' i ≤ m) (hm' : m < 2 ^ 128)
    (hp : Passes s i m) : Passes s' i m := by
  obtain ⟨p, x, hx, _, hh, hs, _, hk, q1, q2, p1, p2, ht⟩ := vote_shape h ha he hold hm hm'
  have hsh : votedSum s i .yes ≤ votedSum s' i .yes ∧ votedSum s' i .no ≤ votedSum s i .no ∧
      votedSum s' i .veto ≤ votedSum s i .veto ∧
      votedSum s i .yes + votedSum s i .no + votedSum s i .veto ≤
        votedSum s' i .yes + votedSum s' i .no + votedSum s' i .veto := by
    have e1 := hs .yes
    have e2 := hs .no
    have e4 := hs .veto
    rw [hh] at e1 e2 e4
    cases hv : queryPollVoter s i u with
    | none => rw [hv] at e1 e2 e4; simp at e1 e2 e4; omega
    | some w => rw [hv] at e1 e2 e4; cases hw : w.outcome <;> simp [hw] at e1 e2 e4 <;> omega
  obtain ⟨g1, g2, g3, g4⟩ := hsh
  rw [p1] at hp
  obtain ⟨r1, r2, r3, r4⟩ := hp
  rw [p2]
  refine ⟨q2.1 (hk (q1.2 r1)), fun hn => r2 ?_, reaches_up ht g1 g2 g3 r3 (by omega), by omega⟩
  exact reaches_down g3 g4 hn (by omega)

example : ∃ s', exec sampleState ⟨20, 1, .castVote 2 .yes 9 5⟩ = .ok s' ∧ Passes sampleState 2 100 ∧ votedTotal s' 2 ≤ 100 ∧
    queryPollVoter sampleState 2 9 = none := ⟨_, rfl, ⟨0, 25, by decide +kernel⟩, by decide +kernel, by decide +kernel⟩

/-- **A "no" can help in two ways only**: by making up the quorum, or by diluting a veto. -/
theorem C145_no_never_helps {s s' : State} (h : Reachable s) {now : Nat} {sender : Addr} {i : Nat} {u : Addr} {a : Nat}
    (ha : a < 2 ^ 128) (he : exec s ⟨now, sender, .castVote i .no u a⟩ = .ok s')
    (hold : ∀ w, queryPollVoter s i u = some w → w.amount ≤ a) {m : Nat} (hm : votedTotal s' i ≤ m) (hm' : m < 2 ^ 128)
    (hp : Passes s' i m) : Passes s i m ∨ ¬ Quorate s i m ∨ Vetoed s i := by
  obtain ⟨p, x, hx, hq, hh, hs, _, hk, q1, q2, p1, p2, ht⟩ := vote_shape h ha he hold hm hm'
  by_cases c1 : Quorate s i m
  · by_cases c2 : Vetoed s i
    · exact Or.inr (Or.inr c2)
    · refine Or.inl ?_
      have hsh : votedSum s' i .yes ≤ votedSum s i .yes ∧ votedSum s i .no ≤ votedSum s' i .no ∧
          votedSum s i .yes + votedSum s i .no + votedSum s i .veto ≤
            votedSum s' i .yes + votedSum s' i .no + votedSum s' i .veto := by
        have e1 := hs .yes
        have e2 := hs .no
        have e4 := hs .veto
        rw [hh] at e1 e2 e4
        cases hv : queryPollVoter s i u with
        | none => rw [hv] at e1 e2 e4; simp at e1 e2 e4; omega
        | some w => rw [hv] at e1 e2 e4; cases hw : w.outcome <;> simp [hw] at e1 e2 e4 <;> omega
      obtain ⟨g1, g2, g4⟩ := hsh
      rw [p2] at hp
      obtain ⟨r1, r2, r3, r4⟩ := hp
      rw [p1]
      exact ⟨q1.1 c1, fun hn => c2 ⟨p, hq, hn⟩, reaches_down g1 g4 r3 (by omega), by omega⟩
  · exact Or.inr (Or.inl c1)

/-- **A "veto" can help in one way only**, by making up the quorum, unless it replaces the voter's "no". -/
theorem C145_veto_never_helps {s s' : State} (h : Reachable s) {now : Nat} {sender : Addr} {i : Nat} {u : Addr} {a : Nat}
    (ha : a < 2 ^ 128) (he : exec s ⟨now, sender, .castVote i .veto u a⟩ = .ok s')
    (hold : ∀ w, queryPollVoter s i u = some w → w.amount ≤ a ∧ w.outcome ≠ .no) {m : Nat} (hm : votedTotal s' i ≤ m)
    (hm' : m < 2 ^ 128) (hp : Passes s' i m) : Passes s i m ∨ ¬ Quorate s i m := by
  obtain ⟨p, x, hx, hq, hh, hs, _, hk, q1, q2, p1, p2, ht⟩ := vote_shape h ha he (fun w hw => (hold w hw).1) hm hm'
  by_cases c1 : Quorate s i m
  · refine Or.inl ?_
    have hsh : votedSum s' i .yes ≤ votedSum s i .yes ∧ votedSum s i .no = votedSum s' i .no ∧
        votedSum s i .yes + votedSum s i .no + votedSum s i .veto ≤
          votedSum s' i .yes + votedSum s' i .no + votedSum s' i .veto := by
      have e1 := hs .yes
      have e2 := hs .no
      have e4 := hs .veto
      rw [hh] at e1 e2 e4
      cases hv : queryPollVoter s i u with
      | none => rw [hv] at e1 e2 e4; simp at e1 e2 e4; omega
      | some w =>
        have hno := (hold w hv).2
        rw [hv] at e1 e2 e4
        cases hw : w.outcome <;> simp [hw] at e1 e2 e4 hno <;> omega
    obtain ⟨g1, g2, g4⟩ := hsh
    rw [p2] at hp
    obtain ⟨r1, r2, r3, r4⟩ := hp
    rw [p1]
    refine ⟨q1.1 c1, fun hn => r2 (reaches_add (by omega) g4 (by omega) hn), reaches_down g1 g4 r3 (by omega), by omega⟩
  · exact Or.inr c1

/-- **An "abstain" of a new voter counts for the quorum only**: it never hurts, and helps only by making up the
quorum. -/
theorem C145_abstain {s s' : State} (h : Reachable s) {now : Nat} {sender : Addr} {i : Nat} {u : Addr} {a : Nat}
    (ha : a < 2 ^ 128) (he : exec s ⟨now, sender, .castVote i .abstain u a⟩ = .ok s')
    (hold : queryPollVoter s i u = none) {m : Nat} (hm : votedTotal s' i ≤ m) (hm' : m < 2 ^ 128) :
    (Passes s i m → Passes s' i m) ∧ (Passes s' i m → Passes s i m ∨ ¬ Quorate s i m) := by
  obtain ⟨p, x, hx, hq, hh, hs, _, hk, q1, q2, p1, p2, ht⟩ := vote_shape h ha he (by rw [hold]; intro w hw; cases hw) hm hm'
  have e1 := hs .yes
  have e2 := hs .no
  have e4 := hs .veto
  rw [hh, hold] at e1 e2 e4
  simp at e1 e2 e4
  rw [p1, p2, e1, e2, e4]
  constructor
  · rintro ⟨r1, r⟩
    exact ⟨q2.1 (hk (q1.2 r1)), r⟩
  · rintro ⟨_, r⟩
    by_cases c1 : Quorate s i m
    · exact Or.inl ⟨q1.1 c1, r⟩
    · exact Or.inr c1

/-! ### The exceptions are real -/

/-- A contract with one poll: quorum 50 %, threshold 50 %, veto threshold a third, and the given votes. -/
def tallied (l : List (Outcome × Addr × Nat)) : State :=
  run (init 1) (⟨10, 1, .createPoll ⟨5, 0, 0, 0, 100, ONE / 2, ONE / 2, some (ONE / 3)⟩⟩ ::
    l.map fun v => ⟨11, 1, .castVote 1 v.1 v.2.1 v.2.2⟩)

theorem tallied_reachable {l : List (Outcome × Addr × Nat)} (h : ∀ v ∈ l, v.2.2 < 2 ^ 128) : Reachable (tallied l) := by
  refine ⟨1, _, ?_, ?_, rfl⟩
  · intro c hc
    rcases List.mem_cons.1 hc with rfl | hc
    · exact ⟨by decide, by decide, by intro t ht; cases ht; decide⟩
    · obtain ⟨v, hv, rfl⟩ := List.mem_map.1 hc
      exact h v hv
  · have : ∀ l : List (Outcome × Addr × Nat), creates (l.map fun v => ⟨11, 1, .castVote 1 v.1 v.2.1 v.2.2⟩) = 0 := by
      intro l
      induction l with
      | nil => rfl
      | cons v t ih => simp only [List.map_cons, creates, ih]
    simp only [creates, this]
    decide

/-- **A "no" makes a poll pass**, once by making up the quorum (40 of 100 votes for, then 15 against), once by
diluting a veto (60 for and 30 vetoes of 100, then 10 against). -/
theorem C145_no_helps_witness :
    (∃ s s', Reachable s ∧ exec s ⟨20, 1, .castVote 1 .no 9 15⟩ = .ok s' ∧ queryPollVoter s 1 9 = none ∧
      votedTotal s' 1 ≤ 100 ∧ ¬ Passes s 1 100 ∧ ¬ Vetoed s 1 ∧ Passes s' 1 100) ∧
    (∃ s s', Reachable s ∧ exec s ⟨20, 1, .castVote 1 .no 9 10⟩ = .ok s' ∧ queryPollVoter s 1 9 = none ∧
      votedTotal s' 1 ≤ 100 ∧ ¬ Passes s 1 100 ∧ Quorate s 1 100 ∧ Passes s' 1 100) := by
  refine ⟨⟨tallied [(.yes, 7, 40)], _, tallied_reachable (by decide), rfl, by decide +kernel, by decide +kernel, ?_, ?_,
    ⟨0, 40, by decide +kernel⟩⟩, ⟨tallied [(.yes, 7, 60), (.veto, 8, 30)], _, tallied_reachable (by decide), rfl,
    by decide +kernel, by decide +kernel, ?_, ⟨_, rfl, by decide +kernel⟩, ⟨0, 60, by decide +kernel⟩⟩⟩
  · rintro ⟨o, n, h⟩
    rw [show simulateEnd (tallied [(.yes, 7, 40)]) 1 100 = .ok (.rejected .quorumNotReached) from by decide +kernel] at h
    cases h
  · rintro ⟨p, hp, h⟩
    cases hp
    revert h
    decide +kernel
  · rintro ⟨o, n, h⟩
    rw [show simulateEnd (tallied [(.yes, 7, 60), (.veto, 8, 30)]) 1 100 = .ok (.rejected .isVetoOutcome) from by
      decide +kernel] at h
    cases h

/-- **A "veto" makes a poll pass** in place of a "no": with 50 for and 50 against there is a draw; when a voter with
20 of those against vetoes instead, the veto share is 20 % and the poll passes 50 to 30. -/
theorem C145_veto_helps_witness :
    ∃ s s' w, Reachable s ∧ queryPollVoter s 1 9 = some w ∧ w.outcome = .no ∧ w.amount = 20 ∧
      exec s ⟨20, 1, .castVote 1 .veto 9 20⟩ = .ok s' ∧ votedTotal s' 1 ≤ 100 ∧ Quorate s 1 100 ∧ ¬ Passes s 1 100 ∧
      Passes s' 1 100 := by
  refine ⟨tallied [(.yes, 7, 50), (.no, 8, 30), (.no, 9, 20)], _, ⟨1, 9, .no, 20⟩, tallied_reachable (by decide), by decide +kernel, rfl,
    rfl, rfl, by decide +kernel, ⟨_, rfl, by decide +kernel⟩, ?_, ⟨0, 50, by decide +kernel⟩⟩
  rintro ⟨o, n, h⟩
  rw [show simulateEnd (tallied [(.yes, 7, 50), (.no, 8, 30), (.no, 9, 20)]) 1 100 = .ok (.rejected (.outcomeDraw 0 1 50))
    from by decide +kernel] at h
  cases h

/-- The hypotheses of the theorems for "no", "veto" and "abstain" hold where the poll passes before and after. -/
example : ∃ s, Reachable s ∧ Passes s 1 100 ∧ queryPollVoter s 1 9 = none ∧ ∀ o : Outcome, ∃ s',
    exec s ⟨20, 1, .castVote 1 o 9 5⟩ = .ok s' ∧ votedTotal s' 1 ≤ 100 ∧ Passes s' 1 100 := by
  refine ⟨tallied [(.yes, 7, 50), (.no, 8, 20)], tallied_reachable (by decide), ⟨0, 50, by decide +kernel⟩,
    by decide +kernel, ?_⟩
  intro o
  cases o
  · exact ⟨_, rfl, by decide +kernel, 0, 55, by decide +kernel⟩
  · exact ⟨_, rfl, by decide +kernel, 0, 50, by decide +kernel⟩
  · exact ⟨_, rfl, by decide +kernel, 0, 50, by decide +kernel⟩
  · exact ⟨_, rfl, by decide +kernel, 0, 50, by decide +kernel⟩

end Verif.Gov
