import Verif.Gov.Lemmas

/-!
# Governance: lemmas on ratios, evolution of polls, and the update loop
-/

namespace Verif.Gov
open Verif

/-! ### ratios -/

theorem le_ratio_iff (q c d : Nat) :
    q ≤ (checkedFromRatio c d).getD 0 ↔
      q = 0 ∨ (0 < d ∧ q * d ≤ c * ONE ∧ c * ONE < M128 * d) := by
  unfold checkedFromRatio
  by_cases hd : d = 0
  · simp [hd]
  · have hd' : 0 < d := Nat.pos_of_ne_zero hd
    simp only [hd, if_false]
    have h1 : q ≤ c * ONE / d ↔ q * d ≤ c * ONE := Nat.le_div_iff_mul_le hd'
    have h2 : c * ONE / d < M128 ↔ c * ONE < M128 * d := Nat.div_lt_iff_lt_mul hd'
    by_cases hr : c * ONE / d < M128
    · rw [if_pos hr]
      simp only [Option.getD_some]
      rw [h1]
      constructor
      · intro h; exact Or.inr ⟨hd', h, h2.1 hr⟩
      · rintro (h | ⟨_, h, _⟩)
        · subst h; simp
        · exact h
    · rw [if_neg hr]
      simp only [Option.getD_none, Nat.le_zero]
      constructor
      · intro h; exact Or.inl h
      · rintro (h | ⟨_, _, h⟩)
        · exact h
        · exact absurd (h2.2 h) hr

theorem le_ratio_of_le {c d : Nat} (q : Nat) (hcd : c ≤ d) :
    q ≤ (checkedFromRatio c d).getD 0 ↔ reaches c d q := by
  rw [le_ratio_iff]
  unfold reaches
  constructor
  · rintro (h | ⟨h1, h2, _⟩)
    · exact Or.inl h
    · exact Or.inr ⟨h1, h2⟩
  · rintro (h | ⟨h1, h2⟩)
    · exact Or.inl h
    · refine Or.inr ⟨h1, h2, ?_⟩
      have : c * ONE ≤ d * ONE := Nat.mul_le_mul_right _ hcd
      have h3 : d * ONE < M128 * d := by
        rw [Nat.mul_comm]
        exact Nat.mul_lt_mul_of_pos_right (by decide) h1
      exact lt_of_le_of_lt this h3

/-! ### totals -/

theorem foldl_wadd (l : List (Nat × Nat)) (acc : Nat) :
    (l.foldl (fun acc e => wadd128 acc e.2) acc) % M128 = (acc + (l.map (fun e => e.2)).sum) % M128 := by
  induction l generalizing acc with
  | nil => simp
  | cons a t ih =>
    simp only [List.foldl_cons, List.map_cons, List.sum_cons]
    rw [ih]
    unfold wadd128 M128
    omega

theorem foldl_wadd_lt (l : List (Nat × Nat)) (acc : Nat) (h : acc < M128) :
    (l.foldl (fun acc e => wadd128 acc e.2) acc) < M128 := by
  induction l generalizing acc with
  | nil => exact h
  | cons a t ih => exact ih _ (wadd128_lt _ _)

theorem totalVotes_eq_mod (p : Poll) : p.totalVotes = p.results.sum (fun _ v => v) % M128 := by
  unfold Poll.totalVotes Map.sum
  have h := foldl_wadd p.results.entries 0
  rw [Nat.mod_eq_of_lt (foldl_wadd_lt _ 0 (by decide))] at h
  rw [h, Nat.zero_add]

theorem sum_four {m : Map Nat Nat} (h : ∀ k, m.has k = true → k < 4) :
    m.sum (fun _ v => v) = (m.get 0).getD 0 + (m.get 1).getD 0 + (m.get 2).getD 0 + (m.get 3).getD 0 := by
  have c : ∀ (m : Map Nat Nat) k, Map.contrib (fun _ (v : Nat) => v) k (m.get k) = (m.get k).getD 0 := by
    intro m k; cases m.get k <;> rfl
  have h0 := Map.sum_remove m (fun _ v => v) 0
  have h1 := Map.sum_remove (m.remove 0) (fun _ v => v) 1
  have h2 := Map.sum_remove ((m.remove 0).remove 1) (fun _ v => v) 2
  have h3 := Map.sum_remove (((m.remove 0).remove 1).remove 2) (fun _ v => v) 3
  have hz : ((((m.remove 0).remove 1).remove 2).remove 3) = Map.empty := by
    apply Map.ext_get
    intro k
    simp only [Map.get_remove, Map.get_empty]
    split
    · rfl
    split
    · rfl
    split
    · rfl
    split
    · rfl
    · cases hk : m.get k with
      | none => rfl
      | some v =>
        have := h k (Map.has_iff.2 ⟨v, hk⟩)
        omega
  rw [hz, Map.sum_empty, c] at h3
  rw [c] at h0 h1 h2
  simp only [Map.get_remove] at h0 h1 h2 h3
  simp at h0 h1 h2 h3
  omega

theorem votedTotal_eq (s : State) (i : Nat) :
    votedTotal s i = votedSum s i .yes + votedSum s i .no + votedSum s i .abstain + votedSum s i .veto := by
  unfold votedTotal votedSum
  rw [← Map.sum_add, ← Map.sum_add, ← Map.sum_add]
  apply Map.sum_congr
  intro k v _
  cases v.outcome <;> by_cases h : v.pollId = i <;> simp [h]

theorem totalVotes_of_inv {s : State} (hi : Inv s) {i : Nat} {p : Poll} (hp : s.polls.get i = some p)
    (hfit : votedTotal s i < M128) :
    (∀ o, p.votesFor o = votedSum s i o) ∧ p.totalVotes = votedTotal s i := by
  have hle : ∀ o, votedSum s i o ≤ votedTotal s i := by
    intro o; rw [votedTotal_eq]; cases o <;> omega
  have hv : ∀ o, p.votesFor o = votedSum s i o := by
    intro o
    rw [hi.tally i p hp o]
    exact Nat.mod_eq_of_lt (lt_of_le_of_lt (hle o) hfit)
  refine ⟨hv, ?_⟩
  rw [totalVotes_eq_mod, sum_four (fun k hk => hi.resKeys i p k hp hk)]
  have h0 := hv .yes
  have h1 := hv .no
  have h2 := hv .abstain
  have h3 := hv .veto
  unfold Poll.votesFor Outcome.idx at h0 h1 h2 h3
  simp only at h0 h1 h2 h3
  rw [h0, h1, h2, h3, ← votedTotal_eq]
  exact Nat.mod_eq_of_lt hfit

/-- The code's final status equals the rule, for a poll whose counts are exact. -/
theorem finalStatus_eq_rule {p : Poll} {y n a v m : Nat}
    (hy : p.votesFor .yes = y) (hn : p.votesFor .no = n) (ha : p.votesFor .abstain = a)
    (hv : p.votesFor .veto = v) (ht : p.totalVotes = y + n + a + v) (hfit : y + n + a + v < M128) :
    p.finalStatus m = ruleStatus y n a v p.quorum p.threshold p.vetoThreshold m := by
  have hq : p.quorumReached p.quorum m = true ↔ quorumMet (y + n + a + v) m p.quorum := by
    unfold Poll.quorumReached quorumMet
    rw [decide_eq_true_iff, ht, le_ratio_iff]
  have hb : wsub128 p.totalVotes (p.votesFor .abstain) = y + n + v := by
    rw [ht, ha, wsub128_of_le (by omega) hfit]; omega
  have hry : p.thresholdReached .yes = true ↔ reaches y (y + n + v) p.threshold := by
    unfold Poll.thresholdReached Poll.geThreshold
    rw [decide_eq_true_iff, hb, hy]
    simp only [Poll.thresholdFor]
    exact le_ratio_of_le _ (by omega)
  have hrn : p.thresholdReached .no = true ↔ reaches n (y + n + v) p.threshold := by
    unfold Poll.thresholdReached Poll.geThreshold
    rw [decide_eq_true_iff, hb, hn]
    simp only [Poll.thresholdFor]
    exact le_ratio_of_le _ (by omega)
  have hrv : p.thresholdReached .veto = true ↔
      reaches v (y + n + v) (p.vetoThreshold.getD p.threshold) := by
    unfold Poll.thresholdReached Poll.geThreshold
    rw [decide_eq_true_iff, hb, hv]
    have : p.thresholdFor .veto = (p.vetoThreshold.getD p.threshold) := by
      unfold Poll.thresholdFor
      cases p.vetoThreshold <;> rfl
    rw [this]
    exact le_ratio_of_le _ (by omega)
  unfold Poll.finalStatus ruleStatus Poll.mostVoted
  simp only [hy, hn, hv]
  by_cases h1 : quorumMet (y + n + a + v) m p.quorum
  · rw [hq.2 h1]
    simp only [Bool.not_true, Bool.false_eq_true, if_false, h1, not_true]
    by_cases h2 : reaches v (y + n + v) (p.vetoThreshold.getD p.threshold)
    · simp [hrv.2 h2, h2, Outcome.idx]
    · have h2' : p.thresholdReached .veto = false := by
        rw [← Bool.not_eq_true]; exact fun h => h2 (hrv.1 h)
      simp only [h2, h2', Bool.false_eq_true, if_false]
      by_cases h3 : reaches y (y + n + v) p.threshold
      · rw [hry.2 h3]
        by_cases h4 : reaches n (y + n + v) p.threshold
        · rw [hrn.2 h4]
          simp only [h3, h4, not_true, false_or, true_and]
          by_cases h5 : y < n
          · have : ¬ n < y := by omega
            simp [h5, this, Outcome.idx]
          · by_cases h6 : y = n
            · simp [h6, Outcome.idx]
            · have : n < y := by omega
              simp [h5, h6, this, Outcome.idx]
        · have h4' : p.thresholdReached .no = false := by
            rw [← Bool.not_eq_true]; exact fun h => h4 (hrn.1 h)
          rw [h4']
          simp [h3, h4, Outcome.idx]
      · have h3' : p.thresholdReached .yes = false := by
          rw [← Bool.not_eq_true]; exact fun h => h3 (hry.1 h)
        rw [h3']
        by_cases h4 : reaches n (y + n + v) p.threshold
        · rw [hrn.2 h4]
          simp [h3, h4, Outcome.idx]
        · have h4' : p.thresholdReached .no = false := by
            rw [← Bool.not_eq_true]; exact fun h => h4 (hrn.1 h)
          rw [h4']
          simp [h3, h4]
  · have : p.quorumReached p.quorum m = false := by
      rw [← Bool.not_eq_true]; exact fun h => h1 (hq.1 h)
    simp [this, h1]

theorem finalStatus_rule_of_inv {s : State} (hi : Inv s) {i : Nat} {p : Poll}
    (hp : s.polls.get i = some p) (hfit : votedTotal s i < M128) (m : Nat) :
    p.finalStatus m = ruleStatus (votedSum s i .yes) (votedSum s i .no) (votedSum s i .abstain)
      (votedSum s i .veto) p.quorum p.threshold p.vetoThreshold m := by
  obtain ⟨h1, h2⟩ := totalVotes_of_inv hi hp hfit
  rw [votedTotal_eq] at h2 hfit
  exact finalStatus_eq_rule (h1 _) (h1 _) (h1 _) (h1 _) h2 hfit

/-! ### evolution of a poll -/

/-- How a stored poll and its votes may evolve in one message at time `now`. -/
structure Evolves (now : Nat) (s s' : State) (i : Nat) (p p' : Poll) : Prop where
  get : s'.polls.get i = some p'
  terms : p'.terms = p.terms
  closed : ¬ p.live → ¬ p'.live
  frozen : (¬ p.live ∨ p.endsAt ≤ now) →
    p'.results = p.results ∧ ∀ voter, s'.votes.get (vkey voter i) = s.votes.get (vkey voter i)
  reopened : p'.live → p'.status = p.status

theorem Evolves.refl {now : Nat} {s : State} {i : Nat} {p : Poll} (h : s.polls.get i = some p) :
    Evolves now s s i p p :=
  ⟨h, rfl, id, fun _ => ⟨rfl, fun _ => rfl⟩, fun _ => rfl⟩

theorem Evolves.trans {now : Nat} {s s1 s2 : State} {i : Nat} {p p1 p2 : Poll}
    (h1 : Evolves now s s1 i p p1) (h2 : Evolves now s1 s2 i p1 p2) : Evolves now s s2 i p p2 := by
  refine ⟨h2.get, h2.terms.trans h1.terms, fun h => h2.closed (h1.closed h), ?_, ?_⟩
  · intro h
    have ha := h1.frozen h
    have hb := h2.frozen (by
      rcases h with h | h
      · exact Or.inl (h1.closed h)
      · rw [terms_endsAt h1.terms]; exact Or.inr h)
    exact ⟨hb.1.trans ha.1, fun v => (hb.2 v).trans (ha.2 v)⟩
  · intro h
    have h3 := h2.reopened h
    have : p1.live := by
      obtain ⟨e, he⟩ := h
      exact ⟨e, by rw [← h3, he]⟩
    rw [h3, h1.reopened this]

theorem evolves_castVote {s s' : State} {now j : Nat} {o : Outcome} {v : Addr} {a : Nat}
    (h : castVote s now j o v a = .ok s') {i : Nat} {p : Poll} (hp : s.polls.get i = some p) :
    ∃ p', Evolves now s s' i p p' := by
  obtain ⟨h0, h1, q, hq, hl, hst, hen, rfl⟩ := castVote_ok_iff.1 h
  by_cases hx : j = i
  · subst hx
    rw [hp] at hq; cases hq
    refine ⟨p.recount (s.votes.get (vkey v j)) o a, by simp, by simp, ?_, ?_, by simp⟩
    · intro hnl; exact absurd hl hnl
    · rintro (hnl | hnl)
      · exact absurd hl hnl
      · omega
  · refine ⟨p, ?_, rfl, id, ?_, fun _ => rfl⟩
    · simp [Map.get_set, hx, hp]
    · intro _
      refine ⟨rfl, ?_⟩
      intro voter
      have : vkey v j ≠ vkey voter i := by
        intro hk; exact hx (vkey_inj.1 hk).2
      simp [Map.get_set, this]

theorem evolves_foldlM {now : Nat} {voter : Addr} {amount : Nat} :
    ∀ (l : List Vote) (s s' : State) (i : Nat) (p : Poll), s.polls.get i = some p →
      l.foldlM (updateVote now voter amount) s = .ok s' → ∃ p', Evolves now s s' i p p' := by
  intro l
  induction l with
  | nil => intro s s' i p hp h; cases h; exact ⟨p, Evolves.refl hp⟩
  | cons v t ih =>
    intro s s' i p hp h
    rw [List.foldlM_cons] at h
    cases hb : updateVote now voter amount s v with
    | error e => rw [hb] at h; cases h
    | ok s1 =>
      rw [hb] at h
      rcases updateVote_cases hb with rfl | hc
      · exact ih _ _ i p hp h
      · obtain ⟨p1, hp1⟩ := evolves_castVote hc hp
        obtain ⟨p2, hp2⟩ := ih s1 s' i p1 hp1.get h
        exact ⟨p2, hp1.trans hp2⟩

/-- A poll evolves as described in every message. -/
theorem evolves_step {s : State} (hi : Inv s) {c : Call} (hc : s.pollCount + isCreate c < M64)
    {i : Nat} {p : Poll} (hp : s.polls.get i = some p) : ∃ p', Evolves c.now s (step s c) i p p' := by
  unfold step
  cases he : exec s c with
  | error e => exact ⟨p, Evolves.refl hp⟩
  | ok s' =>
    simp only
    unfold exec at he
    split at he
    · cases he
    · unfold isCreate at hc
      cases hm : c.msg with
      | createPoll cp =>
        rw [hm] at he hc
        simp only at he hc
        obtain ⟨_, _, rfl⟩ := createPoll_ok_iff.1 he
        have hne : ¬ wadd64 s.pollCount 1 = i := by
          rw [wadd64_of_lt hc]
          have := (hi.ids i).1 ⟨p, hp⟩
          omega
        exact ⟨p, by simp [Map.get_set, hne, hp], rfl, id, fun _ => ⟨rfl, fun _ => rfl⟩, fun _ => rfl⟩
      | castVote j o v a =>
        rw [hm] at he
        exact evolves_castVote he hp
      | updateVotes v a =>
        rw [hm] at he
        exact evolves_foldlM _ _ _ i p hp he
      | endPoll j m e a =>
        rw [hm] at he
        obtain ⟨q, hq, _, _, rfl⟩ := endPoll_ok_iff.1 he
        by_cases hx : j = i
        · subst hx
          rw [hp] at hq; cases hq
          refine ⟨{ p with status := p.finalStatus m }, by simp, rfl, ?_, fun _ => ⟨rfl, fun _ => rfl⟩, ?_⟩
          · rintro _ ⟨e, he⟩
            exact finalStatus_not_inProgress p m e he
          · rintro ⟨e, he⟩
            exact absurd he (finalStatus_not_inProgress p m e)
        · exact ⟨p, by simp [Map.get_set, hx, hp], rfl, id, fun _ => ⟨rfl, fun _ => rfl⟩, fun _ => rfl⟩

/-! ### update loop -/

/-- Poll `i` accepts votes at `now`. -/
def openAt (s : State) (now i : Nat) : Prop :=
  ∃ p, s.polls.get i = some p ∧ p.live ∧ now < p.endsAt

theorem openAt_castVote {s s' : State} {now j : Nat} {o : Outcome} {v : Addr} {a : Nat}
    (h : castVote s now j o v a = .ok s') (i : Nat) : openAt s' now i ↔ openAt s now i := by
  obtain ⟨h0, h1, q, hq, hl, hst, hen, rfl⟩ := castVote_ok_iff.1 h
  unfold openAt
  simp only [Map.get_set]
  by_cases hx : j = i
  · subst hx
    have h1 : (q.recount (s.votes.get (vkey v j)) o a).live ↔ q.live := by
      unfold Poll.live; simp
    simp only [if_true, Option.some.injEq, exists_eq_left', hq, h1]
    rw [terms_endsAt (terms_recount q (s.votes.get (vkey v j)) o a)]
  · simp [hx]

open Classical in
/-- Full description of the loop of `update_votes`. -/
theorem updateLoop {now : Nat} {voter : Addr} {amount : Nat} (ham : amount < M128) :
    ∀ (l : List Vote) (s : State), Inv s →
      (∀ i p, s.polls.get i = some p → p.startedAt ≤ now) →
      (∀ v ∈ l, s.votes.get (vkey voter v.pollId) = some v) →
      (l.map (·.pollId)).Nodup →
      ∃ s', l.foldlM (updateVote now voter amount) s = .ok s' ∧
        (∀ u i, s'.votes.get (vkey u i) =
          if u = voter ∧ i ∈ l.map (·.pollId) ∧ openAt s now i
          then (s.votes.get (vkey u i)).map (fun v => { v with amount := amount })
          else s.votes.get (vkey u i)) ∧
        (∀ i p, s.polls.get i = some p → ∃ p', s'.polls.get i = some p' ∧ p'.terms = p.terms ∧
          p'.status = p.status ∧ (¬ (i ∈ l.map (·.pollId) ∧ openAt s now i) → p' = p)) ∧
        s'.pollCount = s.pollCount ∧ s'.admin = s.admin := by
  intro l
  induction l with
  | nil =>
    intro s _ _ _ _
    exact ⟨s, rfl, by simp, fun i p hp => ⟨p, hp, rfl, rfl, fun _ => rfl⟩, rfl, rfl⟩
  | cons v t ih =>
    intro s hi hst hl hn
    have hv := hl v (by simp)
    rw [List.map_cons, List.nodup_cons] at hn
    have hkv := hi.vkeys _ _ hv
    obtain ⟨p, hp⟩ := (hi.ids v.pollId).2 hkv.2
    have hvv : v.voter = voter := (vkey_inj.1 hkv.1).1.symm
    by_cases hop : openAt s now v.pollId
    · obtain ⟨p', hp', hlive, hend⟩ := hop
      rw [hp] at hp'; cases hp'
      have hop : openAt s now v.pollId := ⟨p, hp, hlive, hend⟩
      have hcast : ∃ s1, castVote s now v.pollId v.outcome voter amount = .ok s1 :=
        ⟨_, castVote_ok_iff.2 ⟨by have := hkv.2; omega, hkv.2.2, p, hp, hlive, hst _ _ hp, hend, rfl⟩⟩
      obtain ⟨s1, hs1⟩ := hcast
      have hu : updateVote now voter amount s v = .ok s1 := by
        obtain ⟨e, he⟩ := hlive
        have := hi.prog _ _ _ hp he
        subst this
        simp only [updateVote, hp, he, hend, if_true, hs1]
      have hi1 := inv_castVote hi ham hs1
      have hcount := castVote_pollCount hs1
      have hop1 := openAt_castVote hs1
      obtain ⟨_, _, q, hq, _, _, _, hs1e⟩ := castVote_ok_iff.1 hs1
      rw [hp] at hq; cases hq
      have hvotes : ∀ u i, s1.votes.get (vkey u i) = if voter = u ∧ v.pollId = i
          then some { v with amount := amount } else s.votes.get (vkey u i) := by
        intro u i
        subst hs1e
        simp only [Map.get_set, vkey_inj]
        split
        · congr 1
          cases v; simp_all
        · rfl
      have hpolls : ∀ i, s1.polls.get i = if v.pollId = i
          then some (p.recount (s.votes.get (vkey voter v.pollId)) v.outcome amount) else s.polls.get i := by
        intro i; subst hs1e; simp only [Map.get_set]
      obtain ⟨s', h1, h2, h3, h4, h5⟩ := ih s1 hi1 (by
          intro i q hq
          rw [hpolls] at hq
          split at hq
          · cases hq
            rw [terms_startedAt (terms_recount _ _ _ _)]
            exact hst _ _ hp
          · exact hst i q hq) (by
          intro w hw
          rw [hvotes]
          have : ¬ v.pollId = w.pollId := fun hh => hn.1 (by rw [hh]; exact List.mem_map.2 ⟨w, hw, rfl⟩)
          simp only [this, and_false, if_false]
          exact hl w (List.mem_cons_of_mem _ hw)) hn.2
      refine ⟨s', ?_, ?_, ?_, by rw [h4, hcount.1], by rw [h5, hcount.2]⟩
      · rw [List.foldlM_cons, hu]; exact h1
      · intro u i
        rw [h2 u i, hop1 i, hvotes u i]
        by_cases hui : u = voter
        · subst hui
          by_cases hix : v.pollId = i
          · subst hix
            have : ¬ (v.pollId ∈ t.map (·.pollId)) := hn.1
            simp [this, hop, hv]
          · have hix' : ¬ i = v.pollId := fun h => hix h.symm
            simp [hix, hix']
        · have : ¬ voter = u := fun h => hui h.symm
          simp [hui, this]
      · intro i q hq
        by_cases hix : v.pollId = i
        · subst hix
          rw [hp] at hq; cases hq
          obtain ⟨p', g1, g2, g3, _⟩ := h3 v.pollId
            (p.recount (s.votes.get (vkey voter v.pollId)) v.outcome amount) (by rw [hpolls]; simp)
          refine ⟨p', g1, by rw [g2]; simp, by rw [g3]; simp, ?_⟩
          intro hneg
          exact absurd ⟨by simp, hop⟩ hneg
        · obtain ⟨p', g1, g2, g3, g4⟩ := h3 i q (by rw [hpolls]; simp [hix, hq])
          refine ⟨p', g1, g2, g3, ?_⟩
          intro hneg
          apply g4
          rintro ⟨ha, hb⟩
          exact hneg ⟨by rw [List.map_cons]; exact List.mem_cons_of_mem _ ha, (hop1 i).1 hb⟩
    · have hu : updateVote now voter amount s v = .ok s := by
        unfold updateVote
        simp only [hp]
        cases hs : p.status with
        | inProgress e =>
          have := hi.prog _ _ _ hp hs
          subst this
          have : ¬ now < p.endsAt := fun h => hop ⟨p, hp, ⟨_, hs⟩, h⟩
          simp [this]
        | passed _ _ => rfl
        | rejected _ => rfl
      obtain ⟨s', h1, h2, h3, h4, h5⟩ := ih s hi hst (fun w hw => hl w (List.mem_cons_of_mem _ hw)) hn.2
      refine ⟨s', ?_, ?_, ?_, h4, h5⟩
      · rw [List.foldlM_cons, hu]; exact h1
      · intro u i
        rw [h2 u i]
        by_cases hix : i = v.pollId
        · subst hix; simp [hop]
        · simp [hix]
      · intro i q hq
        obtain ⟨p', g1, g2, g3, g4⟩ := h3 i q hq
        refine ⟨p', g1, g2, g3, ?_⟩
        intro hneg
        apply g4
        rintro ⟨ha, hb⟩
        exact hneg ⟨by rw [List.map_cons]; exact List.mem_cons_of_mem _ ha, hb⟩

/-- The votes of a voter, with their polls. -/
theorem votesOf_spec {s : State} (hi : Inv s) (voter : Addr) :
    (∀ v ∈ votesOf s voter, s.votes.get (vkey voter v.pollId) = some v) ∧
    ((votesOf s voter).map (·.pollId)).Nodup ∧
    (∀ i, i ∈ (votesOf s voter).map (·.pollId) ↔ ∃ v, s.votes.get (vkey voter i) = some v) := by
  have h1 : ∀ e ∈ s.votes.entries.filter (fun e => decide ((ofLex e.1).1 = voter)),
      e.1 = vkey voter e.2.pollId ∧ s.votes.get e.1 = some e.2 := by
    intro e he
    obtain ⟨he1, he2⟩ := List.mem_filter.1 he
    have hg := Map.get_eq_some_iff.2 he1
    have hk := (hi.vkeys _ _ hg).1
    have : voter = e.2.voter := by
      have : (ofLex e.1).1 = voter := by simpa using he2
      rw [hk, ofLex_vkey] at this
      exact this.symm
    refine ⟨by rw [this]; exact hk, hg⟩
  refine ⟨?_, ?_, ?_⟩
  · intro v hv
    obtain ⟨e, he, rfl⟩ := List.mem_map.1 hv
    rw [← (h1 e he).1]; exact (h1 e he).2
  · unfold votesOf List.Nodup
    rw [List.map_map, List.pairwise_map]
    have hs : SortedL (s.votes.entries.filter (fun e => decide ((ofLex e.1).1 = voter))) :=
      List.Pairwise.filter _ s.votes.sorted
    refine List.Pairwise.imp_of_mem ?_ hs
    intro a b ha hb hab heq
    have : a.1 = b.1 := by
      rw [(h1 a ha).1, (h1 b hb).1]
      simp only [Function.comp] at heq
      rw [heq]
    exact absurd hab (by rw [this]; exact lt_irrefl _)
  · intro i
    constructor
    · intro h
      obtain ⟨v, hv, rfl⟩ := List.mem_map.1 h
      obtain ⟨e, he, rfl⟩ := List.mem_map.1 hv
      exact ⟨e.2, by rw [← (h1 e he).1]; exact (h1 e he).2⟩
    · rintro ⟨v, hv⟩
      have hk := vkey_inj.1 (hi.vkeys _ _ hv).1
      refine List.mem_map.2 ⟨v, ?_, hk.2.symm⟩
      unfold votesOf
      refine List.mem_map.2 ⟨(vkey voter i, v), List.mem_filter.2 ⟨Map.get_eq_some_iff.1 hv, ?_⟩, rfl⟩
      simp [ofLex_vkey]

end Verif.Gov
