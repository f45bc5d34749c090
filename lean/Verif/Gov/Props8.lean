import Verif.Gov.Props7

/-!
# Governance: only the proportions of weights matter (C169)
-/

set_option linter.unusedSimpArgs false

namespace Verif.Gov
open Verif

/-! ## Specification -/

/-- A message with all the weights multiplied by `k`. -/
def Msg.scale (k : Nat) : Msg → Msg
  | .createPoll c => .createPoll c
  | .castVote i o v a => .castVote i o v (k * a)
  | .updateVotes v a => .updateVotes v (k * a)
  | .endPoll i m e a => .endPoll i (k * m) e a

/-- A message in its block with all the weights multiplied by `k`. -/
def Call.scale (k : Nat) (c : Call) : Call := ⟨c.now, c.sender, c.msg.scale k⟩

/-- A vote with its weight multiplied by `k`. -/
def Vote.scale (k : Nat) (v : Vote) : Vote := { v with amount := k * v.amount }

/-- A status with its count of votes, if it has one, multiplied by `k`. -/
def Status.scale (k : Nat) : Status → Status
  | .inProgress e => .inProgress e
  | .passed o c => .passed o (k * c)
  | .rejected (.outcomeDraw a b c) => .rejected (.outcomeDraw a b (k * c))
  | .rejected r => .rejected r

/-- The same poll, with all the counts of votes multiplied by `k`. -/
structure Poll.Scaled (k : Nat) (p p' : Poll) : Prop where
  terms : p'.terms = p.terms
  status : p'.status = p.status.scale k
  votes : ∀ o, p'.votesFor o = k * p.votesFor o
  total : p'.totalVotes = k * p.totalVotes

/-- The votes of every poll together, multiplied by `k`, fit 128 bits, after every message of the history. -/
def ScaleFits (k : Nat) (a : Addr) (h : List Call) : Prop :=
  ∀ n i, k * votedTotal (run (init a) (h.take n)) i < 2 ^ 128

/-- The values of the messages fit their types also when multiplied by `k`, and fewer than 2^64 polls are created. -/
def ScaleTyped (k : Nat) (h : List Call) : Prop :=
  (∀ c ∈ h, c.msg.typed ∧ (c.msg.scale k).typed) ∧ creates h < M64

/-! ## Ratios -/

theorem ratio_scale {k : Nat} (hk : 0 < k) (a b : Nat) : checkedFromRatio (k * a) (k * b) = checkedFromRatio a b := by
  unfold checkedFromRatio
  by_cases hb : b = 0
  · subst hb
    simp
  · rw [if_neg hb, if_neg (Nat.mul_ne_zero (Nat.pos_iff_ne_zero.1 hk) hb), Nat.mul_assoc, Nat.mul_div_mul_left _ _ hk]

/-! ## The polls of the two runs -/

/-- What is known of the counts without going through the history. -/
structure Poll.Propor (k : Nat) (p p' : Poll) : Prop where
  terms : p'.terms = p.terms
  status : p'.status = p.status.scale k

theorem Poll.Propor.isInProgress {k : Nat} {p p' : Poll} (h : p.Propor k p') : p'.isInProgress = p.isInProgress := by
  unfold Poll.isInProgress
  rw [h.status]
  cases p.status with
  | inProgress e => rfl
  | passed o c => rfl
  | rejected r => cases r <;> rfl

theorem scaled_threshold {k : Nat} (hk : 0 < k) {p p' : Poll} (h : p.Scaled k p') (hfit : k * p.totalVotes < M128)
    (hab : p.votesFor .abstain ≤ p.totalVotes) (o : Outcome) : p'.thresholdReached o = p.thresholdReached o := by
  unfold Poll.thresholdReached Poll.geThreshold Poll.thresholdFor
  have hv : p'.vetoThreshold = p.vetoThreshold := congrArg Terms.vetoThreshold h.terms
  have ht : p'.threshold = p.threshold := congrArg Terms.threshold h.terms
  have h1 : p.totalVotes < M128 := lt_of_le_of_lt (Nat.le_mul_of_pos_left _ hk) hfit
  rw [hv, ht, h.total, h.votes, h.votes, wsub128_of_le hab h1, wsub128_of_le (Nat.mul_le_mul_left k hab) hfit,
    ← Nat.mul_sub, ratio_scale hk]

theorem scaled_quorum {k : Nat} (hk : 0 < k) {p p' : Poll} (h : p.Scaled k p') (m : Nat) :
    p'.quorumReached p'.quorum (k * m) = p.quorumReached p.quorum m := by
  unfold Poll.quorumReached
  have hq : p'.quorum = p.quorum := congrArg Terms.quorum h.terms
  rw [hq, h.total, ratio_scale hk]

/-- The leading option with its count multiplied by `k`. -/
def MostVoted.scale (k : Nat) : MostVoted → MostVoted
  | .none => .none
  | .some o c => .some o (k * c)
  | .draw a ac b bc => .draw a (k * ac) b (k * bc)

theorem scaled_mostVoted {k : Nat} (hk : 0 < k) {p p' : Poll} (h : p.Scaled k p') (hfit : k * p.totalVotes < M128)
    (hab : p.votesFor .abstain ≤ p.totalVotes) : p'.mostVoted = p.mostVoted.scale k := by
  unfold Poll.mostVoted
  simp only [scaled_threshold hk h hfit hab, h.votes]
  have hlt : k * p.votesFor .yes < k * p.votesFor .no ↔ p.votesFor .yes < p.votesFor .no := Nat.mul_lt_mul_left hk
  have heq : k * p.votesFor .yes = k * p.votesFor .no ↔ p.votesFor .yes = p.votesFor .no :=
    Nat.mul_right_inj (Nat.pos_iff_ne_zero.1 hk)
  simp only [hlt, heq]
  split
  · rfl
  · split
    · split
      · rfl
      · split <;> rfl
    all_goals rfl

theorem scaled_finalStatus {k : Nat} (hk : 0 < k) {p p' : Poll} (h : p.Scaled k p') (hfit : k * p.totalVotes < M128)
    (hab : p.votesFor .abstain ≤ p.totalVotes) (m : Nat) :
    p'.finalStatus (k * m) = (p.finalStatus m).scale k := by
  unfold Poll.finalStatus
  rw [scaled_quorum hk h, scaled_mostVoted hk h hfit hab]
  split
  · rfl
  · cases p.mostVoted with
    | none => rfl
    | some o c =>
      simp only [MostVoted.scale]
      split
      · rfl
      · split <;> rfl
    | draw a ac b bc => rfl

theorem scaled_early {k : Nat} (hk : 0 < k) {p p' : Poll} (h : p.Scaled k p') (hfit : k * p.totalVotes < M128)
    (hab : p.votesFor .abstain ≤ p.totalVotes) (now m : Nat) :
    canEndEarly now (k * m) p' = canEndEarly now m p := by
  unfold canEndEarly
  have he : p'.endsAt = p.endsAt := congrArg Terms.endsAt h.terms
  rw [scaled_quorum hk h, scaled_mostVoted hk h hfit hab, he]
  cases p.mostVoted <;> simp [MostVoted.scale]

/-! ## The states of the two runs -/

/-- Relation of the states of the two runs, but for the counts. -/
structure Propor (k : Nat) (s s' : State) : Prop where
  admin : s'.admin = s.admin
  pollCount : s'.pollCount = s.pollCount
  polls : ∀ i, Option.Rel (Poll.Propor k) (s.polls.get i) (s'.polls.get i)
  votes : s'.votes = s.votes.mapVals (fun _ => Vote.scale k)

/-- Results of the two runs: the same error, or related states. -/
def ProporR (k : Nat) : Except Err State → Except Err State → Prop
  | .ok s, .ok s' => Propor k s s'
  | .error e, .error e' => e = e'
  | _, _ => False

theorem propor_setPoll {k : Nat} {s s' : State} (h : Propor k s s') {i : Nat} {p p' : Poll} (hp : p.Propor k p') (j : Nat) :
    Option.Rel (Poll.Propor k) ((s.polls.set i p).get j) ((s'.polls.set i p').get j) := by
  rw [Map.get_set, Map.get_set]
  split
  · exact .some hp
  · exact h.polls j

theorem propor_createPoll {k : Nat} {s s' : State} (h : Propor k s s') (now : Nat) (c : CreateParams) :
    ProporR k (createPoll s now c) (createPoll s' now c) := by
  unfold createPoll
  split
  · exact rfl
  split
  · exact rfl
  · rw [h.pollCount]
    exact ⟨h.admin, rfl, fun j => propor_setPoll h (by exact ⟨rfl, rfl⟩) j, h.votes⟩

theorem propor_castVote {k : Nat} {s s' : State} (h : Propor k s s') (now i : Nat) (o : Outcome) (v : Addr) (a : Nat) :
    ProporR k (castVote s now i o v a) (castVote s' now i o v (k * a)) := by
  unfold castVote
  rw [h.pollCount]
  split
  · exact rfl
  have hp := h.polls i
  revert hp
  cases s.polls.get i with
  | none =>
    intro hp
    cases hp' : s'.polls.get i with
    | none => exact rfl
    | some q => rw [hp'] at hp; cases hp
  | some p =>
    intro hp
    cases hp' : s'.polls.get i with
    | none => rw [hp'] at hp; cases hp
    | some q =>
      rw [hp'] at hp
      cases hp with
      | some hp =>
        dsimp only
        rw [hp.isInProgress, terms_startedAt hp.terms, terms_endsAt hp.terms]
        split
        · exact rfl
        split
        · exact rfl
        refine ⟨h.admin, rfl, fun j => propor_setPoll h ?_ j, ?_⟩
        · have h1 := terms_recount p (s.votes.get (vkey v i)) o a
          have h2 := terms_recount q (s'.votes.get (vkey v i)) o (k * a)
          have h3 := status_recount p (s.votes.get (vkey v i)) o a
          have h4 := status_recount q (s'.votes.get (vkey v i)) o (k * a)
          exact ⟨(h2.trans hp.terms).trans h1.symm, (h4.trans hp.status).trans (congrArg _ h3.symm)⟩
        · refine Map.ext_get fun x => ?_
          rw [Map.get_mapVals, Map.get_set, Map.get_set, h.votes, Map.get_mapVals]
          split <;> rfl

theorem propor_votesOf {k : Nat} {s s' : State} (h : Propor k s s') (v : Addr) :
    votesOf s' v = (votesOf s v).map (Vote.scale k) := by
  unfold votesOf
  rw [h.votes]
  show ((s.votes.entries.map (fun e => (e.1, e.2.scale k))).filter _).map _ = _
  rw [List.filter_map, List.map_map, List.map_map]
  rfl

theorem propor_updateVote {k : Nat} {s s' : State} (h : Propor k s s') (now : Nat) (v : Addr) (a : Nat) (w : Vote) :
    ProporR k (updateVote now v a s w) (updateVote now v (k * a) s' (w.scale k)) := by
  unfold updateVote
  rw [show (w.scale k).pollId = w.pollId from rfl]
  have hp := h.polls w.pollId
  cases hq : s.polls.get w.pollId with
  | none =>
    rw [hq] at hp
    cases hq' : s'.polls.get w.pollId with
    | none => exact rfl
    | some q => rw [hq'] at hp; cases hp
  | some p =>
    rw [hq] at hp
    cases hq' : s'.polls.get w.pollId with
    | none => rw [hq'] at hp; cases hp
    | some q =>
      rw [hq'] at hp
      cases hp with
      | some hp =>
        dsimp only
        rw [hp.status]
        cases p.status with
        | inProgress e =>
          simp only [Status.scale]
          split
          · exact propor_castVote h now w.pollId w.outcome v a
          · exact h
        | passed o c => exact h
        | rejected r => cases r <;> exact h

theorem propor_updates {k : Nat} (now : Nat) (v : Addr) (a : Nat) : ∀ (l : List Vote) {s s' : State}, Propor k s s' →
    ProporR k (l.foldlM (updateVote now v a) s) ((l.map (Vote.scale k)).foldlM (updateVote now v (k * a)) s')
  | [], _, _, h => h
  | w :: t, s, s', h => by
    rw [List.map_cons, List.foldlM_cons, List.foldlM_cons]
    have h1 := propor_updateVote h now v a w
    cases he : updateVote now v a s w with
    | error e =>
      cases he' : updateVote now v (k * a) s' (w.scale k) with
      | error e' => rw [he, he'] at h1; exact h1
      | ok x => rw [he, he'] at h1; exact h1.elim
    | ok x =>
      cases he' : updateVote now v (k * a) s' (w.scale k) with
      | error e' => rw [he, he'] at h1; exact h1.elim
      | ok x' =>
        rw [he, he'] at h1
        exact propor_updates now v a t h1

theorem propor_voted {k : Nat} {s s' : State} (h : Propor k s s') (i : Nat) :
    votedTotal s' i = k * votedTotal s i ∧ ∀ o, votedSum s' i o = k * votedSum s i o := by
  unfold votedTotal votedSum
  rw [h.votes]
  simp only [Map.sum_mapVals, ← Map.sum_mul_left]
  refine ⟨Map.sum_congr fun x w _ => ?_, fun o => Map.sum_congr fun x w _ => ?_⟩
  · show (if w.pollId = i then k * w.amount else 0) = _
    split <;> simp
  · show (if w.pollId = i ∧ w.outcome = o then k * w.amount else 0) = _
    split <;> simp

/-- The counts are in proportion, as each is the exact sum of the votes. -/
theorem propor_counts {k : Nat} (hk : 0 < k) {s s' : State} (h : Propor k s s') (hi : Inv s) (hi' : Inv s') {i : Nat}
    (hfit : k * votedTotal s i < M128) {p p' : Poll} (hp : s.polls.get i = some p) (hp' : s'.polls.get i = some p') :
    p.Scaled k p' ∧ k * p.totalVotes < M128 ∧ p.votesFor .abstain ≤ p.totalVotes := by
  obtain ⟨v1, v2⟩ := propor_voted h i
  have f1 : votedTotal s i < M128 := lt_of_le_of_lt (Nat.le_mul_of_pos_left _ hk) hfit
  obtain ⟨a1, a2⟩ := totalVotes_of_inv hi hp f1
  obtain ⟨b1, b2⟩ := totalVotes_of_inv hi' hp' (by rw [v1]; exact hfit)
  have hr := h.polls i
  rw [hp, hp'] at hr
  cases hr with
  | some hr =>
    refine ⟨⟨hr.terms, hr.status, fun o => by rw [b1, a1, v2], by rw [b2, a2, v1]⟩, by rw [a2]; exact hfit, ?_⟩
    rw [a1, a2, votedTotal_eq]
    omega

theorem propor_endPoll {k : Nat} (hk : 0 < k) {s s' : State} (h : Propor k s s') (hi : Inv s) (hi' : Inv s')
    (hfit : ∀ i, k * votedTotal s i < M128) (now i m : Nat) (e a : Bool) :
    ProporR k (endPoll s now i m e a) (endPoll s' now i (k * m) e a) := by
  unfold endPoll
  have hp := h.polls i
  cases hq : s.polls.get i with
  | none =>
    rw [hq] at hp
    cases hq' : s'.polls.get i with
    | none => exact rfl
    | some q => rw [hq'] at hp; cases hp
  | some p =>
    rw [hq] at hp
    cases hq' : s'.polls.get i with
    | none => rw [hq'] at hp; cases hp
    | some q =>
      rw [hq'] at hp
      obtain ⟨c1, c2, c3⟩ := propor_counts hk h hi hi' (hfit i) hq hq'
      cases hp with
      | some hp =>
        dsimp only
        have ht : ({ q with status := q.finalStatus (k * m) } : Poll).terms =
            ({ p with status := p.finalStatus m } : Poll).terms := hp.terms
        have hend : q.endsAt = p.endsAt := terms_endsAt hp.terms
        rw [scaled_early hk c1 c2 c3, hp.isInProgress]
        simp only [hend] at ht ⊢
        split
        · exact rfl
        split
        · exact rfl
        exact ⟨h.admin, h.pollCount,
          fun j => propor_setPoll h ⟨ht, scaled_finalStatus hk c1 c2 c3 m⟩ j, h.votes⟩

theorem propor_exec {k : Nat} (hk : 0 < k) {s s' : State} (h : Propor k s s') (hi : Inv s) (hi' : Inv s')
    (hfit : ∀ i, k * votedTotal s i < M128) (c : Call) : ProporR k (exec s c) (exec s' (c.scale k)) := by
  unfold exec
  show ProporR k _ (if c.sender ≠ s'.admin then _ else _)
  rw [h.admin]
  split
  · exact rfl
  unfold Call.scale
  cases c.msg with
  | createPoll p => exact propor_createPoll h c.now p
  | castVote i o v a => exact propor_castVote h c.now i o v a
  | updateVotes v a =>
    show ProporR k (updateVotes s c.now v a) (updateVotes s' c.now v (k * a))
    unfold updateVotes
    rw [propor_votesOf h]
    exact propor_updates c.now v a _ h
  | endPoll i m e a => exact propor_endPoll hk h hi hi' hfit c.now i m e a

theorem propor_step {k : Nat} (hk : 0 < k) {s s' : State} (h : Propor k s s') (hi : Inv s) (hi' : Inv s')
    (hfit : ∀ i, k * votedTotal s i < M128) (c : Call) : Propor k (step s c) (step s' (c.scale k)) := by
  have h1 := propor_exec hk h hi hi' hfit c
  unfold step
  cases he : exec s c with
  | error e =>
    cases he' : exec s' (c.scale k) with
    | error e' => exact h
    | ok x => rw [he, he'] at h1; exact h1.elim
  | ok x =>
    cases he' : exec s' (c.scale k) with
    | error e' => rw [he, he'] at h1; exact h1.elim
    | ok x' => rw [he, he'] at h1; exact h1

theorem isCreate_scale (k : Nat) (c : Call) : isCreate (c.scale k) = isCreate c := by
  unfold isCreate Call.scale
  cases c.msg <;> rfl

theorem propor_run {k : Nat} (hk : 0 < k) : ∀ (h : List Call) {s s' : State}, Propor k s s' → Inv s → Inv s' →
    (∀ c ∈ h, c.msg.typed ∧ (c.msg.scale k).typed) → s.pollCount + creates h < M64 →
    (∀ n i, k * votedTotal (run s (h.take n)) i < M128) →
    Propor k (run s h) (run s' (h.map (Call.scale k))) ∧ Inv (run s h) ∧ Inv (run s' (h.map (Call.scale k)))
  | [], _, _, hr, hi, hi', _, _, _ => ⟨hr, hi, hi'⟩
  | c :: t, s, s', hr, hi, hi', ht, hc, hf => by
    rw [creates_cons] at hc
    have h1 := inv_step hi (ht c (by simp)).1 (by omega)
    have h2 := inv_step (c := c.scale k) hi' (ht c (by simp)).2 (by rw [isCreate_scale, hr.pollCount]; omega)
    exact propor_run hk t (propor_step hk hr hi hi' (hf 0) c) h1.1 h2.1 (fun x hx => ht x (List.mem_cons_of_mem _ hx))
      (by have := h1.2.1; omega) (fun n i => hf (n + 1) i)

/-! ## C169 -/

/-- Governance: if the weight of every vote and the total weights are multiplied by the same number, then every message
is answered as before, with the same error if it is refused; every poll has the same terms, the same outcome, and the
counts of votes multiplied by that number; and so has every recorded vote. -/
theorem C169_proportions {k : Nat} (hk : 0 < k) (a : Addr) (h : List Call) (ht : ScaleTyped k h) (hf : ScaleFits k a h) :
    let s := run (init a) h
    let s' := run (init a) (h.map (Call.scale k))
    (∀ c, (exec s' (c.scale k)).toBool = (exec s c).toBool ∧ ∀ e, exec s' (c.scale k) = .error e ↔ exec s c = .error e) ∧
    (∀ i, (∃ e, queryPoll s i = .error e ∧ queryPoll s' i = .error e) ∨
      ∃ p p', queryPoll s i = .ok p ∧ queryPoll s' i = .ok p' ∧ p.Scaled k p') ∧
    (∀ i m, simulateEnd s' i (k * m) = (simulateEnd s i m).map (Status.scale k)) ∧
    (∀ v i, queryPollVoter s' i v = (queryPollVoter s i v).map (Vote.scale k)) ∧
    ∀ v, votesOf s' v = (votesOf s v).map (Vote.scale k) := by
  intro s s'
  obtain ⟨hr, hi, hi'⟩ : Propor k s s' ∧ Inv s ∧ Inv s' :=
    propor_run hk h ⟨rfl, rfl, fun _ => .none, rfl⟩ (inv_init a) (inv_init a) ht.1 (by simpa [init] using ht.2) hf
  have hfit : ∀ i, k * votedTotal s i < M128 := fun i => by
    have := hf h.length i
    rwa [List.take_length] at this
  have key : ∀ i, (s.polls.get i = none ∧ s'.polls.get i = none) ∨
      ∃ p p', s.polls.get i = some p ∧ s'.polls.get i = some p' := by
    intro i
    have hp := hr.polls i
    cases h1 : s.polls.get i <;> cases h2 : s'.polls.get i <;> rw [h1, h2] at hp
    · exact .inl ⟨rfl, rfl⟩
    · cases hp
    · cases hp
    · exact .inr ⟨_, _, rfl, rfl⟩
  refine ⟨fun c => ?_, fun i => ?_, fun i m => ?_, fun v i => ?_, fun v => propor_votesOf hr v⟩
  · have h1 := propor_exec hk hr hi hi' hfit c
    cases he : exec s c <;> cases he' : exec s' (c.scale k) <;> rw [he, he'] at h1
    · obtain rfl : _ = _ := h1
      exact ⟨rfl, fun _ => Iff.rfl⟩
    · exact h1.elim
    · exact h1.elim
    · exact ⟨rfl, fun e => ⟨(fun x => by cases x), (fun x => by cases x)⟩⟩
  · unfold queryPoll
    rcases key i with ⟨h1, h2⟩ | ⟨p, p', h1, h2⟩
    · rw [h1, h2]
      exact .inl ⟨_, rfl, rfl⟩
    · rw [h1, h2]
      exact .inr ⟨p, p', rfl, rfl, (propor_counts hk hr hi hi' (hfit i) h1 h2).1⟩
  · unfold simulateEnd
    rcases key i with ⟨h1, h2⟩ | ⟨p, p', h1, h2⟩
    · rw [h1, h2]
      rfl
    · rw [h1, h2]
      obtain ⟨c1, c2, c3⟩ := propor_counts hk hr hi hi' (hfit i) h1 h2
      exact congrArg Except.ok (scaled_finalStatus hk c1 c2 c3 m)
  · unfold queryPollVoter
    rw [hr.votes, Map.get_mapVals]

/-- Without room for the multiplied weights the outcome can change: two votes for and one against, one unit each, pass a
poll, but multiplied by 2^127 the two votes for are counted as none. -/
theorem C169_wrap_witness : ∃ (k : Nat) (h : List Call), 0 < k ∧ ScaleTyped k h ∧
    (∃ p, queryPoll (run (init 1) h) 1 = .ok p ∧ p.votesFor .yes = 2 ∧ p.votesFor .no = 1) ∧
    simulateEnd (run (init 1) h) 1 1 = .ok (.passed 0 2) ∧
    simulateEnd (run (init 1) (h.map (Call.scale k))) 1 k = .ok (.rejected .isRejectingOutcome) := by
  refine ⟨2 ^ 127, [⟨10, 1, .createPoll ⟨5, 0, 0, 0, 100, 0, 5 * 10 ^ 17, none⟩⟩,
    ⟨11, 1, .castVote 1 .yes 7 1⟩, ⟨11, 1, .castVote 1 .yes 8 1⟩, ⟨11, 1, .castVote 1 .no 9 1⟩], by decide, ⟨?_, by decide⟩,
    ⟨_, rfl, by decide +kernel, by decide +kernel⟩, by decide +kernel, by decide +kernel⟩
  intro c hc
  simp only [List.mem_cons, List.not_mem_nil, or_false] at hc
  rcases hc with rfl | rfl | rfl | rfl <;> simp [Msg.typed, Msg.scale] <;> decide

/-- The hypotheses hold for the sample history with all the weights multiplied by a million. -/
example : ScaleTyped 1000000 sample ∧ ScaleFits 1000000 1 sample ∧
    (∃ p, queryPoll sampleState 1 = .ok p ∧ p.votesFor .veto = 25) ∧
    ∃ p, queryPoll (run (init 1) (sample.map (Call.scale 1000000))) 1 = .ok p ∧ p.votesFor .veto = 25000000 := by
  refine ⟨⟨?_, by decide⟩, fun n i => ?_, ⟨_, rfl, by decide +kernel⟩, ⟨_, rfl, by decide +kernel⟩⟩
  · intro c hc
    simp only [sample, List.mem_cons, List.not_mem_nil, or_false] at hc
    rcases hc with rfl | rfl | rfl | rfl | rfl | rfl | rfl | rfl <;> simp [Msg.typed, Msg.scale] <;> decide
  · have h1 : ∀ s : State, votedTotal s i ≤ s.votes.sum (fun _ v => v.amount) := fun s =>
      Map.sum_le_sum fun _ v _ => by split <;> simp
    have h2 : ∀ m ≤ 8, 1000000 * (run (init 1) (sample.take m)).votes.sum (fun _ v => v.amount) < 2 ^ 128 := by
      decide +kernel
    refine lt_of_le_of_lt (Nat.mul_le_mul_left _ (h1 _)) ?_
    by_cases hn : n ≤ 8
    · exact h2 n hn
    · rw [List.take_of_length_le (by show 8 ≤ n; omega)]
      exact h2 8 (by decide)

end Verif.Gov
