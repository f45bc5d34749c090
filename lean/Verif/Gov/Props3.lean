import Verif.Gov.Props2

/-!
# Governance: polls do not influence each other (C149)
-/

set_option linter.unusedSimpArgs false

namespace Verif.Gov
open Verif

/-! ### Specification -/

/-- The message is about another poll: a vote on it, or its end. -/
def aboutOther (i : Nat) (c : Call) : Bool :=
  match c.msg with
  | .castVote j _ _ _ => decide (j ≠ i)
  | .endPoll j _ _ _ => decide (j ≠ i)
  | _ => false

/-- A history without the votes on other polls and without their ends. -/
def alone (i : Nat) (h : List Call) : List Call := h.filter (fun c => !aboutOther i c)

/-! ### Lemmas -/

/-- Two states agree about a poll. -/
structure AgreeOn (i : Nat) (s t : State) : Prop where
  admin : s.admin = t.admin
  count : s.pollCount = t.pollCount
  poll : s.polls.get i = t.polls.get i
  votes : ∀ u, s.votes.get (vkey u i) = t.votes.get (vkey u i)

theorem AgreeOn.symm {i : Nat} {s t : State} (h : AgreeOn i s t) : AgreeOn i t s :=
  ⟨h.admin.symm, h.count.symm, h.poll.symm, fun u => (h.votes u).symm⟩

theorem AgreeOn.trans {i : Nat} {s t r : State} (h : AgreeOn i s t) (h' : AgreeOn i t r) : AgreeOn i s r :=
  ⟨h.admin.trans h'.admin, h.count.trans h'.count, h.poll.trans h'.poll, fun u => (h.votes u).trans (h'.votes u)⟩

theorem AgreeOn.rfl {i : Nat} {s : State} : AgreeOn i s s := ⟨Eq.refl _, Eq.refl _, Eq.refl _, fun _ => Eq.refl _⟩

theorem castVote_other {i j : Nat} (hj : j ≠ i) {s s' : State} {now : Nat} {o : Outcome} {v : Addr} {a : Nat}
    (h : castVote s now j o v a = .ok s') : AgreeOn i s s' := by
  obtain ⟨_, _, p, _, _, _, _, rfl⟩ := castVote_ok_iff.1 h
  refine ⟨rfl, rfl, ?_, fun u => ?_⟩
  · show _ = (s.polls.set j _).get i
    rw [Map.get_set, if_neg hj]
  · show _ = (s.votes.set (vkey v j) _).get (vkey u i)
    rw [Map.get_set, if_neg (fun hh => hj (vkey_inj.1 hh).2)]

theorem endPoll_other {i j : Nat} (hj : j ≠ i) {s s' : State} {now m : Nat} {e a : Bool}
    (h : endPoll s now j m e a = .ok s') : AgreeOn i s s' := by
  obtain ⟨p, _, _, _, rfl⟩ := endPoll_ok_iff.1 h
  refine ⟨rfl, rfl, ?_, fun u => rfl⟩
  show _ = (s.polls.set j _).get i
  rw [Map.get_set, if_neg hj]

theorem castVote_agree {i : Nat} {s t s' : State} (h : AgreeOn i s t) {now : Nat} {o : Outcome} {v : Addr} {a : Nat}
    (hs : castVote s now i o v a = .ok s') : ∃ t', castVote t now i o v a = .ok t' ∧ AgreeOn i s' t' := by
  obtain ⟨h0, h1, p, hp, hl, h2, h3, rfl⟩ := castVote_ok_iff.1 hs
  refine ⟨_, castVote_ok_iff.2 ⟨h0, h.count ▸ h1, p, h.poll ▸ hp, hl, h2, h3, rfl⟩, h.admin, h.count, ?_, fun u => ?_⟩
  · show (s.polls.set i _).get i = (t.polls.set i _).get i
    rw [Map.get_set, Map.get_set, if_pos rfl, if_pos rfl, h.votes]
  · show (s.votes.set (vkey v i) _).get (vkey u i) = (t.votes.set (vkey v i) _).get (vkey u i)
    rw [Map.get_set, Map.get_set, h.votes]

theorem endPoll_agree {i : Nat} {s t s' : State} (h : AgreeOn i s t) {now m : Nat} {e a : Bool}
    (hs : endPoll s now i m e a = .ok s') : ∃ t', endPoll t now i m e a = .ok t' ∧ AgreeOn i s' t' := by
  obtain ⟨p, hp, h1, h2, rfl⟩ := endPoll_ok_iff.1 hs
  refine ⟨_, endPoll_ok_iff.2 ⟨p, h.poll ▸ hp, h1, h2, rfl⟩, h.admin, h.count, ?_, h.votes⟩
  show (s.polls.set i _).get i = (t.polls.set i _).get i
  rw [Map.get_set, Map.get_set, if_pos rfl, if_pos rfl]

theorem createPoll_agree {i : Nat} {s t s' : State} (h : AgreeOn i s t) {now : Nat} {c : CreateParams}
    (hs : createPoll s now c = .ok s') : ∃ t', createPoll t now c = .ok t' ∧ AgreeOn i s' t' := by
  obtain ⟨h1, h2, rfl⟩ := createPoll_ok_iff.1 hs
  refine ⟨_, createPoll_ok_iff.2 ⟨h1, h2, rfl⟩, h.admin, ?_, ?_, h.votes⟩
  · show wadd64 _ _ = wadd64 _ _
    rw [h.count]
  · show (s.polls.set _ _).get i = (t.polls.set _ _).get i
    rw [Map.get_set, Map.get_set, h.count, h.poll]

theorem updateVote_other {i : Nat} {s s' : State} {now : Nat} {u : Addr} {a : Nat} {v : Vote} (hv : v.pollId ≠ i)
    (h : updateVote now u a s v = .ok s') : AgreeOn i s s' := by
  rcases updateVote_cases h with rfl | h
  · exact .rfl
  · exact castVote_other hv h

theorem updateVote_agree {i : Nat} {s t s' : State} (h : AgreeOn i s t) {now : Nat} {u : Addr} {a : Nat} {v : Vote}
    (hv : v.pollId = i) (hs : updateVote now u a s v = .ok s') :
    ∃ t', updateVote now u a t v = .ok t' ∧ AgreeOn i s' t' := by
  subst hv
  unfold updateVote at hs ⊢
  rw [← h.poll]
  cases hp : s.polls.get v.pollId with
  | none => rw [hp] at hs; cases hs
  | some p =>
    rw [hp] at hs
    dsimp only at hs ⊢
    cases hst : p.status with
    | inProgress e =>
      rw [hst] at hs
      dsimp only at hs ⊢
      by_cases hn : now < e
      · rw [if_pos hn] at hs ⊢
        exact castVote_agree h hs
      · rw [if_neg hn] at hs ⊢
        cases hs
        exact ⟨t, rfl, h⟩
    | passed o n =>
      rw [hst] at hs
      cases hs
      exact ⟨t, rfl, h⟩
    | rejected r =>
      rw [hst] at hs
      cases hs
      exact ⟨t, rfl, h⟩

theorem updates_other {i : Nat} {now : Nat} {u : Addr} {a : Nat} : ∀ (l : List Vote) {s s' : State},
    (∀ v ∈ l, v.pollId ≠ i) → l.foldlM (updateVote now u a) s = .ok s' → AgreeOn i s s'
  | [], s, s', _, h => by
    rw [foldlM_nil_ok_iff] at h
    subst h
    exact .rfl
  | v :: l, s, s', hl, h => by
    obtain ⟨s1, h1, h2⟩ := foldlM_cons_ok_iff.1 h
    exact (updateVote_other (hl v List.mem_cons_self) h1).trans
      (updates_other l (fun x hx => hl x (List.mem_cons_of_mem _ hx)) h2)

/-- What an update of a voter's votes does to a poll is what the update of the vote on it does. -/
theorem updates_one {i : Nat} {now : Nat} {u : Addr} {a : Nat} : ∀ (l : List Vote) {s s' : State} (v : Vote),
    (l.map (·.pollId)).Nodup → v ∈ l → v.pollId = i → l.foldlM (updateVote now u a) s = .ok s' →
    ∃ s1, updateVote now u a s v = .ok s1 ∧ AgreeOn i s1 s'
  | x :: l, s, s', v, hn, hv, hi, h => by
    obtain ⟨s1, h1, h2⟩ := foldlM_cons_ok_iff.1 h
    rw [List.map_cons, List.nodup_cons] at hn
    rcases List.mem_cons.1 hv with rfl | hv
    · refine ⟨s1, h1, updates_other l (fun y hy hh => hn.1 ?_) h2⟩
      exact List.mem_map.2 ⟨y, hy, hh.trans hi.symm⟩
    · have hx : x.pollId ≠ i := fun hh => hn.1 (List.mem_map.2 ⟨v, hv, hi.trans hh.symm⟩)
      obtain ⟨s2, h3, h4⟩ := updates_one l v hn.2 hv hi h2
      obtain ⟨s3, h5, h6⟩ := updateVote_agree (updateVote_other hx h1).symm hi h3
      exact ⟨s3, h5, h6.symm.trans h4⟩

theorem updateVotes_agree {i : Nat} {s t s' t' : State} (h : AgreeOn i s t) (is : Inv s) (it : Inv t) {now : Nat} {u : Addr}
    {a : Nat} (hs : updateVotes s now u a = .ok s') (ht : updateVotes t now u a = .ok t') : AgreeOn i s' t' := by
  unfold updateVotes at hs ht
  obtain ⟨a1, a2, a3⟩ := votesOf_spec is u
  obtain ⟨b1, b2, b3⟩ := votesOf_spec it u
  cases hv : s.votes.get (vkey u i) with
  | none =>
    have e1 := updates_other _ (fun v hv' hh => by
      have := a1 v hv'
      rw [hh, hv] at this
      cases this) hs
    have e2 := updates_other (i := i) _ (fun v hv' hh => by
      have := b1 v hv'
      rw [hh, ← h.votes, hv] at this
      cases this) ht
    exact e1.symm.trans (h.trans e2)
  | some v =>
    obtain ⟨v1, m1, p1⟩ := List.mem_map.1 ((a3 i).2 ⟨v, hv⟩)
    obtain ⟨v2, m2, p2⟩ := List.mem_map.1 ((b3 i).2 ⟨v, (h.votes u) ▸ hv⟩)
    have e1 := a1 v1 m1
    have e2 := b1 v2 m2
    rw [p1, hv] at e1
    rw [p2, ← h.votes, hv] at e2
    cases e1
    cases e2
    obtain ⟨s1, h1, g1⟩ := updates_one _ v a2 m1 p1 hs
    obtain ⟨t1, h2, g2⟩ := updates_one _ v b2 m2 p1 ht
    obtain ⟨t2, h3, g3⟩ := updateVote_agree h p1 h1
    rw [h2] at h3
    cases h3
    exact g1.symm.trans (g3.trans g2)

/-- No poll was created later than `now`. -/
def Past (now : Nat) (s : State) : Prop := ∀ i p, s.polls.get i = some p → p.startedAt ≤ now

theorem past_step {s : State} {c : Call} (hi : Inv s) (ht : c.msg.typed) (hc : s.pollCount + isCreate c < M64)
    (h : Past c.now s) : Past c.now (step s c) := by
  obtain ⟨hi', hle, _⟩ := inv_step hi ht hc
  intro j p hj
  by_cases hs : ∃ q, s.polls.get j = some q
  · obtain ⟨q, hq⟩ := hs
    obtain ⟨p', he⟩ := evolves_step hi hc hq
    have := he.get
    rw [hj] at this
    cases this
    rw [terms_startedAt he.terms]
    exact h j q hq
  · have h1 := (hi'.ids j).1 ⟨p, hj⟩
    have h2 : ¬ (1 ≤ j ∧ j ≤ s.pollCount) := fun hh => hs ((hi.ids j).2 hh)
    have hne : s.polls.get j = none := by
      cases hg : s.polls.get j with
      | none => rfl
      | some q => exact absurd ⟨q, hg⟩ hs
    unfold isCreate at hle hc
    cases hm : c.msg with
    | createPoll cp =>
      unfold step at hj
      cases he : exec s c with
      | error x =>
        rw [he] at hj
        rw [hne] at hj
        cases hj
      | ok s' =>
        rw [he] at hj
        unfold exec at he
        rw [hm] at he
        obtain ⟨_, he⟩ := ite_ok_iff.1 he
        obtain ⟨_, _, rfl⟩ := createPoll_ok_iff.1 he
        change (s.polls.set _ _).get j = some p at hj
        rw [Map.get_set, hne] at hj
        split at hj
        · cases hj
          exact le_refl _
        · cases hj
    | castVote _ _ _ _ => rw [hm] at hle; dsimp only at hle; omega
    | updateVotes _ _ => rw [hm] at hle; dsimp only at hle; omega
    | endPoll _ _ _ _ => rw [hm] at hle; dsimp only at hle; omega

theorem agree_step {i : Nat} {s t : State} {c : Call} (is : Inv s) (it : Inv t) (h : AgreeOn i s t) (ht : c.msg.typed)
    (ps : Past c.now s) (pt : Past c.now t) (hc : aboutOther i c = false) : AgreeOn i (step s c) (step t c) := by
  have key : ∀ {s t : State}, Inv s → Inv t → AgreeOn i s t → Past c.now s → Past c.now t → ∀ s', exec s c = .ok s' →
      ∃ t', exec t c = .ok t' ∧ AgreeOn i s' t' := by
    intro s t is it h ps pt s' hs
    unfold exec at hs ⊢
    obtain ⟨hsend, hs⟩ := ite_ok_iff.1 hs
    rw [if_neg (by rw [← h.admin]; exact hsend)]
    unfold aboutOther at hc
    cases hm : c.msg with
    | createPoll p => rw [hm] at hs; exact createPoll_agree h hs
    | castVote j o v a =>
      rw [hm] at hs hc
      have hj : j = i := by simpa using hc
      subst hj
      exact castVote_agree h hs
    | updateVotes v a =>
      rw [hm] at hs ht
      obtain ⟨b1, b2, _⟩ := votesOf_spec it v
      obtain ⟨t', h1, _⟩ := updateLoop (now := c.now) ht (votesOf t v) t it pt b1 b2
      exact ⟨t', h1, updateVotes_agree h is it hs h1⟩
    | endPoll j m e a =>
      rw [hm] at hs hc
      have hj : j = i := by simpa using hc
      subst hj
      exact endPoll_agree h hs
  unfold step
  cases hs : exec s c with
  | ok s' =>
    obtain ⟨t', h1, h2⟩ := key is it h ps pt s' hs
    rw [h1]
    exact h2
  | error x =>
    cases htt : exec t c with
    | ok t' =>
      obtain ⟨s', h1, _⟩ := key it is h.symm pt ps t' htt
      rw [hs] at h1
      cases h1
    | error y => exact h

theorem other_step {i : Nat} {s : State} {c : Call} (hc : aboutOther i c = true) : AgreeOn i s (step s c) := by
  unfold step
  cases hs : exec s c with
  | error x => exact .rfl
  | ok s' =>
    unfold exec at hs
    obtain ⟨_, hs⟩ := ite_ok_iff.1 hs
    unfold aboutOther at hc
    cases hm : c.msg with
    | createPoll p => rw [hm] at hc; cases hc
    | updateVotes v a => rw [hm] at hc; cases hc
    | castVote j o v a =>
      rw [hm] at hs hc
      exact castVote_other (by simpa using hc) hs
    | endPoll j m e a =>
      rw [hm] at hs hc
      exact endPoll_other (by simpa using hc) hs

theorem agree_run {i : Nat} : ∀ (h : List Call) {s t : State}, Inv s → Inv t → AgreeOn i s t → (∀ c ∈ h, c.msg.typed) →
    s.pollCount + creates h < M64 → h.Pairwise (fun c d => c.now ≤ d.now) → (∀ c ∈ h, Past c.now s ∧ Past c.now t) →
    AgreeOn i (run s h) (run t (alone i h))
  | [], s, t, _, _, ha, _, _, _, _ => ha
  | c :: h, s, t, is, it, ha, hty, hcr, hp, hpast => by
    have hc1 := hty c List.mem_cons_self
    obtain ⟨hp1, hp2⟩ := List.pairwise_cons.1 hp
    have hcr' : s.pollCount + (isCreate c + creates h) < M64 := hcr
    obtain ⟨q1, q2⟩ := hpast c List.mem_cons_self
    have hns := inv_step is hc1 (by omega)
    have hnt := inv_step it hc1 (by rw [← ha.count]; omega)
    have hps := past_step is hc1 (by omega) q1
    have mono : ∀ {now now' : Nat} {r : State}, now ≤ now' → Past now r → Past now' r :=
      fun hle hr j p hj => le_trans (hr j p hj) hle
    by_cases ho : aboutOther i c = true
    · have h1 : alone i (c :: h) = alone i h := by unfold alone; rw [List.filter_cons, ho]; rfl
      rw [h1]
      refine agree_run h hns.1 it ((other_step ho).symm.trans ha) (fun x hx => hty x (List.mem_cons_of_mem _ hx)) ?_ hp2
        (fun x hx => ⟨mono (hp1 x hx) hps, (hpast x (List.mem_cons_of_mem _ hx)).2⟩)
      have := hns.2.1
      omega
    · have hf : aboutOther i c = false := by simpa using ho
      have h1 : alone i (c :: h) = c :: alone i h := by unfold alone; rw [List.filter_cons, hf]; rfl
      rw [h1]
      refine agree_run h hns.1 hnt.1 (agree_step is it ha hc1 q1 q2 hf) (fun x hx => hty x (List.mem_cons_of_mem _ hx)) ?_ hp2
        (fun x hx => ⟨mono (hp1 x hx) hps, mono (hp1 x hx) (past_step it hc1 (by rw [← ha.count]; omega) q2)⟩)
      have := hns.2.1
      omega

/-! ## C149 -/

/-- **Polls do not influence each other.** In any history in which time does not run backwards, leave out all votes on other
polls and all their ends: poll `i` is the same in the end, with the same terms, results and status, and with the same votes
of the same users. -/
theorem C149_alone (admin : Addr) (h : List Call) (hty : ∀ c ∈ h, c.msg.typed) (hcr : creates h < 2 ^ 64)
    (hp : h.Pairwise (fun c d => c.now ≤ d.now)) (i : Nat) :
    queryPoll (run (init admin) h) i = queryPoll (run (init admin) (alone i h)) i ∧
    ∀ u, queryPollVoter (run (init admin) h) i u = queryPollVoter (run (init admin) (alone i h)) i u := by
  have hnil : ∀ now, Past now (init admin) := fun now j p hj => by cases hj
  have ha := agree_run (i := i) h (inv_init admin) (inv_init admin) .rfl hty (by show 0 + creates h < M64; unfold M64; omega) hp
    (fun c _ => ⟨hnil _, hnil _⟩)
  refine ⟨?_, ha.votes⟩
  unfold queryPoll
  rw [ha.poll]

/-- So no vote on a poll and no end of it can do anything to another poll, nor make a later message to it succeed or fail: two
histories that differ only in messages about other polls give the same poll. -/
theorem C149_same (admin : Addr) (h h' : List Call) (hty : ∀ c ∈ h, c.msg.typed) (hty' : ∀ c ∈ h', c.msg.typed)
    (hcr : creates h < 2 ^ 64) (hcr' : creates h' < 2 ^ 64) (hp : h.Pairwise (fun c d => c.now ≤ d.now))
    (hp' : h'.Pairwise (fun c d => c.now ≤ d.now)) (i : Nat) (hh : alone i h = alone i h') :
    queryPoll (run (init admin) h) i = queryPoll (run (init admin) h') i ∧
    ∀ u, queryPollVoter (run (init admin) h) i u = queryPollVoter (run (init admin) h') i u := by
  obtain ⟨h1, h2⟩ := C149_alone admin h hty hcr hp i
  obtain ⟨h3, h4⟩ := C149_alone admin h' hty' hcr' hp' i
  rw [h1, h3, hh]
  exact ⟨rfl, fun u => by rw [h2, h4, hh]⟩

/-! ### Examples -/

/-- Hypotheses met: in the sample history poll 2 keeps its vote of voter 7, whose weight was updated, without the three votes
on poll 1. -/
example : (∀ c ∈ sample, c.msg.typed) ∧ creates sample < 2 ^ 64 ∧ sample.Pairwise (fun c d => c.now ≤ d.now) ∧
    (alone 2 sample).length = 4 ∧
    queryPollVoter (run (init 1) (alone 2 sample)) 2 7 = some ⟨2, 7, .yes, 25⟩ ∧
    queryPollVoter (run (init 1) sample) 2 7 = some ⟨2, 7, .yes, 25⟩ := by
  refine ⟨?_, by decide +kernel, by decide +kernel, by decide +kernel, by decide +kernel, by decide +kernel⟩
  intro c hc
  simp only [sample, List.mem_cons, List.not_mem_nil, or_false] at hc
  rcases hc with rfl | rfl | rfl | rfl | rfl | rfl | rfl | rfl <;> simp [Msg.typed] <;> decide

/-- Without the order of time it is false: a poll can keep an update of the votes on another one from being made, when the update
comes with a time before that poll began. Blocks never do that. -/
example : queryPollVoter (run (init 1) [⟨10, 1, .createPoll ⟨5, 0, 0, 0, 100, 0, 0, none⟩⟩, ⟨20, 1, .createPoll ⟨5, 0, 0, 0, 100, 0, 0, none⟩⟩,
      ⟨30, 1, .castVote 1 .yes 7 40⟩, ⟨30, 1, .castVote 2 .yes 7 40⟩, ⟨15, 1, .updateVotes 7 25⟩]) 1 7 = some ⟨1, 7, .yes, 40⟩ ∧
    queryPollVoter (run (init 1) [⟨10, 1, .createPoll ⟨5, 0, 0, 0, 100, 0, 0, none⟩⟩, ⟨20, 1, .createPoll ⟨5, 0, 0, 0, 100, 0, 0, none⟩⟩,
      ⟨30, 1, .castVote 1 .yes 7 40⟩, ⟨15, 1, .updateVotes 7 25⟩]) 1 7 = some ⟨1, 7, .yes, 25⟩ := by
  decide +kernel

end Verif.Gov
