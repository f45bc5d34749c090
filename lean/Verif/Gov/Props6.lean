import Verif.Gov.Props5

/-!
# Governance: the order of messages about different voters (C163)
-/

set_option linter.unusedSimpArgs false

namespace Verif.Gov
open Verif

/-! ## Specification -/

/-- The voter a message is about: who votes, or whose votes are updated. -/
def voterOf (c : Call) : Option Addr :=
  match c.msg with
  | .castVote _ _ v _ => some v
  | .updateVotes v _ => some v
  | _ => none

/-- The same messages, in an order that keeps the order of the messages of each voter. -/
def Interleaved (l l' : List Call) : Prop :=
  ∀ v, l.filter (fun c => decide (voterOf c = some v)) = l'.filter (fun c => decide (voterOf c = some v))

/-! ## What a message about a voter changes -/

/-- What the messages do not change: admin, number, terms and status of the polls. -/
structure SameFrame (s t : State) : Prop where
  admin : s.admin = t.admin
  count : s.pollCount = t.pollCount
  polls : ∀ i, (s.polls.get i).map (fun p => (p.terms, p.status)) = (t.polls.get i).map (fun p => (p.terms, p.status))

theorem SameFrame.rfl' (s : State) : SameFrame s s := ⟨rfl, rfl, fun _ => rfl⟩

theorem SameFrame.symm {s t : State} (h : SameFrame s t) : SameFrame t s :=
  ⟨h.admin.symm, h.count.symm, fun i => (h.polls i).symm⟩

theorem SameFrame.trans {s t r : State} (h : SameFrame s t) (h' : SameFrame t r) : SameFrame s r :=
  ⟨h.admin.trans h'.admin, h.count.trans h'.count, fun i => (h.polls i).trans (h'.polls i)⟩

theorem SameFrame.get {s t : State} (h : SameFrame s t) {i : Nat} {p : Poll} (hp : s.polls.get i = some p) :
    ∃ q, t.polls.get i = some q ∧ q.terms = p.terms ∧ q.status = p.status := by
  have := h.polls i
  rw [hp] at this
  cases hq : t.polls.get i with
  | none => rw [hq] at this; cases this
  | some q =>
    rw [hq] at this
    simp only [Option.map_some, Option.some.injEq, Prod.mk.injEq] at this
    exact ⟨q, rfl, this.1.symm, this.2.symm⟩

/-- Whether the poll takes a vote at `now`. -/
def takesVote (s : State) (now i : Nat) : Prop :=
  i ≠ 0 ∧ i ≤ s.pollCount ∧ ∃ p, s.polls.get i = some p ∧ p.live ∧ p.startedAt ≤ now ∧ now < p.endsAt

theorem SameFrame.takes {s t : State} (h : SameFrame s t) {now i : Nat} (ht : takesVote s now i) : takesVote t now i := by
  obtain ⟨h0, h1, p, hp, hl, h2, h3⟩ := ht
  obtain ⟨q, hq, e1, e2⟩ := h.get hp
  refine ⟨h0, h.count ▸ h1, q, hq, ?_, ?_, ?_⟩
  · unfold Poll.live; rw [e2]; exact hl
  · rw [terms_startedAt e1]; exact h2
  · rw [terms_endsAt e1]; exact h3

theorem SameFrame.open {s t : State} (h : SameFrame s t) {now i : Nat} (ho : openAt s now i) : openAt t now i := by
  obtain ⟨p, hp, hl, h3⟩ := ho
  obtain ⟨q, hq, e1, e2⟩ := h.get hp
  refine ⟨q, hq, ?_, ?_⟩
  · unfold Poll.live; rw [e2]; exact hl
  · rw [terms_endsAt e1]; exact h3

open Classical in
/-- The vote of `v` on poll `i` after the message. -/
noncomputable def newVote (s : State) (c : Call) (i : Nat) (old : Option Vote) : Option Vote :=
  if c.sender = s.admin then
    match c.msg with
    | .castVote j o v a => if j = i ∧ takesVote s c.now j then some ⟨j, v, o, a⟩ else old
    | .updateVotes _ a => if openAt s c.now i then old.map (fun v => { v with amount := a }) else old
    | _ => old
  else old

/-- The option that the message adds to the results of poll `i`. -/
def adds (s : State) (c : Call) (i k : Nat) : Prop :=
  c.sender = s.admin ∧ ∃ o v a, c.msg = .castVote i o v a ∧ takesVote s c.now i ∧ o.idx = k

theorem SameFrame.newVote {s t : State} (h : SameFrame s t) (c : Call) (i : Nat) (old : Option Vote) :
    Gov.newVote s c i old = Gov.newVote t c i old := by
  unfold Gov.newVote
  have h1 : takesVote s = takesVote t := funext fun now => funext fun j => propext ⟨h.takes, h.symm.takes⟩
  have h2 : openAt s = openAt t := funext fun now => funext fun j => propext ⟨h.open, h.symm.open⟩
  rw [h.admin, h1, h2]

theorem SameFrame.adds {s t : State} (h : SameFrame s t) (c : Call) (i k : Nat) : Gov.adds s c i k ↔ Gov.adds t c i k := by
  unfold Gov.adds
  rw [h.admin]
  constructor
  · rintro ⟨h1, o, v, a, h2, h3, h4⟩; exact ⟨h1, o, v, a, h2, h.takes h3, h4⟩
  · rintro ⟨h1, o, v, a, h2, h3, h4⟩; exact ⟨h1, o, v, a, h2, h.symm.takes h3, h4⟩

/-- What a message about voter `v` does. -/
structure Affects (s : State) (c : Call) (v : Addr) (s' : State) : Prop where
  inv : Inv s'
  frame : SameFrame s s'
  own : ∀ i, s'.votes.get (vkey v i) = newVote s c i (s.votes.get (vkey v i))
  others : ∀ u i, u ≠ v → s'.votes.get (vkey u i) = s.votes.get (vkey u i)
  has : ∀ i p p', s.polls.get i = some p → s'.polls.get i = some p' → ∀ k,
    (p'.results.has k = true ↔ p.results.has k = true ∨ adds s c i k)

/-- States are determined by what the messages do not change, the votes, and the options that occur in the results. -/
theorem state_ext {s t : State} (is : Inv s) (it : Inv t) (hf : SameFrame s t)
    (hv : ∀ u i, s.votes.get (vkey u i) = t.votes.get (vkey u i))
    (hh : ∀ i p q, s.polls.get i = some p → t.polls.get i = some q → ∀ k, (p.results.has k = true ↔ q.results.has k = true)) :
    s = t := by
  have hvotes : s.votes = t.votes := Map.ext_get (fun k => hv (ofLex k).1 (ofLex k).2)
  have hpolls : s.polls = t.polls := by
    refine Map.ext_get (fun i => ?_)
    cases hp : s.polls.get i with
    | none =>
      cases hq : t.polls.get i with
      | none => rfl
      | some q =>
        obtain ⟨p, hp', _⟩ := hf.symm.get hq
        rw [hp] at hp'; cases hp'
    | some p =>
      obtain ⟨q, hq, e1, e2⟩ := hf.get hp
      rw [hq]
      congr 1
      refine poll_ext e1.symm e2.symm (fun k => ?_)
      have hk := hh i p q hp hq k
      by_cases hx : p.results.has k = true
      · obtain ⟨a, ha⟩ := Map.has_iff.1 hx
        obtain ⟨b, hb⟩ := Map.has_iff.1 (hk.1 hx)
        have hlt := is.resKeys i p k hp hx
        have : ∃ oo : Outcome, oo.idx = k := by
          have : k = 0 ∨ k = 1 ∨ k = 2 ∨ k = 3 := by omega
          rcases this with rfl | rfl | rfl | rfl
          exacts [⟨.yes, rfl⟩, ⟨.no, rfl⟩, ⟨.abstain, rfl⟩, ⟨.veto, rfl⟩]
        obtain ⟨oo, rfl⟩ := this
        have t1 := is.tally i p hp oo
        have t2 := it.tally i q hq oo
        unfold Poll.votesFor votedSum at t1 t2
        rw [ha] at t1 ⊢
        rw [hb] at t2 ⊢
        rw [hvotes] at t1
        simp only [Option.getD_some] at t1 t2
        rw [t1, t2]
      · have hx' : ¬ q.results.has k = true := fun h => hx (hk.2 h)
        have n1 : p.results.get k = none := by
          cases hg : p.results.get k with
          | none => rfl
          | some a1 => exact absurd (Map.has_iff.2 ⟨a1, hg⟩) hx
        have n2 : q.results.get k = none := by
          cases hg : q.results.get k with
          | none => rfl
          | some a1 => exact absurd (Map.has_iff.2 ⟨a1, hg⟩) hx'
        rw [n1, n2]
  have := hf.admin
  have := hf.count
  cases s; cases t
  simp_all

theorem castVote_frame {s s' : State} {now i : Nat} {o : Outcome} {v : Addr} {a : Nat}
    (h : castVote s now i o v a = .ok s') : SameFrame s s' := by
  obtain ⟨_, _, p, hp, _, _, _, rfl⟩ := castVote_ok_iff.1 h
  refine ⟨rfl, rfl, fun j => ?_⟩
  simp only [Map.get_set]
  split
  · rename_i hij
    subst hij
    rw [hp]
    simp
  · rfl

/-- The loop of `update_votes` adds no option to results. -/
theorem update_has {now : Nat} {voter : Addr} {amount : Nat} : ∀ (l : List Vote) {s x s' : State}, SameFrame s x →
    (∀ i p q, s.polls.get i = some p → x.polls.get i = some q → ∀ k, (q.results.has k = true ↔ p.results.has k = true)) →
    (∀ v ∈ l, ∀ p, s.polls.get v.pollId = some p → p.results.has v.outcome.idx = true) →
    l.foldlM (updateVote now voter amount) x = .ok s' →
    SameFrame s s' ∧
      ∀ i p q, s.polls.get i = some p → s'.polls.get i = some q → ∀ k, (q.results.has k = true ↔ p.results.has k = true)
  | [], s, x, s', hf, hh, _, h => by
    rw [foldlM_nil_ok_iff] at h
    subst h
    exact ⟨hf, hh⟩
  | v :: l, s, x, s', hf, hh, hp, h => by
    obtain ⟨y, h1, h2⟩ := foldlM_cons_ok_iff.1 h
    rcases updateVote_cases h1 with rfl | hc
    · exact update_has l hf hh (fun w hw => hp w (by simp [hw])) h2
    · refine update_has l (hf.trans (castVote_frame hc)) ?_ (fun w hw => hp w (by simp [hw])) h2
      obtain ⟨_, _, p0, hp0, _, _, _, rfl⟩ := castVote_ok_iff.1 hc
      intro i p q hpi hq k
      simp only [Map.get_set] at hq
      split at hq
      · rename_i hij
        subst hij
        cases hq
        rw [has_recount, Bool.or_eq_true, decide_eq_true_eq, hh _ p p0 hpi hp0]
        constructor
        · rintro (rfl | h)
          · exact hp v (by simp) p hpi
          · exact h
        · exact Or.inr
      · exact hh i p q hpi hq k

theorem affects {s : State} (hi : Inv s) {c : Call} {v : Addr} (hv : voterOf c = some v) (ht : c.msg.typed)
    (hp : ∀ i p, s.polls.get i = some p → p.startedAt ≤ c.now) : Affects s c v (step s c) := by
  obtain ⟨now, x, m⟩ := c
  by_cases hx : x = s.admin
  · cases m with
    | createPoll p => cases hv
    | endPoll i m e a => cases hv
    | castVote i o u a =>
      cases hv
      have he := step_castVote s now x i o v a
      rw [if_pos hx] at he
      cases hc : castVote s now i o v a with
      | error e =>
        rw [hc] at he
        simp only at he
        rw [he]
        have hno : ¬ takesVote s now i := by
          rintro ⟨h0, h1, p, hp, hl, h2, h3⟩
          have := (castVote_ok_iff (s := s) (now := now) (i := i) (o := o) (v := v) (a := a)).2
            ⟨h0, h1, p, hp, hl, h2, h3, rfl⟩
          rw [hc] at this
          cases this
        refine ⟨hi, .rfl' s, fun j => ?_, fun _ _ _ => rfl, ?_⟩
        · unfold newVote
          simp only [hx, if_true]
          rw [if_neg (fun h => hno h.2)]
        · intro j p p' h1 h2 k
          rw [h1] at h2
          cases h2
          refine ⟨Or.inl, ?_⟩
          rintro (h | ⟨_, o', v', a', h3, h4, _⟩)
          · exact h
          · simp only [Msg.castVote.injEq] at h3
            rw [← h3.1] at h4
            exact absurd h4 hno
      | ok s' =>
        rw [hc] at he
        simp only at he
        rw [he]
        have hi' := inv_castVote hi ht hc
        have hf := castVote_frame hc
        obtain ⟨h0, h1, p, hpi, hl, h2, h3, e⟩ := castVote_ok_iff.1 hc
        have htk : takesVote s now i := ⟨h0, h1, p, hpi, hl, h2, h3⟩
        refine ⟨hi', hf, fun j => ?_, fun u j hu => ?_, ?_⟩
        · unfold newVote
          simp only [hx, if_true]
          rw [e]
          simp only [Map.get_set]
          by_cases hij : i = j
          · subst hij
            rw [if_pos rfl, if_pos ⟨rfl, htk⟩]
          · rw [if_neg (fun h => hij (vkey_inj.1 h).2), if_neg (fun h => hij h.1)]
        · rw [e]
          simp only [Map.get_set]
          rw [if_neg (fun h => hu (vkey_inj.1 h).1.symm)]
        · intro j q q' hq hq' k
          rw [e] at hq'
          simp only [Map.get_set] at hq'
          split at hq'
          · rename_i hij
            subst hij
            cases hq'
            rw [hpi] at hq
            cases hq
            rw [has_recount, Bool.or_eq_true, decide_eq_true_eq]
            constructor
            · rintro (h | h)
              · exact Or.inr ⟨hx, o, v, a, rfl, htk, h⟩
              · exact Or.inl h
            · rintro (h | ⟨_, o', v', a', h4, _, h5⟩)
              · exact Or.inr h
              · simp only [Msg.castVote.injEq] at h4
                rw [h4.2.1]
                exact Or.inl h5
          · rename_i hij
            rw [hq] at hq'
            cases hq'
            refine ⟨Or.inl, ?_⟩
            rintro (h | ⟨_, o', v', a', h4, _, _⟩)
            · exact h
            · simp only [Msg.castVote.injEq] at h4
              exact absurd h4.1 hij
    | updateVotes u a =>
      cases hv
      have hsp := votesOf_spec hi v
      obtain ⟨s', h1, h2, h3, h4, h5⟩ := updateLoop (now := now) ht (votesOf s v) s hi hp hsp.1 hsp.2.1
      have he : exec s ⟨now, x, .updateVotes v a⟩ = .ok s' := by
        unfold exec updateVotes
        simp only [hx, ne_eq, not_true, if_false]
        exact h1
      rw [step_ok he]
      have hi' := (inv_updateVotes hi ht (show updateVotes s now v a = .ok s' from h1)).1
      obtain ⟨hf, hh⟩ := update_has (votesOf s v) (.rfl' s) (fun i p q h h' k => by rw [h] at h'; cases h'; rfl)
        (fun w hw p hpw => hi.present _ w p (hsp.1 w hw) hpw) h1
      refine ⟨hi', hf, fun j => ?_, fun w j hw => ?_, ?_⟩
      · rw [h2]
        unfold newVote
        simp only [hx, if_true]
        by_cases hm : j ∈ (votesOf s v).map (·.pollId)
        · by_cases ho : openAt s now j
          · rw [if_pos ⟨rfl, hm, ho⟩, if_pos ho]
          · rw [if_neg (fun h => ho h.2.2), if_neg ho]
        · rw [if_neg (fun h => hm h.2.1)]
          cases hg : s.votes.get (vkey v j) with
          | none => simp
          | some w => exact absurd ((hsp.2.2 j).2 ⟨w, hg⟩) hm
      · rw [h2, if_neg (fun h => hw h.1)]
      · intro i p p' hpi hpi' k
        rw [hh i p p' hpi hpi' k]
        refine ⟨Or.inl, ?_⟩
        rintro (h | ⟨_, o', v', a', h4, _⟩)
        · exact h
        · cases h4
  · have he : step s ⟨now, x, m⟩ = s := by
      unfold step exec
      simp [hx]
    rw [he]
    refine ⟨hi, .rfl' s, fun j => ?_, fun _ _ _ => rfl, ?_⟩
    · unfold newVote
      rw [if_neg hx]
    · intro i p p' h1 h2 k
      rw [h1] at h2
      cases h2
      exact ⟨Or.inl, fun h => h.elim id (fun h => absurd h.1 hx)⟩

theorem SameFrame.past {s t : State} (h : SameFrame s t) {now : Nat}
    (hp : ∀ i p, s.polls.get i = some p → p.startedAt ≤ now) : ∀ i p, t.polls.get i = some p → p.startedAt ≤ now := by
  intro i q hq
  obtain ⟨p, h1, h2, _⟩ := h.symm.get hq
  rw [← terms_startedAt h2]
  exact hp i p h1

/-- Messages about different voters commute. -/
theorem step_comm {s : State} (hi : Inv s) {c d : Call} {v w : Addr} (hv : voterOf c = some v) (hw : voterOf d = some w)
    (hne : v ≠ w) (hc : c.msg.typed) (hd : d.msg.typed) (hpc : ∀ i p, s.polls.get i = some p → p.startedAt ≤ c.now)
    (hpd : ∀ i p, s.polls.get i = some p → p.startedAt ≤ d.now) : step (step s c) d = step (step s d) c := by
  have a1 := affects hi hv hc hpc
  have a2 := affects hi hw hd hpd
  have a12 := affects a1.inv hw hd (a1.frame.past hpd)
  have a21 := affects a2.inv hv hc (a2.frame.past hpc)
  refine state_ext a12.inv a21.inv (a12.frame.symm.trans (a1.frame.symm.trans (a2.frame.trans a21.frame))) ?_ ?_
  · intro u i
    by_cases huv : u = v
    · subst huv
      rw [a12.others u i hne, a1.own i, a21.own i, a2.others u i hne, a2.frame.newVote]
    · by_cases huw : u = w
      · subst huw
        rw [a12.own i, a1.others u i huv, a21.others u i huv, a2.own i, a1.frame.newVote]
      · rw [a12.others u i huw, a1.others u i huv, a21.others u i huv, a2.others u i huw]
  · intro i p q hp hq k
    obtain ⟨p1, hp1, _⟩ := a12.frame.symm.get hp
    obtain ⟨p0, hp0, _⟩ := a1.frame.symm.get hp1
    obtain ⟨q1, hq1, _⟩ := a21.frame.symm.get hq
    rw [a12.has i p1 p hp1 hp k, a1.has i p0 p1 hp0 hp1 k, a21.has i q1 q hq1 hq k, a2.has i p0 q1 hp0 hq1 k,
      ← a1.frame.adds, ← a2.frame.adds]
    tauto

theorem run_cons (s : State) (c : Call) (l : List Call) : run s (c :: l) = run (step s c) l := rfl

theorem move_back {c : Call} {q : List Call} : ∀ (p : List Call) {s : State}, Inv s → c.msg.typed → voterOf c ≠ none →
    (∀ i x, s.polls.get i = some x → x.startedAt ≤ c.now) →
    (∀ d ∈ p, voterOf d ≠ none ∧ voterOf d ≠ voterOf c ∧ d.msg.typed ∧ ∀ i x, s.polls.get i = some x → x.startedAt ≤ d.now) →
    run s (c :: (p ++ q)) = run s (p ++ c :: q)
  | [], _, _, _, _, _, _ => rfl
  | d :: p, s, hi, ht, hc, hpc, hd => by
    obtain ⟨v, hv⟩ := Option.ne_none_iff_exists'.1 hc
    obtain ⟨h1, h2, h3, h4⟩ := hd d (by simp)
    obtain ⟨w, hw⟩ := Option.ne_none_iff_exists'.1 h1
    have hne : v ≠ w := by
      intro h
      rw [hv, hw, h] at h2
      exact h2 rfl
    have a := affects hi hw h3 h4
    rw [List.cons_append, List.cons_append, run_cons, run_cons, run_cons, step_comm hi hv hw hne ht h3 hpc h4, ← run_cons]
    exact move_back p a.inv ht hc (a.frame.past hpc) (fun e he => by
      obtain ⟨g1, g2, g3, g4⟩ := hd e (by simp [he])
      exact ⟨g1, g2, g3, a.frame.past g4⟩)

theorem order_run : ∀ (l l' : List Call) {s : State}, Inv s →
    (∀ c ∈ l, voterOf c ≠ none ∧ c.msg.typed ∧ ∀ i x, s.polls.get i = some x → x.startedAt ≤ c.now) →
    (∀ c ∈ l', voterOf c ≠ none) → Interleaved l l' → run s l = run s l'
  | [], l', s, _, _, hl', hil => by
    cases l' with
    | nil => rfl
    | cons d t =>
      obtain ⟨u, hu⟩ := Option.ne_none_iff_exists'.1 (hl' d (by simp))
      have := hil u
      simp [hu] at this
  | c :: t, l', s, hi, hl, hl', hil => by
    obtain ⟨hc, ht, hpc⟩ := hl c (by simp)
    obtain ⟨u, hu⟩ := Option.ne_none_iff_exists'.1 hc
    have hf := hil u
    rw [List.filter_cons_of_pos (by simpa using hu), eq_comm, List.filter_eq_cons_iff] at hf
    obtain ⟨p, q, rfl, hp, _, hq⟩ := hf
    have hp' : ∀ d ∈ p, voterOf d ≠ some u := by
      intro d hd
      have := hp d hd
      simpa using this
    have hil' : Interleaved t (p ++ q) := by
      intro v
      by_cases hv : v = u
      · subst hv
        have hp0 : p.filter (fun c => decide (voterOf c = some v)) = [] :=
          List.filter_eq_nil_iff.2 (fun d hd => by simpa using hp' d hd)
        rw [List.filter_append, hp0, hq]
        rfl
      · have := hil v
        rw [List.filter_cons_of_neg (by rw [hu]; simpa using fun h : u = v => hv h.symm), List.filter_append,
          List.filter_cons_of_neg (by rw [hu]; simpa using fun h : u = v => hv h.symm), ← List.filter_append] at this
        exact this
    have hmem : ∀ d ∈ p, d ∈ t := by
      intro d hd
      obtain ⟨w, hw⟩ := Option.ne_none_iff_exists'.1 (hl' d (by simp [hd]))
      have h1 : d ∈ (p ++ q).filter (fun c => decide (voterOf c = some w)) :=
        List.mem_filter.2 ⟨by simp [hd], by simpa using hw⟩
      rw [← hil' w] at h1
      exact (List.mem_filter.1 h1).1
    have a := affects hi hu ht hpc
    have h1 := order_run t (p ++ q) a.inv
      (fun d hd => by
        obtain ⟨g1, g2, g3⟩ := hl d (by simp [hd])
        exact ⟨g1, g2, a.frame.past g3⟩)
      (fun d hd => hl' d (by simp only [List.mem_append] at hd; simp; tauto)) hil'
    rw [run_cons, h1, ← run_cons]
    exact move_back p hi ht hc hpc (fun d hd => by
      obtain ⟨g1, g2, g3⟩ := hl d (by simp [hmem d hd])
      exact ⟨g1, fun h => hp' d hd (h.trans hu), g2, g3⟩)

/-! ## C163 -/

/-- Votes and updates of votes, sent by anyone and accepted or not, in another order that keeps the order of the messages
about each voter, give the same state: the same polls, tallies and votes. No message is sent before the start of a poll that
exists (the chain's time does not go back). -/
theorem C163_order {s : State} (h : Reachable s) {l l' : List Call} (hl : ∀ c ∈ l, voterOf c ≠ none ∧ c.msg.typed)
    (hl' : ∀ c ∈ l', voterOf c ≠ none) (hil : Interleaved l l')
    (hnow : ∀ c ∈ l, ∀ i p, queryPoll s i = .ok p → p.startedAt ≤ c.now) : run s l = run s l' := by
  refine order_run l l' h.inv (fun c hc => ⟨(hl c hc).1, (hl c hc).2, fun i p hp => hnow c hc i p ?_⟩) hl' hil
  unfold queryPoll
  rw [hp]

example : Interleaved
      [⟨20, 1, .castVote 1 .yes 8 3⟩, ⟨21, 1, .updateVotes 7 5⟩, ⟨22, 1, .castVote 2 .no 8 5⟩, ⟨22, 1, .updateVotes 7 9⟩]
      [⟨21, 1, .updateVotes 7 5⟩, ⟨22, 1, .updateVotes 7 9⟩, ⟨20, 1, .castVote 1 .yes 8 3⟩, ⟨22, 1, .castVote 2 .no 8 5⟩] ∧
    run sampleState [⟨21, 1, .updateVotes 7 5⟩] ≠ sampleState ∧
    run sampleState [⟨20, 1, .castVote 1 .yes 8 3⟩, ⟨22, 1, .castVote 2 .no 8 5⟩] ≠ sampleState := by
  refine ⟨fun v => ?_, by decide +kernel, by decide +kernel⟩
  by_cases h1 : v = 7
  · subst h1; rfl
  by_cases h2 : v = 8
  · subst h2; rfl
  have e1 : ¬ 7 = v := fun h => h1 h.symm
  have e2 : ¬ 8 = v := fun h => h2 h.symm
  simp [voterOf, e1, e2]

/-- The order of the messages about one voter does matter: a vote after an update of the weight keeps its own amount. -/
theorem C163_own_order_witness : ∃ s c d, Reachable s ∧ voterOf c = some 8 ∧ voterOf d = some 8 ∧ run s [c, d] ≠ run s [d, c] :=
  ⟨sampleState, ⟨20, 1, .castVote 1 .yes 8 3⟩, ⟨20, 1, .updateVotes 8 5⟩, sample_reachable, rfl, rfl, by decide +kernel⟩

end Verif.Gov
