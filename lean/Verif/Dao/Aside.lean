import Verif.Dao.Trace
import Verif.Dao.Props36
import Verif.Gov.Props9

/-!
# The contracts of a DAO together: states that differ in one proposal only

Helper lemmas for C172: votes on a proposal change nothing but this proposal, and any message that is not about this proposal
does the same whatever the votes on it.
-/

set_option linter.unusedSimpArgs false

namespace Verif.Gov
open Verif

/-- Two states of governance that differ at most in one poll. -/
def AgreeBut (j : Nat) (s t : State) : Prop := ∀ i, i ≠ j → AgreeOn i s t

theorem AgreeBut.admin {j : Nat} {s t : State} (h : AgreeBut j s t) : s.admin = t.admin := (h (j + 1) (by omega)).admin

theorem AgreeBut.count {j : Nat} {s t : State} (h : AgreeBut j s t) : s.pollCount = t.pollCount := (h (j + 1) (by omega)).count

theorem AgreeBut.trans {j : Nat} {s t r : State} (h : AgreeBut j s t) (h' : AgreeBut j t r) : AgreeBut j s r :=
  fun i hi => (h i hi).trans (h' i hi)

theorem AgreeBut.symm {j : Nat} {s t : State} (h : AgreeBut j s t) : AgreeBut j t s := fun i hi => (h i hi).symm

theorem castVote_but {j : Nat} {s s' : State} {now : Nat} {o : Outcome} {v : Addr} {a : Nat}
    (h : castVote s now j o v a = .ok s') : AgreeBut j s s' := fun _ hi => castVote_other (fun hh => hi hh.symm) h

theorem castVote_aside {i j : Nat} (hij : i ≠ j) {s t s' : State} (h : AgreeBut j s t) {now : Nat} {o : Outcome} {v : Addr}
    {a : Nat} (hs : castVote s now i o v a = .ok s') : ∃ t', castVote t now i o v a = .ok t' ∧ AgreeBut j s' t' := by
  obtain ⟨t', h1, h2⟩ := castVote_agree (h i hij) hs
  refine ⟨t', h1, fun k hk => ?_⟩
  by_cases hki : i = k
  · subst hki; exact h2
  · exact (castVote_other hki hs).symm.trans ((h k hk).trans (castVote_other hki h1))

theorem createPoll_aside {j : Nat} {s t s' : State} (h : AgreeBut j s t) {now : Nat} {c : CreateParams}
    (hs : createPoll s now c = .ok s') : ∃ t', createPoll t now c = .ok t' ∧ AgreeBut j s' t' := by
  obtain ⟨t', h1, _⟩ := createPoll_agree (h (j + 1) (by omega)) hs
  refine ⟨t', h1, fun k hk => ?_⟩
  obtain ⟨t2, h2, h3⟩ := createPoll_agree (h k hk) hs
  rw [h1] at h2
  cases h2
  exact h3

theorem updateVotes_aside {j : Nat} {s t s' : State} (h : AgreeBut j s t) (is : Inv s) (it : Inv t) {now : Nat} {u : Addr}
    {a : Nat} (ha : a < M128) (pt : Past now t) (hs : updateVotes s now u a = .ok s') :
    ∃ t', updateVotes t now u a = .ok t' ∧ AgreeBut j s' t' := by
  obtain ⟨b1, b2, _⟩ := votesOf_spec it u
  obtain ⟨t', h1, _⟩ := updateLoop (now := now) ha (votesOf t u) t it pt b1 b2
  exact ⟨t', h1, fun i hi => updateVotes_agree (h i hi) is it hs h1⟩

end Verif.Gov

namespace Verif.Controller
open Verif

/-- Information about a proposal without the date of its earliest execution. -/
def Info.plain (i : Info) : Info := { i with earliest := none }

/-- Two states of the controller and of governance that differ at most in one proposal: its votes, and its earliest
execution. -/
structure CtlAside (j : Nat) (s : State) (g : Gov.State) (s2 : State) (g2 : Gov.State) : Prop where
  ctl : s2 = { s with infos := s2.infos }
  infos : ∀ i, i ≠ j → s2.infos.get i = s.infos.get i
  info : (s2.infos.get j).map Info.plain = (s.infos.get j).map Info.plain
  gov : Gov.AgreeBut j g g2

theorem CtlAside.actions {j : Nat} {s s2 : State} {g g2 : Gov.State} (h : CtlAside j s g s2 g2) {id : Nat} {i : Info}
    (hi : s.infos.get id = some i) : ∃ i2, s2.infos.get id = some i2 ∧ i2.actions = i.actions := by
  by_cases hj : id = j
  · subst hj
    have := h.info
    rw [hi] at this
    obtain ⟨i2, h1, h2⟩ := Option.map_eq_some_iff.1 this
    exact ⟨i2, h1, (congrArg Info.actions h2 : i2.plain.actions = i.plain.actions)⟩
  · exact ⟨i, (h.infos id hj).trans hi, rfl⟩

theorem act_infos (e : Env) (s : State) (m : Map Nat Info) (a : Action) :
    act e { s with infos := m } a = (act e s a).map (fun r => ({ r.1 with infos := m }, r.2)) := by
  cases a with
  | updateGovConfig c =>
    simp only [act, updateGovConfig]
    cases validateConfig e.daoType (applyChange s.config c) with
    | error x => rfl
    | ok u =>
      cases hc : c.unlocking with
      | none => simp [bind, Except.bind, pure, Except.pure, Except.map]
      | some d =>
        simp only [bind, Except.bind, pure, Except.pure, Except.map]
        cases validateUnlocking (applyChange s.config c) d <;> rfl
  | updateCouncil c =>
    simp only [act, updateCouncil]
    cases validateCouncil c <;> rfl
  | upgradeDao v =>
    simp only [act]
    cases validateUpgrade e v <;> rfl
  | executeMsgs l =>
    simp only [act]
    cases customSubs e l <;> rfl
  | modifyMultisig l =>
    simp only [act]
    cases validateMultisig e l <;> rfl
  | _ => rfl

theorem actAll_infos (e : Env) (m : Map Nat Info) : ∀ (l : List Action) (s : State),
    actAll e { s with infos := m } l = (actAll e s l).map (fun r => ({ r.1 with infos := m }, r.2))
  | [], s => rfl
  | a :: l, s => by
    simp only [actAll]
    rw [act_infos]
    cases h : act e s a with
    | error x => rfl
    | ok r =>
      simp only [Except.map, bind, Except.bind]
      rw [actAll_infos e m l r.1]
      cases actAll e r.1 l <;> rfl

theorem createProposal_aside {j : Nat} {e : Env} {s s2 : State} {g g2 : Gov.State} (h : CtlAside j s g s2 g2) {p : Proposal}
    {d : Option Deposit} {u : Addr} {r : State × Gov.State} (hr : createProposal e s g p d u = .ok r) :
    ∃ r2, createProposal e s2 g2 p d u = .ok r2 ∧ CtlAside j r.1 r.2 r2.1 r2.2 := by
  obtain ⟨h1, h2, h3, h4, h5, h6, h7⟩ := createProposal_ok_iff.1 hr
  obtain ⟨t', h8, h9⟩ := Gov.createPoll_aside h.gov h6
  have hc : s2.config = s.config := by rw [h.ctl]
  refine ⟨(s2.added t'.pollCount ⟨.general, none, none, d, p.actions⟩, t'),
    createProposal_ok_iff.2 ⟨h1, by rw [hc]; exact h2, h3, by rw [hc]; exact h4, h5.trans h.gov.admin, by rw [hc]; exact h8,
      rfl⟩, ?_⟩
  rw [h7, ← h9.count]
  refine ⟨?_, fun i hi => ?_, ?_, h9⟩
  · show State.added s2 _ _ = _
    rw [h.ctl]
    rfl
  · show (s2.infos.set _ _).get i = (s.infos.set _ _).get i
    rw [Map.get_set, Map.get_set, h.infos i hi]
  · show ((s2.infos.set _ _).get j).map _ = ((s.infos.set _ _).get j).map _
    rw [Map.get_set, Map.get_set]
    split
    · rfl
    · exact h.info

theorem createCouncil_aside {j : Nat} {e : Env} {s s2 : State} {g g2 : Gov.State} (h : CtlAside j s g s2 g2) {p : Proposal}
    {u : Addr} {r : State × Gov.State} (hr : createCouncil e u s g p = .ok r) :
    ∃ r2, createCouncil e u s2 g2 p = .ok r2 ∧ CtlAside j r.1 r.2 r2.1 r2.2 := by
  obtain ⟨h1, c, h2, h3, h4, h5, h5', h6, h7, h8⟩ := createCouncil_ok_iff.1 hr
  obtain ⟨t', h9, h10⟩ := Gov.createPoll_aside h.gov h7
  have hc : s2.config = s.config := by rw [h.ctl]
  have hc' : s2.council = s.council := by rw [h.ctl]
  refine ⟨(s2.added t'.pollCount ⟨.council, none, none, none, p.actions⟩, t'),
    createCouncil_ok_iff.2 ⟨h1, c, hc'.trans h2, h3, by rw [hc]; exact h4, h5, h5', h6.trans h.gov.admin, by rw [hc]; exact h9,
      rfl⟩, ?_⟩
  rw [h8, ← h10.count]
  refine ⟨?_, fun i hi => ?_, ?_, h10⟩
  · show State.added s2 _ _ = _
    rw [h.ctl]
    rfl
  · show (s2.infos.set _ _).get i = (s.infos.set _ _).get i
    rw [Map.get_set, Map.get_set, h.infos i hi]
  · show ((s2.infos.set _ _).get j).map _ = ((s.infos.set _ _).get j).map _
    rw [Map.get_set, Map.get_set]
    split
    · rfl
    · exact h.info

theorem voted_aside {j : Nat} {e : Env} {s s2 : State} {g g2 g' g2' : Gov.State} (h : CtlAside j s g s2 g2)
    (hg : Gov.AgreeBut j g' g2') {id : Nat} (hid : id ≠ j) {i : Info} {old new : Executability} {n : Nat} :
    CtlAside j (voted e s id i old new n) g' (voted e s2 id i old new n) g2' := by
  have hc : s2.config = s.config := by rw [h.ctl]
  have hset : ∀ x, CtlAside j { s with voting := none, infos := s.infos.set id x } g'
      { s2 with voting := none, config := s.config, infos := s2.infos.set id x } g2' := by
    intro x
    refine ⟨?_, fun k hk => ?_, ?_, hg⟩
    · rw [h.ctl]
    · show (s2.infos.set _ _).get k = (s.infos.set _ _).get k
      rw [Map.get_set, Map.get_set, h.infos k hk]
    · show ((s2.infos.set _ _).get j).map _ = ((s.infos.set _ _).get j).map _
      rw [Map.get_set, Map.get_set, if_neg hid, if_neg hid]
      exact h.info
  have hno : CtlAside j { s with voting := none } g' { s2 with voting := none, config := s.config } g2' :=
    ⟨by rw [h.ctl], h.infos, h.info, hg⟩
  unfold voted restartCooldown
  rw [hc]
  by_cases h1 : s.config.early = true ∧ e.daoType ≠ .multisig
  · rw [if_pos h1, if_pos h1]
    by_cases h2 : new ≠ old
    · rw [if_pos h2, if_pos h2]
      exact hset _
    · rw [if_neg h2, if_neg h2]
      exact hno
  · rw [if_neg h1, if_neg h1]
    exact hno

theorem castVote_aside {j : Nat} {e : Env} {s s2 : State} {g g2 : Gov.State} (h : CtlAside j s g s2 g2) {id : Nat}
    (hid : id ≠ j) {o : Gov.Outcome} {u : Addr} {r : State × Gov.State} (hr : castVote e u s g id o = .ok r) :
    ∃ r2, castVote e u s2 g2 id o = .ok r2 ∧ CtlAside j r.1 r.2 r2.1 r2.2 := by
  obtain ⟨h1, h2, i, p, q, h3, h4, h5, h6, h7, h8, h9⟩ := castVote_ok_iff.1 hr
  obtain ⟨t', h10, h11⟩ := Gov.castVote_aside hid h.gov h7
  refine ⟨(voted e s2 id i _ _ _, t'), castVote_ok_iff.2 ⟨h1, h2, i, p, q, (h.infos id hid).trans h3, h4,
    ((h.gov id hid).poll).symm.trans h5, h6.trans h.gov.admin, h10, ((h11 id hid).poll).symm.trans h8, rfl⟩, ?_⟩
  rw [h9]
  exact voted_aside h h11 hid

theorem castCouncilVote_aside {j : Nat} {e : Env} {s s2 : State} {g g2 : Gov.State} (h : CtlAside j s g s2 g2) {id : Nat}
    (hid : id ≠ j) {o : Gov.Outcome} {u : Addr} {r : State × Gov.State} (hr : castCouncilVote e u s g id o = .ok r) :
    ∃ r2, castCouncilVote e u s2 g2 id o = .ok r2 ∧ CtlAside j r.1 r.2 r2.1 r2.2 := by
  obtain ⟨h1, ⟨c, h2⟩, h3, i, h4, h5, h6, h7, h8⟩ := castCouncilVote_ok_iff.1 hr
  obtain ⟨t', h9, h10⟩ := Gov.castVote_aside hid h.gov h7
  have hc' : s2.council = s.council := by rw [h.ctl]
  refine ⟨(s2, t'), castCouncilVote_ok_iff.2 ⟨h1, ⟨c, hc'.trans h2⟩, h3, i, (h.infos id hid).trans h4, h5,
    h6.trans h.gov.admin, h9, rfl⟩, ?_⟩
  rw [h8]
  exact ⟨h.ctl, h.infos, h.info, h10⟩

theorem executeProposal_aside {j : Nat} {e : Env} {s s2 : State} {g g2 : Gov.State} (h : CtlAside j s g s2 g2) {id : Nat}
    (hid : id ≠ j) {u : Addr} {r : State × Gov.State × List Sub} (hr : executeProposal e u s g id = .ok r) :
    ∃ r2, executeProposal e u s2 g2 id = .ok r2 ∧ CtlAside j r.1 r.2.1 r2.1 r2.2.1 ∧ r2.2.2 = r.2.2 := by
  obtain ⟨h1, i, p, h2, h3, h4, h5, h6, h7, h8, h9⟩ := executeProposal_ok_iff.1 hr
  have hc : s2.config = s.config := by rw [h.ctl]
  have he : allowsEarly s2 i.type = allowsEarly s i.type := by
    unfold allowsEarly
    rw [hc]
  refine ⟨_, executeProposal_ok_iff.2 ⟨h1, i, p, (h.infos id hid).trans h2, ((h.gov id hid).poll).symm.trans h3, h4, h5, h6,
    h7.trans h.gov.admin, by rw [he]; exact h8, rfl⟩, ?_, ?_⟩
  · rw [h9]
    refine ⟨?_, fun k hk => ?_, ?_, fun k hk => ⟨(h.gov k hk).admin, (h.gov k hk).count, ?_, (h.gov k hk).votes⟩⟩
    · show State.resolved s2 _ _ _ = _
      rw [h.ctl]
      rfl
    · show (s2.infos.set _ _).get k = (s.infos.set _ _).get k
      rw [Map.get_set, Map.get_set, h.infos k hk]
    · show ((s2.infos.set _ _).get j).map _ = ((s.infos.set _ _).get j).map _
      rw [Map.get_set, Map.get_set, if_neg hid, if_neg hid]
      exact h.info
    · show (g.polls.set _ _).get k = (g2.polls.set _ _).get k
      rw [Map.get_set, Map.get_set, (h.gov k hk).poll]
  · rw [h9]

theorem executeActions_aside {j : Nat} {e : Env} {s s2 : State} {g g2 : Gov.State} (h : CtlAside j s g s2 g2) {id : Nat}
    {u : Addr} {r : State × List Sub} (hr : executeActions e u s id = .ok r) :
    ∃ r2, executeActions e u s2 id = .ok r2 ∧ CtlAside j r.1 g r2.1 g2 ∧ r2.2 = r.2 := by
  obtain ⟨h1, i, h2, h3⟩ := executeActions_ok_iff.1 hr
  obtain ⟨i2, h4, h5⟩ := h.actions h2
  have hs := (actAll_ok _ h3).1.same
  have h6 : actAll e s2 i2.actions = .ok ({ r.1 with infos := s2.infos }, r.2) := by
    rw [h5, h.ctl, actAll_infos, h3]
    rfl
  refine ⟨_, executeActions_ok_iff.2 ⟨h1, i2, h4, h6⟩, ?_, rfl⟩
  have hi : r.1.infos = s.infos := by rw [hs]
  refine ⟨rfl, fun k hk => ?_, ?_, h.gov⟩
  · rw [hi]; exact h.infos k hk
  · rw [hi]; exact h.info

theorem updateAll_aside {j : Nat} {e : Env} : ∀ (l : List WeightChange) {g g' g2 : Gov.State}, Gov.AgreeBut j g g2 →
    Gov.Inv g → Gov.Inv g2 → Gov.Past e.block.time g → Gov.Past e.block.time g2 → g.pollCount < M64 →
    (∀ c ∈ l, c.new < M128) → updateAllVotes e g l = .ok g' →
    ∃ g2', updateAllVotes e g2 l = .ok g2' ∧ Gov.AgreeBut j g' g2'
  | [], g, g', g2, h, _, _, _, _, _, _, hr => by
    unfold updateAllVotes at hr ⊢
    rw [foldlM_nil_ok_iff] at hr
    subst hr
    exact ⟨g2, foldlM_nil_ok_iff.2 rfl, h⟩
  | x :: l, g, g', g2, h, i1, i2, p1, p2, hc, hl, hr => by
    unfold updateAllVotes at hr ⊢
    obtain ⟨g1, h1, h2⟩ := foldlM_cons_ok_iff.1 hr
    have hx := hl x List.mem_cons_self
    have hstep : ∀ {s s' : Gov.State}, Gov.exec s ⟨e.block.time, e.self, .updateVotes x.user x.new⟩ = .ok s' →
        Gov.step s ⟨e.block.time, e.self, .updateVotes x.user x.new⟩ = s' := by
      intro s s' hs
      unfold Gov.step
      rw [hs]
    have hex : ∃ g3, Gov.exec g2 ⟨e.block.time, e.self, .updateVotes x.user x.new⟩ = .ok g3 ∧ Gov.AgreeBut j g1 g3 := by
      unfold Gov.exec at h1 ⊢
      rw [ite_ok_iff] at h1
      obtain ⟨ha, h1⟩ := h1
      obtain ⟨g3, h3, h4⟩ := Gov.updateVotes_aside h i1 i2 hx p2 h1
      exact ⟨g3, ite_ok_iff.2 ⟨by rw [← h.admin]; exact ha, h3⟩, h4⟩
    obtain ⟨g3, h3, h4⟩ := hex
    have hc2 : g2.pollCount < M64 := by rw [← h.count]; exact hc
    have n1 := Gov.inv_step (c := ⟨e.block.time, e.self, .updateVotes x.user x.new⟩) i1 hx (by simpa [Gov.isCreate] using hc)
    have n2 := Gov.inv_step (c := ⟨e.block.time, e.self, .updateVotes x.user x.new⟩) i2 hx (by simpa [Gov.isCreate] using hc2)
    have q1 := Gov.past_step (c := ⟨e.block.time, e.self, .updateVotes x.user x.new⟩) i1 hx (by simpa [Gov.isCreate] using hc) p1
    have q2 := Gov.past_step (c := ⟨e.block.time, e.self, .updateVotes x.user x.new⟩) i2 hx (by simpa [Gov.isCreate] using hc2) p2
    rw [hstep h1] at n1 q1
    rw [hstep h3] at n2 q2
    obtain ⟨g4, h5, h6⟩ := updateAll_aside l h4 n1.1 n2.1 q1 q2 (by have := n1.2.1; simp only [Gov.isCreate] at this; omega)
      (fun c hc => hl c (List.mem_cons_of_mem _ hc)) h2
    exact ⟨g4, foldlM_cons_ok_iff.2 ⟨g3, h3, h5⟩, h6⟩

/-- The message is a vote on the proposal, or its execution. -/
def Msg.about (j : Nat) : Msg → Bool
  | .castVote i _ => i == j
  | .castCouncilVote i _ => i == j
  | .execute i => i == j
  | _ => false

theorem exec_aside {j : Nat} {e : Env} {s s2 : State} {g g2 : Gov.State} (h : CtlAside j s g s2 g2) {u : Addr} {m : Msg}
    (hm : m.about j = false) (hw : ∀ l, m = .weightsChanged l → u ≠ e.comps.membership)
    {r : State × Gov.State × List Sub} (hr : exec e u s g m = .ok r) :
    ∃ r2, exec e u s2 g2 m = .ok r2 ∧ CtlAside j r.1 r.2.1 r2.1 r2.2.1 ∧ r2.2.2 = r.2.2 := by
  cases m with
  | createProposal p f =>
    simp only [exec, bind_ok_iff, pure_ok_iff] at hr ⊢
    obtain ⟨x, h1, rfl⟩ := hr
    obtain ⟨h2, h3⟩ := createWithFunds_ok_iff.1 h1
    obtain ⟨y, h4, h5⟩ := createProposal_aside h h3
    exact ⟨_, ⟨y, createWithFunds_ok_iff.2 ⟨h2, h4⟩, rfl⟩, h5, rfl⟩
  | createWithNft p l =>
    simp only [exec] at hr ⊢
    obtain ⟨h1, h2, nft, h3, h4, h5⟩ := createWithNft_ok_iff.1 hr
    obtain ⟨y, h6, h7⟩ := createProposal_aside h h5
    exact ⟨(y.1, y.2, r.2.2), createWithNft_ok_iff.2 ⟨h1, h2, nft, h3, h4, h6⟩, h7, rfl⟩
  | createCouncil p =>
    simp only [exec, bind_ok_iff, pure_ok_iff] at hr ⊢
    obtain ⟨x, h1, rfl⟩ := hr
    obtain ⟨y, h4, h5⟩ := createCouncil_aside h h1
    exact ⟨_, ⟨y, h4, rfl⟩, h5, rfl⟩
  | castVote id o =>
    simp only [exec, bind_ok_iff, pure_ok_iff] at hr ⊢
    obtain ⟨x, h1, rfl⟩ := hr
    obtain ⟨y, h4, h5⟩ := castVote_aside h (by simpa [Msg.about] using hm) h1
    exact ⟨_, ⟨y, h4, rfl⟩, h5, rfl⟩
  | castCouncilVote id o =>
    simp only [exec, bind_ok_iff, pure_ok_iff] at hr ⊢
    obtain ⟨x, h1, rfl⟩ := hr
    obtain ⟨y, h4, h5⟩ := castCouncilVote_aside h (by simpa [Msg.about] using hm) h1
    exact ⟨_, ⟨y, h4, rfl⟩, h5, rfl⟩
  | execute id =>
    simp only [exec] at hr ⊢
    exact executeProposal_aside h (by simpa [Msg.about] using hm) hr
  | receive a n p =>
    simp only [exec, bind_ok_iff, pure_ok_iff] at hr ⊢
    obtain ⟨x, h1, rfl⟩ := hr
    obtain ⟨q, h2, h2', h2'', h3⟩ := receive_ok_iff.1 h1
    obtain ⟨y, h4, h5⟩ := createProposal_aside h h3
    exact ⟨_, ⟨y, receive_ok_iff.2 ⟨q, h2, h2', h2'', h4⟩, rfl⟩, h5, rfl⟩
  | weightsChanged l =>
    simp only [exec, bind_ok_iff, pure_ok_iff] at hr ⊢
    obtain ⟨x, h1, rfl⟩ := hr
    rcases weightsChanged_ok_iff.1 h1 with ⟨h2, rfl⟩ | ⟨_, h2, _⟩
    · exact ⟨_, ⟨(g2, []), weightsChanged_ok_iff.2 (Or.inl ⟨h2, rfl⟩), rfl⟩, h, rfl⟩
    · exact absurd h2 (hw l rfl)
  | executeActions id =>
    simp only [exec, bind_ok_iff, pure_ok_iff] at hr ⊢
    obtain ⟨x, h1, rfl⟩ := hr
    obtain ⟨y, h4, h5, h6⟩ := executeActions_aside h h1
    exact ⟨_, ⟨y, h4, rfl⟩, h5, h6⟩
  | deployInitial =>
    simp only [exec, bind_ok_iff, pure_ok_iff] at hr ⊢
    obtain ⟨x, h1, rfl⟩ := hr
    obtain ⟨h2, h3, rfl⟩ := deployInitial_ok_iff.1 h1
    have hc : s2.created = s.created := by rw [h.ctl]
    have ht : s2.treasuries = s.treasuries := by rw [h.ctl]
    refine ⟨_, ⟨_, deployInitial_ok_iff.2 ⟨hc.trans h2, h3, rfl⟩, rfl⟩, ⟨?_, h.infos, h.info, h.gov⟩, ?_⟩
    · rw [h.ctl]
    · rw [ht]

/-- A vote on the proposal changes nothing else. -/
theorem exec_vote_aside {j : Nat} {e : Env} {s : State} {g : Gov.State} {u : Addr} {m : Msg} (hv : s.voting = none)
    (hm : (∃ o, m = .castVote j o) ∨ ∃ o, m = .castCouncilVote j o) {r : State × Gov.State × List Sub}
    (hr : exec e u s g m = .ok r) : CtlAside j r.1 r.2.1 s g ∧ r.2.2 = [] := by
  rcases hm with ⟨o, rfl⟩ | ⟨o, rfl⟩
  · simp only [exec, bind_ok_iff, pure_ok_iff] at hr
    obtain ⟨x, h1, rfl⟩ := hr
    obtain ⟨_, _, i, p, q, h3, _, _, _, h7, _, h9⟩ := castVote_ok_iff.1 h1
    refine ⟨?_, rfl⟩
    have hg := (Gov.castVote_but h7).symm
    dsimp only
    have hno : CtlAside j { s with voting := none } x.2 s g := ⟨by rw [← hv], fun _ _ => rfl, rfl, hg⟩
    rw [h9]
    unfold voted restartCooldown
    split
    · split
      · refine ⟨by rw [← hv], fun k hk => ?_, ?_, hg⟩
        · show _ = (s.infos.set _ _).get k
          rw [Map.get_set, if_neg (fun hh => hk hh.symm)]
        · show _ = ((s.infos.set _ _).get j).map _
          rw [Map.get_set, if_pos rfl, h3]
          rfl
      · exact hno
    · exact hno
  · simp only [exec, bind_ok_iff, pure_ok_iff] at hr
    obtain ⟨x, h1, rfl⟩ := hr
    obtain ⟨_, _, _, i, _, _, _, h7, h8⟩ := castCouncilVote_ok_iff.1 h1
    exact ⟨by rw [h8]; exact ⟨rfl, fun _ _ => rfl, rfl, (Gov.castVote_but h7).symm⟩, rfl⟩

theorem CtlAside.trans {j : Nat} {s s2 s3 : State} {g g2 g3 : Gov.State} (h : CtlAside j s g s2 g2)
    (h' : CtlAside j s2 g2 s3 g3) : CtlAside j s g s3 g3 := by
  refine ⟨?_, fun i hi => (h'.infos i hi).trans (h.infos i hi), h'.info.trans h.info, h.gov.trans h'.gov⟩
  rw [h'.ctl, h.ctl]

end Verif.Controller
