import Verif.Dao.Member
import Verif.Controller.Lemmas2
import Verif.Gov.Lemmas2

/-!
# Controller and governance together: invariant
-/

set_option linter.unusedSimpArgs false

namespace Verif.Dao
open Verif
open Verif.Controller (DaoType ValidConfig ValidCouncil Info)

/-! ### Governance -/

/-- Governance states that come from successful messages. -/
def GovHist (me : Addr) (g : Gov.State) : Prop :=
  ∃ h, (∀ c ∈ h, c.msg.typed) ∧ Gov.creates h = g.pollCount ∧ g.pollCount < M64 ∧ g = Gov.run (Gov.init me) h

theorem GovHist.reachable {me : Addr} {g : Gov.State} (h : GovHist me g) : Gov.Reachable g := by
  obtain ⟨h, h1, h2, h3, h4⟩ := h
  exact ⟨me, h, h1, by omega, h4⟩

theorem GovHist.init (me : Addr) : GovHist me (Gov.init me) :=
  ⟨[], fun c hc => (by cases hc), rfl, (by show 0 < M64; decide), rfl⟩

theorem gov_exec_count {g g' : Gov.State} (hi : Gov.Inv g) {c : Gov.Call} (ht : c.msg.typed)
    (hc : g.pollCount + Gov.isCreate c < M64) (h : Gov.exec g c = .ok g') :
    g'.pollCount = g.pollCount + Gov.isCreate c ∧ g'.admin = g.admin := by
  unfold Gov.exec at h
  rw [ite_ok_iff] at h
  obtain ⟨_, h⟩ := h
  cases hm : c.msg with
  | createPoll p =>
    rw [hm] at h
    have h1 : Gov.isCreate c = 1 := by unfold Gov.isCreate; rw [hm]
    rw [h1] at hc ⊢
    simp only at h
    obtain ⟨_, _, rfl⟩ := Gov.createPoll_ok_iff.1 h
    simp only [wadd64_of_lt hc, and_self]
  | castVote i o v a =>
    rw [hm] at h
    have h0 : Gov.isCreate c = 0 := by unfold Gov.isCreate; rw [hm]
    have := Gov.castVote_pollCount h
    exact ⟨by rw [this.1]; omega, this.2⟩
  | updateVotes v a =>
    rw [hm] at h ht
    have h0 : Gov.isCreate c = 0 := by unfold Gov.isCreate; rw [hm]
    have := Gov.inv_updateVotes hi ht h
    exact ⟨by rw [this.2.1]; omega, this.2.2⟩
  | endPoll i m e a =>
    rw [hm] at h
    have h0 : Gov.isCreate c = 0 := by unfold Gov.isCreate; rw [hm]
    obtain ⟨_, _, _, _, rfl⟩ := Gov.endPoll_ok_iff.1 h
    exact ⟨by rw [h0]; rfl, rfl⟩

theorem creates_append (a b : List Gov.Call) : Gov.creates (a ++ b) = Gov.creates a + Gov.creates b := by
  induction a with
  | nil => simp [Gov.creates]
  | cons c t ih =>
    rw [List.cons_append, Gov.creates_cons, Gov.creates_cons, ih]
    omega

theorem GovHist.admin {me : Addr} {g : Gov.State} (h : GovHist me g) : g.admin = me := by
  obtain ⟨h, h1, h2, h3, h4⟩ := h
  have key : ∀ (h : List Gov.Call) (s : Gov.State), Gov.Inv s → (∀ c ∈ h, c.msg.typed) →
      s.pollCount + Gov.creates h < M64 → (Gov.run s h).admin = s.admin := by
    intro h
    induction h with
    | nil => intro s _ _ _; rfl
    | cons c t ih =>
      intro s hi ht hc
      rw [Gov.creates_cons] at hc
      have hs := Gov.inv_step hi (ht c (by simp)) (by omega)
      exact (ih _ hs.1 (fun x hx => ht x (List.mem_cons_of_mem _ hx)) (by have := hs.2.1; omega)).trans hs.2.2
  rw [h4]
  exact key h _ (Gov.inv_init me) h1 (by show 0 + _ < _; omega)

theorem GovHist.step {me : Addr} {g g' : Gov.State} (h : GovHist me g) {c : Gov.Call} (ht : c.msg.typed)
    (hc : g.pollCount + Gov.isCreate c < M64) (hx : Gov.exec g c = .ok g') : GovHist me g' := by
  have hcnt := (gov_exec_count h.reachable.inv ht hc hx).1
  obtain ⟨h, h1, h2, h3, h4⟩ := h
  refine ⟨h ++ [c], ?_, ?_, by omega, ?_⟩
  · intro x hx
    rcases List.mem_append.1 hx with hx | hx
    · exact h1 x hx
    · rw [List.mem_singleton.1 hx]; exact ht
  · rw [creates_append, h2, hcnt]
    rfl
  · unfold Gov.run at *
    rw [List.foldl_append, ← h4]
    simp only [List.foldl_cons, List.foldl_nil]
    unfold Gov.step
    rw [hx]

/-- The terms and the status of a poll. -/
def outline (g : Gov.State) (id : Nat) : Option (Gov.Terms × Gov.Status) :=
  (g.polls.get id).map (fun p => (p.terms, p.status))

theorem outline_get {g g' : Gov.State} (h : ∀ i, outline g' i = outline g i) {id : Nat} {p' : Gov.Poll}
    (hp : g'.polls.get id = some p') : ∃ p, g.polls.get id = some p ∧ p'.terms = p.terms ∧ p'.status = p.status := by
  have := h id
  unfold outline at this
  rw [hp] at this
  cases hg : g.polls.get id with
  | none => rw [hg] at this; cases this
  | some p =>
    rw [hg] at this
    simp only [Option.map_some, Option.some.injEq, Prod.mk.injEq] at this
    exact ⟨p, rfl, this.1, this.2⟩

theorem outline_has {g g' : Gov.State} (h : ∀ i, outline g' i = outline g i) (id : Nat) :
    g'.polls.has id = g.polls.has id := by
  have := h id
  unfold outline at this
  unfold Map.has
  cases h1 : g'.polls.get id <;> cases h2 : g.polls.get id <;> rw [h1, h2] at this <;> first | rfl | cases this

theorem outline_castVote {g g' : Gov.State} {now i : Nat} {o : Gov.Outcome} {v : Addr} {a : Nat}
    (h : Gov.castVote g now i o v a = .ok g') (j : Nat) : outline g' j = outline g j := by
  obtain ⟨_, _, p, hp, _, _, _, rfl⟩ := Gov.castVote_ok_iff.1 h
  unfold outline
  simp only [Map.get_set]
  by_cases hj : i = j
  · subst hj
    simp only [if_true, Option.map_some, hp, Gov.terms_recount, Gov.status_recount]
  · simp only [hj, if_false]

theorem outline_updateVotes {g g' : Gov.State} {now : Nat} {v : Addr} {a : Nat}
    (h : Gov.updateVotes g now v a = .ok g') (j : Nat) : outline g' j = outline g j := by
  unfold Gov.updateVotes at h
  refine Gov.foldlM_inv _ (fun x => outline x j = outline g j) ?_ _ _ _ rfl h
  intro x u x' hx hu
  rcases Gov.updateVote_cases hu with rfl | hc
  · exact hx
  · rw [outline_castVote hc, hx]

/-! ### Controller and governance -/

/-- Invariant of the controller with its governance contract. -/
structure CtlInv (me : Addr) (t : DaoType) (now : Nat) (s : Controller.State) (g : Gov.State) : Prop where
  gov : GovHist me g
  idle : s.creating = none ∧ s.executing = none ∧ s.voting = none
  config : ValidConfig t s.config
  council : ∀ c, s.council = some c → ValidCouncil c
  infos : ∀ id, s.infos.has id = g.polls.has id
  ended : ∀ id i p, s.infos.get id = some i → g.polls.get id = some p → (i.executedAt = none ↔ p.live)
  ten : ∀ id i, s.infos.get id = some i → i.actions.length ≤ 10
  free : ∀ id i, s.infos.get id = some i → i.type = .council →
    i.deposit = none ∧ ∀ a ∈ i.actions, a.type ∈ Controller.harmless
  started : ∀ id p, g.polls.get id = some p → p.startedAt ≤ now
  early : ∀ id i p x, s.infos.get id = some i → g.polls.get id = some p → i.earliest = some x → x ≤ p.endsAt
  fair : ∀ id p, g.polls.get id = some p → Controller.Fraction p.quorum ∧ Controller.Fraction p.threshold ∧
    ∀ v, p.vetoThreshold = some v → Controller.Fraction v

theorem CtlInv.inv {me : Addr} {t : DaoType} {now : Nat} {s : Controller.State} {g : Gov.State}
    (h : CtlInv me t now s g) : Gov.Inv g := h.gov.reachable.inv

theorem live_congr {p q : Gov.Poll} (h : p.status = q.status) : p.live ↔ q.live := by
  unfold Gov.Poll.live; rw [h]

/-- Messages that touch votes only. -/
theorem CtlInv.votes {me : Addr} {t : DaoType} {now : Nat} {s : Controller.State} {g g' : Gov.State}
    (h : CtlInv me t now s g) (hg : GovHist me g') (ho : ∀ i, outline g' i = outline g i) :
    CtlInv me t now s g' := by
  refine { h with gov := hg, infos := ?_, ended := ?_, started := ?_, early := ?_, fair := ?_ }
  · intro id
    rw [outline_has ho]; exact h.infos id
  · intro id i p' hi hp'
    obtain ⟨p, hp, _, hs⟩ := outline_get ho hp'
    rw [live_congr hs]
    exact h.ended id i p hi hp
  · intro id p' hp'
    obtain ⟨p, hp, ht, _⟩ := outline_get ho hp'
    rw [Gov.terms_startedAt ht]
    exact h.started id p hp
  · intro id i p' x hi hp' hx
    obtain ⟨p, hp, ht, _⟩ := outline_get ho hp'
    have : p'.endsAt = p.endsAt := congrArg Gov.Terms.endsAt ht
    rw [this]
    exact h.early id i p x hi hp hx
  · intro id p' hp'
    obtain ⟨p, hp, ht, _⟩ := outline_get ho hp'
    have h1 : p'.quorum = p.quorum := congrArg Gov.Terms.quorum ht
    have h2 : p'.threshold = p.threshold := congrArg Gov.Terms.threshold ht
    have h3 : p'.vetoThreshold = p.vetoThreshold := congrArg Gov.Terms.vetoThreshold ht
    rw [h1, h2, h3]
    exact h.fair id p hp

/-- The cooldown of a proposal moves. -/
theorem CtlInv.cooldown {me : Addr} {t : DaoType} {now : Nat} {s : Controller.State} {g : Gov.State}
    (h : CtlInv me t now s g) {id : Nat} {i : Info} (hi : s.infos.get id = some i) (x : Option Nat)
    (hx : ∀ p y, g.polls.get id = some p → x = some y → y ≤ p.endsAt) : CtlInv me t now { s with infos := s.infos.set id { i with earliest := x } } g := by
  have key : ∀ {P : Info → Prop} {j : Nat} {i' : Info}, (s.infos.set id { i with earliest := x }).get j = some i' →
      (∀ y, P y → P { y with earliest := x }) → (∀ y, s.infos.get j = some y → P y) → P i' := by
    intro P j i' hj h1 h2
    rw [Map.get_set] at hj
    by_cases hx : id = j
    · subst hx
      rw [if_pos rfl] at hj
      cases hj
      exact h1 i (h2 i hi)
    · rw [if_neg hx] at hj
      exact h2 i' hj
  refine { h with infos := ?_, ended := ?_, ten := ?_, free := ?_, early := ?_ }
  · intro j
    rw [← h.infos j, Map.has_set]
    by_cases hj : id = j
    · subst hj
      simp [Map.has_iff.2 ⟨i, hi⟩]
    · simp [hj]
  · intro j i' p hj hp
    exact key (P := fun y => y.executedAt = none ↔ p.live) hj (fun y hy => hy) (fun y hy => h.ended j y p hy hp)
  · intro j i' hj
    exact key (P := fun y => y.actions.length ≤ 10) hj (fun y hy => hy) (h.ten j)
  · intro j i' hj
    exact key (P := fun y => y.type = .council → y.deposit = none ∧ ∀ a ∈ y.actions, a.type ∈ Controller.harmless) hj
      (fun y hy => hy) (h.free j)
  · intro j i' p y hj hp hy
    simp only [Map.get_set] at hj
    by_cases hjj : id = j
    · subst hjj
      rw [if_pos rfl] at hj
      cases hj
      exact hx p y hp hy
    · rw [if_neg hjj] at hj
      exact h.early j i' p y hj hp hy

/-- A proposal is resolved. -/
theorem CtlInv.resolved {me : Addr} {t : DaoType} {now : Nat} {s : Controller.State} {g : Gov.State}
    (h : CtlInv me t now s g) {id m : Nat} {i : Info} {p : Gov.Poll} (hi : s.infos.get id = some i)
    (hp : g.polls.get id = some p) (b : Block) (hg : GovHist me (Controller.endedPoll g id p m)) :
    CtlInv me t now (s.resolved id i b) (Controller.endedPoll g id p m) := by
  have hdead : ∀ (q : Gov.Poll), q.status = p.finalStatus m → ¬ q.live := by
    rintro q hq ⟨e, he⟩
    exact Gov.finalStatus_not_inProgress p m e (hq.symm.trans he)
  refine { h with gov := hg, idle := ⟨h.idle.1, rfl, h.idle.2.2⟩, infos := ?_, ended := ?_, ten := ?_, free := ?_,
                  started := ?_, early := ?_, fair := ?_ }
  · intro j
    unfold Controller.State.resolved Controller.endedPoll
    simp only [Map.has_set]
    rw [h.infos j]
  · intro j i' q hj hq
    unfold Controller.State.resolved at hj
    unfold Controller.endedPoll at hq
    simp only [Map.get_set] at hj hq
    by_cases hx : id = j
    · rw [if_pos hx] at hj hq
      cases hj; cases hq
      constructor
      · intro hh; cases hh
      · intro hl; exact absurd hl (hdead _ rfl)
    · rw [if_neg hx] at hj hq
      exact h.ended j i' q hj hq
  · intro j i' hj
    unfold Controller.State.resolved at hj
    simp only [Map.get_set] at hj
    by_cases hx : id = j
    · rw [if_pos hx] at hj
      cases hj
      exact h.ten id i hi
    · rw [if_neg hx] at hj
      exact h.ten j i' hj
  · intro j i' hj
    unfold Controller.State.resolved at hj
    simp only [Map.get_set] at hj
    by_cases hx : id = j
    · rw [if_pos hx] at hj
      cases hj
      exact h.free id i hi
    · rw [if_neg hx] at hj
      exact h.free j i' hj
  · intro j q hq
    unfold Controller.endedPoll at hq
    simp only [Map.get_set] at hq
    by_cases hx : id = j
    · rw [if_pos hx] at hq
      cases hq
      exact h.started id p hp
    · rw [if_neg hx] at hq
      exact h.started j q hq
  · intro j i' q y hj hq hy
    unfold Controller.State.resolved at hj
    unfold Controller.endedPoll at hq
    simp only [Map.get_set] at hj hq
    by_cases hx : id = j
    · rw [if_pos hx] at hj hq
      cases hj; cases hq
      exact h.early id i p y hi hp hy
    · rw [if_neg hx] at hj hq
      exact h.early j i' q y hj hq hy
  · intro j q hq
    unfold Controller.endedPoll at hq
    simp only [Map.get_set] at hq
    by_cases hx : id = j
    · rw [if_pos hx] at hq
      cases hq
      exact h.fair id p hp
    · rw [if_neg hx] at hq
      exact h.fair j q hq

/-- A proposal is created. -/
theorem CtlInv.created {e : Controller.Env} {s s' : Controller.State} {g g' : Gov.State} {i : Info}
    {cp : Gov.CreateParams} (h : CtlInv e.self e.daoType e.block.time s g)
    (hc : Controller.Created e s g s' g' i cp) (room : g.pollCount + 1 < M64) :
    CtlInv e.self e.daoType e.block.time s' g' ∧ g'.pollCount = g.pollCount + 1 ∧
      g.polls.get (g.pollCount + 1) = none ∧ s.infos.get (g.pollCount + 1) = none := by
  have hq : cp.quorum < M128 ∧ cp.threshold < M128 ∧ ∀ t, cp.vetoThreshold = some t → t < M128 := by
    have hm : 10 ^ 18 < M128 := by unfold M128; decide
    refine ⟨?_, ?_, ?_⟩
    · rcases hc.quorum with hh | ⟨c, hh, hh'⟩
      · rw [hh]; have := h.config.quorum.2; omega
      · rw [hh']; have := (h.council c hh).quorum.2; omega
    · rcases hc.threshold with hh | ⟨c, hh, hh'⟩
      · rw [hh]; have := h.config.threshold.2; omega
      · rw [hh']; have := (h.council c hh).threshold.2; omega
    · intro t ht
      rw [hc.veto] at ht
      have := (h.config.veto t ht).2
      omega
  have hx : Gov.exec g ⟨e.block.time, e.self, .createPoll cp⟩ = .ok g' := by
    unfold Gov.exec
    rw [ite_ok_iff]
    exact ⟨fun hn => hn hc.admin, hc.poll⟩
  have hg : GovHist e.self g' := h.gov.step (c := ⟨e.block.time, e.self, .createPoll cp⟩) hq room hx
  obtain ⟨_, _, rfl⟩ := Gov.createPoll_ok_iff.1 hc.poll
  have hnew : g.polls.get (g.pollCount + 1) = none := by
    cases hn : g.polls.get (g.pollCount + 1) with
    | none => rfl
    | some q =>
      have := (h.inv.ids (g.pollCount + 1)).1 ⟨q, hn⟩
      omega
  have hnewi : s.infos.get (g.pollCount + 1) = none := by
    have := h.infos (g.pollCount + 1)
    unfold Map.has at this
    rw [hnew] at this
    cases hn : s.infos.get (g.pollCount + 1) with
    | none => rfl
    | some q => rw [hn] at this; cases this
  refine ⟨?_, wadd64_of_lt room, hnew, hnewi⟩
  rw [hc.state]
  refine { h with gov := hg, idle := ⟨rfl, h.idle.2⟩, infos := ?_, ended := ?_, ten := ?_, free := ?_, started := ?_,
                  early := ?_, fair := ?_ }
  · intro j
    unfold Controller.State.added
    simp only [Map.has_set]
    rw [h.infos j]
  · intro j i' q hj hq
    unfold Controller.State.added at hj
    simp only [Map.get_set] at hj hq
    by_cases hx : wadd64 g.pollCount 1 = j
    · rw [if_pos hx] at hj hq
      cases hj; cases hq
      exact ⟨fun _ => ⟨_, rfl⟩, fun _ => hc.fresh⟩
    · rw [if_neg hx] at hj hq
      exact h.ended j i' q hj hq
  · intro j i' hj
    unfold Controller.State.added at hj
    simp only [Map.get_set] at hj
    by_cases hx : wadd64 g.pollCount 1 = j
    · rw [if_pos hx] at hj
      cases hj
      exact hc.ten
    · rw [if_neg hx] at hj
      exact h.ten j i' hj
  · intro j i' hj hcouncil
    unfold Controller.State.added at hj
    simp only [Map.get_set] at hj
    by_cases hx : wadd64 g.pollCount 1 = j
    · rw [if_pos hx] at hj
      cases hj
      obtain ⟨h1, c, h2, h3⟩ := hc.council hcouncil
      exact ⟨h1, fun a ha => (h.council c h2).allowed _ (h3 a ha)⟩
    · rw [if_neg hx] at hj
      exact h.free j i' hj hcouncil
  · intro j q hq
    simp only [Map.get_set] at hq
    by_cases hx : wadd64 g.pollCount 1 = j
    · rw [if_pos hx] at hq
      cases hq
      exact le_refl _
    · rw [if_neg hx] at hq
      exact h.started j q hq
  · intro j i' q y hj hq hy
    unfold Controller.State.added at hj
    simp only [Map.get_set] at hj hq
    by_cases hx : wadd64 g.pollCount 1 = j
    · rw [if_pos hx] at hj hq
      cases hj; cases hq
      rw [hc.early] at hy; cases hy
    · rw [if_neg hx] at hj hq
      exact h.early j i' q y hj hq hy
  · intro j q hq
    simp only [Map.get_set] at hq
    by_cases hx : wadd64 g.pollCount 1 = j
    · rw [if_pos hx] at hq
      cases hq
      refine ⟨?_, ?_, fun v hv => h.config.veto v (hc.veto ▸ hv)⟩
      · rcases hc.quorum with hh | ⟨c, hh, hh'⟩
        · exact hh ▸ h.config.quorum
        · exact hh' ▸ (h.council c hh).quorum
      · rcases hc.threshold with hh | ⟨c, hh, hh'⟩
        · exact hh ▸ h.config.threshold
        · exact hh' ▸ (h.council c hh).threshold
    · rw [if_neg hx] at hq
      exact h.fair j q hq

/-- The answers of the membership contracts fit 128 bits. -/
structure EnvOk (e : Controller.Env) : Prop where
  weight : ∀ u, e.weight u < M128
  total : ∀ t, e.total (.time t) < M128 ∧ e.total .never < M128
  councilWeight : ∀ u, e.councilWeight u < M128
  councilTotal : ∀ t, e.councilTotal (.time t) < M128 ∧ e.councilTotal .never < M128

/-- The reports of `weights_changed` are forwarded to governance. -/
theorem updateAll_inv {e : Controller.Env} {s : Controller.State} : ∀ (l : List WeightChange) {g g' : Gov.State},
    (∀ c ∈ l, c.new < M128) → CtlInv e.self e.daoType e.block.time s g → Controller.updateAllVotes e g l = .ok g' →
    CtlInv e.self e.daoType e.block.time s g' ∧ (∀ i, outline g' i = outline g i) ∧ g'.pollCount = g.pollCount := by
  intro l
  induction l with
  | nil => intro g g' _ h hx; cases hx; exact ⟨h, fun _ => rfl, rfl⟩
  | cons c t ih =>
    intro g g' hl h hx
    unfold Controller.updateAllVotes at hx
    rw [foldlM_cons_ok_iff] at hx
    obtain ⟨g1, h1, h2⟩ := hx
    have hroom : g.pollCount < M64 := by obtain ⟨_, _, _, h3, _⟩ := h.gov; exact h3
    have hg := h.gov.step (c := ⟨e.block.time, e.self, .updateVotes c.user c.new⟩) (hl c List.mem_cons_self)
      (by show g.pollCount + 0 < _; omega) h1
    have hcnt := gov_exec_count h.inv (c := ⟨e.block.time, e.self, .updateVotes c.user c.new⟩)
      (hl c List.mem_cons_self) (by show g.pollCount + 0 < _; omega) h1
    unfold Gov.exec at h1
    rw [ite_ok_iff] at h1
    have ho := outline_updateVotes h1.2
    obtain ⟨h4, h5, h6⟩ := ih (fun x hx => hl x (List.mem_cons_of_mem _ hx)) (h.votes hg ho) h2
    exact ⟨h4, fun i => by rw [h5, ho], by rw [h6, hcnt.1]; rfl⟩

/-- What a message to the controller does to the stored proposals. -/
structure CtlStep (s s' : Controller.State) (g g' : Gov.State) : Prop where
  infos : ∀ id i, s.infos.get id = some i → ∃ i', s'.infos.get id = some i' ∧ i'.type = i.type ∧
    i'.deposit = i.deposit ∧ i'.actions = i.actions ∧ (i.executedAt ≠ none → i' = i)
  polls : ∀ id p, g.polls.get id = some p → ∃ p', g'.polls.get id = some p' ∧ p'.terms = p.terms ∧
    (¬ p.live → p' = p)

theorem infos_same {s s' : Controller.State} (h : s'.infos = s.infos) :
    ∀ id i, s.infos.get id = some i → ∃ i', s'.infos.get id = some i' ∧ i'.type = i.type ∧
      i'.deposit = i.deposit ∧ i'.actions = i.actions ∧ (i.executedAt ≠ none → i' = i) := by
  intro id i hi
  exact ⟨i, by rw [h]; exact hi, rfl, rfl, rfl, fun _ => rfl⟩

theorem polls_same (g : Gov.State) : ∀ id p, g.polls.get id = some p → ∃ p', g.polls.get id = some p' ∧
    p'.terms = p.terms ∧ (¬ p.live → p' = p) :=
  fun _ p hp => ⟨p, hp, rfl, fun _ => rfl⟩

theorem polls_castVote {g g' : Gov.State} {now j : Nat} {o : Gov.Outcome} {v : Addr} {a : Nat}
    (h : Gov.castVote g now j o v a = .ok g') : ∀ id p, g.polls.get id = some p → ∃ p', g'.polls.get id = some p' ∧
    p'.terms = p.terms ∧ (¬ p.live → p' = p) := by
  intro id p hp
  obtain ⟨_, _, q, hq, hl, _, _, rfl⟩ := Gov.castVote_ok_iff.1 h
  simp only [Map.get_set]
  by_cases hx : j = id
  · subst hx
    rw [hp] at hq; cases hq
    refine ⟨_, if_pos rfl, Gov.terms_recount _ _ _ _, fun hn => absurd hl hn⟩
  · refine ⟨p, by rw [if_neg hx]; exact hp, rfl, fun _ => rfl⟩

theorem polls_trans {g g1 g2 : Gov.State}
    (h1 : ∀ id p, g.polls.get id = some p → ∃ p', g1.polls.get id = some p' ∧ p'.terms = p.terms ∧ (¬ p.live → p' = p))
    (h2 : ∀ id p, g1.polls.get id = some p → ∃ p', g2.polls.get id = some p' ∧ p'.terms = p.terms ∧
      (¬ p.live → p' = p)) :
    ∀ id p, g.polls.get id = some p → ∃ p', g2.polls.get id = some p' ∧ p'.terms = p.terms ∧ (¬ p.live → p' = p) := by
  intro id p hp
  obtain ⟨p1, a1, a2, a3⟩ := h1 id p hp
  obtain ⟨p2, b1, b2, b3⟩ := h2 id p1 a1
  refine ⟨p2, b1, b2.trans a2, fun hn => ?_⟩
  have := a3 hn
  subst this
  exact b3 hn

theorem polls_updateVotes {g g' : Gov.State} {now : Nat} {v : Addr} {a : Nat}
    (h : Gov.updateVotes g now v a = .ok g') : ∀ id p, g.polls.get id = some p → ∃ p', g'.polls.get id = some p' ∧
    p'.terms = p.terms ∧ (¬ p.live → p' = p) := by
  unfold Gov.updateVotes at h
  refine Gov.foldlM_inv _ (fun x => ∀ id p, g.polls.get id = some p → ∃ p', x.polls.get id = some p' ∧
    p'.terms = p.terms ∧ (¬ p.live → p' = p)) ?_ _ _ _ (polls_same g) h
  intro x u x' hx hu
  rcases Gov.updateVote_cases hu with rfl | hc
  · exact hx
  · exact polls_trans hx (polls_castVote hc)

theorem polls_updateAll {e : Controller.Env} : ∀ (l : List WeightChange) {g g' : Gov.State},
    Controller.updateAllVotes e g l = .ok g' → ∀ id p, g.polls.get id = some p → ∃ p', g'.polls.get id = some p' ∧
    p'.terms = p.terms ∧ (¬ p.live → p' = p) := by
  intro l
  induction l with
  | nil => intro g g' hx; cases hx; exact polls_same g
  | cons c t ih =>
    intro g g' hx
    unfold Controller.updateAllVotes at hx
    rw [foldlM_cons_ok_iff] at hx
    obtain ⟨g1, h1, h2⟩ := hx
    unfold Gov.exec at h1
    rw [ite_ok_iff] at h1
    exact polls_trans (polls_updateVotes h1.2) (ih h2)

theorem CtlStep.refl (s : Controller.State) (g : Gov.State) : CtlStep s s g g :=
  ⟨infos_same rfl, polls_same g⟩

theorem CtlStep.trans {s s1 s2 : Controller.State} {g g1 g2 : Gov.State} (h1 : CtlStep s s1 g g1)
    (h2 : CtlStep s1 s2 g1 g2) : CtlStep s s2 g g2 := by
  refine ⟨fun id i hi => ?_, polls_trans h1.polls h2.polls⟩
  obtain ⟨i1, a1, a2, a3, a4, a5⟩ := h1.infos id i hi
  obtain ⟨i2, b1, b2, b3, b4, b5⟩ := h2.infos id i1 a1
  refine ⟨i2, b1, b2.trans a2, b3.trans a3, b4.trans a4, fun hn => ?_⟩
  have := a5 hn
  subst this
  exact b5 hn

/-- Any message to the controller keeps the invariant, and what is decided stays decided. -/
theorem ctl_exec {e : Controller.Env} {u : Addr} {s : Controller.State} {g : Gov.State} {m : Controller.Msg}
    {r : Controller.State × Gov.State × List Controller.Sub} (h : CtlInv e.self e.daoType e.block.time s g)
    (he : EnvOk e) (room : g.pollCount + 1 < M64) (hl : ∀ l, m = .weightsChanged l → ∀ c ∈ l, c.new < M128)
    (hr : Controller.exec e u s g m = .ok r) :
    CtlInv e.self e.daoType e.block.time r.1 r.2.1 ∧ CtlStep s r.1 g r.2.1 := by
  have hcreate : m.isCreate = true → CtlInv e.self e.daoType e.block.time r.1 r.2.1 ∧ CtlStep s r.1 g r.2.1 := by
    intro hm
    obtain ⟨i, cp, hc, _⟩ := Controller.created_exec hm hr
    obtain ⟨h1, h2, h3, h4⟩ := h.created hc room
    refine ⟨h1, fun id x hx => ?_, fun id p hp => ?_⟩
    · refine ⟨x, ?_, rfl, rfl, rfl, fun _ => rfl⟩
      rw [hc.state, h2]
      unfold Controller.State.added
      simp only [Map.get_set]
      have : ¬ g.pollCount + 1 = id := by
        rintro rfl
        rw [h4] at hx; cases hx
      rw [if_neg this]; exact hx
    · refine ⟨p, ?_, rfl, fun _ => rfl⟩
      obtain ⟨_, _, hg⟩ := Gov.createPoll_ok_iff.1 hc.poll
      rw [hg]
      simp only [Map.get_set]
      have : ¬ wadd64 g.pollCount 1 = id := by
        rw [wadd64_of_lt room]
        rintro rfl
        rw [h3] at hp; cases hp
      rw [if_neg this]; exact hp
  have hcast : ∀ {now i : Nat} {o : Gov.Outcome} {v : Addr} {a : Nat} {g' : Gov.State}, e.self = g.admin → a < M128 →
      Gov.castVote g now i o v a = .ok g' → CtlInv e.self e.daoType e.block.time s g' := by
    intro now i o v a g' hadm ha hx
    refine h.votes ?_ (outline_castVote hx)
    refine h.gov.step (c := ⟨now, e.self, .castVote i o v a⟩) ha (by show g.pollCount + 0 < _; omega) ?_
    unfold Gov.exec
    rw [ite_ok_iff]
    exact ⟨fun hn => hn hadm, hx⟩
  cases m with
  | createProposal p f => exact hcreate rfl
  | createWithNft p l => exact hcreate rfl
  | createCouncil p => exact hcreate rfl
  | receive f a p => exact hcreate rfl
  | castVote id o =>
    simp only [Controller.exec, bind_ok_iff, pure_ok_iff] at hr
    obtain ⟨r1, h1, rfl⟩ := hr
    obtain ⟨_, _, i, p, q, hi, _, hp, hadm, hg, hq, hs⟩ := Controller.castVote_ok_iff.1 h1
    have hv := hcast hadm (he.weight u) hg
    have hidle : ∀ {x}, CtlInv e.self e.daoType e.block.time s x →
        CtlInv e.self e.daoType e.block.time { s with voting := none } x :=
      fun hx => { hx with idle := ⟨hx.idle.1, hx.idle.2.1, rfl⟩ }
    show CtlInv _ _ _ r1.1 r1.2 ∧ CtlStep s r1.1 g r1.2
    rw [hs]
    unfold Controller.voted
    have hsame : CtlStep s { s with voting := none } g r1.2 := ⟨infos_same rfl, polls_castVote hg⟩
    split
    · unfold Controller.restartCooldown
      split
      · refine ⟨(hidle hv).cooldown hi _ ?_, ⟨fun j x hx => ?_, polls_castVote hg⟩⟩
        · intro q' y hq' hy
          rw [hq] at hq'; cases hq'; cases hy
          exact min_le_right _ _
        simp only [Map.get_set]
        by_cases hj : id = j
        · subst hj
          rw [hi] at hx; cases hx
          refine ⟨_, if_pos rfl, rfl, rfl, rfl, fun hn => ?_⟩
          have hlive : p.live := by
            obtain ⟨_, _, p', hp', hl', _⟩ := Gov.castVote_ok_iff.1 hg
            rw [hp] at hp'; cases hp'; exact hl'
          exact absurd ((h.ended id i p hi hp).2 hlive) hn
        · exact ⟨x, by rw [if_neg hj]; exact hx, rfl, rfl, rfl, fun _ => rfl⟩
      · exact ⟨hidle hv, hsame⟩
    · exact ⟨hidle hv, hsame⟩
  | castCouncilVote id o =>
    simp only [Controller.exec, bind_ok_iff, pure_ok_iff] at hr
    obtain ⟨r1, h1, rfl⟩ := hr
    obtain ⟨_, _, _, i, hi, _, hadm, hg, hs⟩ := Controller.castCouncilVote_ok_iff.1 h1
    show CtlInv _ _ _ r1.1 r1.2 ∧ CtlStep s r1.1 g r1.2
    rw [hs]
    exact ⟨hcast hadm (he.councilWeight u) hg, infos_same rfl, polls_castVote hg⟩
  | execute id =>
    simp only [Controller.exec] at hr
    obtain ⟨_, i, p, hi, hp, hne, _, h0, hadm, hend, rfl⟩ := Controller.executeProposal_ok_iff.1 hr
    have hm : Controller.endTotal e p i.type < M128 := by
      unfold Controller.endTotal Controller.totalVotes
      cases i.type <;> simp only <;> split <;>
        first | exact (he.total _).1 | exact (he.total 0).2 | exact (he.councilTotal _).1 | exact (he.councilTotal 0).2
    have hg : GovHist e.self (Controller.endedPoll g id p (Controller.endTotal e p i.type)) := by
      refine h.gov.step (c := ⟨e.block.time, e.self, .endPoll id (Controller.endTotal e p i.type) false
        (Controller.allowsEarly s i.type)⟩) hm (by show g.pollCount + 0 < _; omega) ?_
      unfold Gov.exec
      rw [ite_ok_iff]
      exact ⟨fun hn => hn hadm, Gov.endPoll_ok_iff.2 ⟨p, hp, hend, fun hh => (by cases hh), rfl⟩⟩
    refine ⟨h.resolved hi hp _ hg, fun j x hx => ?_, fun j q hq => ?_⟩
    · unfold Controller.State.resolved
      simp only [Map.get_set]
      by_cases hj : id = j
      · subst hj
        rw [hi] at hx; cases hx
        exact ⟨_, if_pos rfl, rfl, rfl, rfl, fun hn => absurd hne hn⟩
      · exact ⟨x, by rw [if_neg hj]; exact hx, rfl, rfl, rfl, fun _ => rfl⟩
    · unfold Controller.endedPoll
      simp only [Map.get_set]
      by_cases hj : id = j
      · subst hj
        rw [hp] at hq; cases hq
        exact ⟨_, if_pos rfl, rfl, fun hn => absurd ((h.ended id i p hi hp).1 hne) hn⟩
      · exact ⟨q, by rw [if_neg hj]; exact hq, rfl, fun _ => rfl⟩
  | weightsChanged l =>
    simp only [Controller.exec, bind_ok_iff, pure_ok_iff] at hr
    obtain ⟨r1, h1, rfl⟩ := hr
    rcases Controller.weightsChanged_ok_iff.1 h1 with ⟨_, rfl⟩ | ⟨_, _, h2, _⟩
    · exact ⟨h, CtlStep.refl _ _⟩
    · exact ⟨(updateAll_inv l (hl l rfl) h h2).1, infos_same rfl, polls_updateAll l h2⟩
  | executeActions id =>
    simp only [Controller.exec, bind_ok_iff, pure_ok_iff] at hr
    obtain ⟨r1, h1, rfl⟩ := hr
    obtain ⟨_, i, hi, h2⟩ := Controller.executeActions_ok_iff.1 h1
    obtain ⟨hc, _⟩ := Controller.actAll_ok _ h2
    have hsame := hc.same
    show CtlInv _ _ _ r1.1 g ∧ CtlStep s r1.1 g g
    have hcfg : ValidConfig e.daoType r1.1.config := by
      rcases hc.config with hh | ⟨hh, _⟩
      · rw [hh]; exact h.config
      · exact hh
    have hcn : ∀ c, r1.1.council = some c → ValidCouncil c := by
      rcases hc.council with hh | ⟨hh, _⟩
      · rw [hh]; exact h.council
      · exact hh
    rw [hsame]
    exact ⟨{ h with config := hcfg, council := hcn }, infos_same rfl, polls_same g⟩
  | deployInitial =>
    simp only [Controller.exec, bind_ok_iff, pure_ok_iff] at hr
    obtain ⟨r1, h1, rfl⟩ := hr
    obtain ⟨_, _, rfl⟩ := Controller.deployInitial_ok_iff.1 h1
    exact ⟨{ h with }, infos_same rfl, polls_same g⟩

end Verif.Dao
