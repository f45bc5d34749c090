import Verif.Dao.Props8
import Verif.Dao.Props15

/-!
# The contracts of a DAO together: what passes, and so every change of the rules, is backed by the members (C136)
-/

set_option linter.unusedSimpArgs false

namespace Verif.Dao
open Verif
open Verif.Controller (Action Info)

/-! ### Specification -/

/-- The contracts were in state `v` on the way to `w`: between two transactions or blocks, or within a transaction, when
one of its messages was to be handled. -/
inductive Was (c : Cfg) (v w : World) : Prop
  | between (h : Reachable c v) (hl : Later c v w)
  | during {w0 : World} {t : List Entry} {x : Entry} (h : Reachable c w0) (hh : History c w0 w t) (hx : x ∈ t)
      (hv : x.world = v)

/-- What the members weigh in state `v` backs a proposal with these terms: voting is open and the proposal is pending; more
weight is for it than against it; the share of "yes" among "yes", "no" and "veto" is at least the threshold, that of "veto"
is less than the threshold for a veto; and any group that includes all accounts that voted has at least the quorum's share
of the total weight. The total is the current one, or, if `v` is in the second in which voting ends, maybe the
one before that second (see C110). -/
structure Backed (v w : World) (id : Nat) (p : Gov.Poll) : Prop where
  stored : (v.ctl.infos.get id).isSome = true
  pending : outcome v id = none
  voting : v.block.time < p.endsAt
  more : held v id .no < held v id .yes
  threshold : p.threshold * (held v id .yes + held v id .no + held v id .veto) ≤ held v id .yes * 10 ^ 18
  noVeto : held v id .veto * 10 ^ 18 <
    (p.vetoThreshold.getD p.threshold) * (held v id .yes + held v id .no + held v id .veto)
  quorum : ∃ total, 0 < total ∧
    (total = v.mem.total .never ∨ (v.block.time / 10 ^ 9 = p.endsAt / 10 ^ 9 ∧ total = w.mem.total (.time p.endsAt))) ∧
    ∀ P : Addr → Bool, (∀ u, choice v id u ≠ none → P u = true) → p.quorum * total ≤ weighing v P * 10 ^ 18

/-- The rules of a DAO in two states are the same. -/
structure SameRules (w w' : World) : Prop where
  config : w'.ctl.config = w.ctl.config
  council : w'.ctl.council = w.ctl.council
  unlocking : w'.mem.unlocking = w.mem.unlocking
  minimum : w'.dist.min = w.dist.min
  seats : ∀ u, Multisig.queryWeight w'.council u = Multisig.queryWeight w.council u
  shares : ∀ s, w.mem = .multisig s → ∃ s', w'.mem = .multisig s' ∧
    ∀ u, Multisig.queryWeight s' u = Multisig.queryWeight s u

/-! ### Results -/

/-- A result stays, also within a transaction. -/
theorem outcome_moved {c : Cfg} {w w' : World} (hb : Base c w) (hm : Moved w w') {id : Nat} {st : Gov.Status}
    (ho : outcome w id = some st) : outcome w' id = some st := by
  obtain ⟨i, p, hi, hp, hx, rfl⟩ := outcome_some ho
  obtain ⟨i', h1, _, _, _, h2⟩ := hm.step.infos id i hi
  obtain ⟨p', h3, _, h4⟩ := hm.step.polls id p hp
  have hne : i.executedAt ≠ none := by
    intro hn; rw [hn] at hx; cases hx
  have hlive : ¬ p.live := fun hlv => hne ((hb.ctl.ended id i p hi hp).2 hlv)
  have e1 := h2 hne
  have e2 := h4 hlive
  subst e1 e2
  rw [outcome_of h1 h3, if_pos hx]

/-- The only message that resolves a proposal is the one to execute it. -/
theorem Handled.resolved {c : Cfg} {e : Ext} {w w1 : World} {a : Addr} {m : Msg} {subs : List Item}
    (hb : Base c w) (room : w.gov.pollCount + 1 < 2 ^ 64) (hr : handle c e w a m = .ok (w1, subs))
    (hh : Handled c w a m w1 subs) {id : Nat} {st : Gov.Status} (h0 : outcome w id = none)
    (h1 : outcome w1 id = some st) : m = .ctl (.execute id) := by
  obtain ⟨i, p, hi, hp, hx, _⟩ := outcome_some h1
  have old : ∀ j, w.ctl.infos.get id = some j → j.executedAt = none := by
    intro j hj
    have hhas := hb.ctl.infos id
    cases hq : w.gov.polls.get id with
    | none =>
      rw [Map.has_iff.2 ⟨j, hj⟩] at hhas
      obtain ⟨q, hq'⟩ := Map.has_iff.1 hhas.symm
      rw [hq] at hq'; cases hq'
    | some q =>
      rw [outcome_of hj hq] at h0
      cases hj' : j.executedAt with
      | none => rfl
      | some b => rw [hj'] at h0; cases h0
  have same : w1.ctl.infos = w.ctl.infos → False := by
    intro hs
    rw [hs] at hi
    rw [old i hi] at hx
    cases hx
  rcases hh.kind with ⟨_, m', _, rfl, _⟩ | ⟨_, h2, _⟩
  · obtain ⟨r, hx'⟩ := handle_ctl hr
    have hworld := hx'.world
    simp only at hworld
    have hexec := hx'.exec
    have hctl : w1.ctl = r.1 := by rw [hworld]
    have hcreate : m'.isCreate = true → False := by
      intro hm
      obtain ⟨j, cp, k1, _⟩ := Controller.created_exec hm hexec
      obtain ⟨_, h3, _, _⟩ := CtlInv.created (e := c.env e w) hb.ctl k1 room
      have hinf : w1.ctl.infos = w.ctl.infos.set (w.gov.pollCount + 1) j := by
        rw [hctl, k1.state, h3]; rfl
      rw [hinf, Map.get_set] at hi
      by_cases hid : w.gov.pollCount + 1 = id
      · rw [if_pos hid] at hi
        cases hi
        rw [k1.fresh] at hx; cases hx
      · rw [if_neg hid] at hi
        rw [old i hi] at hx
        cases hx
    cases m' with
    | createProposal p f => exact (hcreate rfl).elim
    | createWithNft p l => exact (hcreate rfl).elim
    | createCouncil p => exact (hcreate rfl).elim
    | receive f a p => exact (hcreate rfl).elim
    | castVote j o =>
      exfalso
      simp only [Controller.exec, bind_ok_iff, pure_ok_iff] at hexec
      obtain ⟨r1, k1, rfl⟩ := hexec
      obtain ⟨_, _, k, _, q, hk, _, _, _, _, _, hs⟩ := Controller.castVote_ok_iff.1 k1
      have hv : r1.1.infos = w.ctl.infos ∨ ∃ x, r1.1.infos = w.ctl.infos.set j { k with earliest := some x } := by
        rw [hs]
        unfold Controller.voted
        split
        · unfold Controller.restartCooldown
          split
          · exact Or.inr ⟨_, rfl⟩
          · exact Or.inl rfl
        · exact Or.inl rfl
      rcases hv with hv | ⟨x, hv⟩
      · exact same (by rw [hctl]; exact hv)
      · rw [hctl] at hi
        change r1.1.infos.get id = _ at hi
        rw [hv, Map.get_set] at hi
        by_cases hid : j = id
        · subst hid
          rw [if_pos rfl] at hi
          cases hi
          simp only at hx
          rw [old k hk] at hx
          cases hx
        · rw [if_neg hid] at hi
          rw [old i hi] at hx
          cases hx
    | castCouncilVote j o =>
      exfalso
      simp only [Controller.exec, bind_ok_iff, pure_ok_iff] at hexec
      obtain ⟨r1, k1, rfl⟩ := hexec
      obtain ⟨_, _, _, k, _, _, _, _, hs⟩ := Controller.castCouncilVote_ok_iff.1 k1
      exact same (by rw [hctl]; show r1.1.infos = _; rw [hs])
    | execute j =>
      simp only [Controller.exec] at hexec
      obtain ⟨_, k, q, hk, _, _, _, _, _, _, rfl⟩ := Controller.executeProposal_ok_iff.1 hexec
      have hinf : w1.ctl.infos = w.ctl.infos.set j { k with executedAt := some w.block } := by rw [hctl]; rfl
      by_cases hid : j = id
      · rw [hid]
      · exfalso
        rw [hinf, Map.get_set_ne _ _ hid] at hi
        rw [old i hi] at hx
        cases hx
    | weightsChanged l =>
      exfalso
      simp only [Controller.exec, bind_ok_iff, pure_ok_iff] at hexec
      obtain ⟨r1, k1, rfl⟩ := hexec
      exact same (by rw [hctl])
    | executeActions j =>
      exfalso
      simp only [Controller.exec, bind_ok_iff, pure_ok_iff] at hexec
      obtain ⟨r1, k1, rfl⟩ := hexec
      obtain ⟨_, k, _, h2⟩ := Controller.executeActions_ok_iff.1 k1
      refine same ?_
      rw [hctl]
      show r1.1.infos = _
      rw [(Controller.actAll_ok _ h2).1.same]
    | deployInitial =>
      exfalso
      simp only [Controller.exec, bind_ok_iff, pure_ok_iff] at hexec
      obtain ⟨r1, k1, rfl⟩ := hexec
      obtain ⟨_, _, rfl⟩ := Controller.deployInitial_ok_iff.1 k1
      exact same (by rw [hctl])
  · exact (same (by rw [h2])).elim

/-- The message of a list of entries that resolved a proposal, and the state that it met. -/
def Resolves (c : Cfg) (w : World) (t : List Entry) (id : Nat) (st : Gov.Status) (w' : World) : Prop :=
  ∃ x ∈ t, ∃ w1 subs, x.msg = .ctl (.execute id) ∧ Base c x.world ∧ Tally x.world ∧ x.world.block = w.block ∧
    handle c x.ext x.world x.sender x.msg = .ok (w1, subs) ∧ outcome x.world id = none ∧ outcome w1 id = some st ∧
    Moved x.world w'

/-- What is known about the messages of a transaction. -/
def Tracks (c : Cfg) (w w' : World) (t : List Entry) : Prop :=
  Tally w' ∧ Moved w w' ∧ ∀ id st, outcome w id = none → outcome w' id = some st → Resolves c w t id st w'

theorem Tracks.trans {c : Cfg} {w w1 w2 : World} {t t' : List Entry} (hb : Base c w1) (h1 : Tracks c w w1 t)
    (h2 : Tracks c w1 w2 t') : Tracks c w w2 (t ++ t') := by
  obtain ⟨_, m1, r1⟩ := h1
  obtain ⟨t2, m2, r2⟩ := h2
  refine ⟨t2, m1.trans m2, fun id st h0 hs => ?_⟩
  cases ho : outcome w1 id with
  | none =>
    obtain ⟨x, hx, u, subs, k1, k2, k3, k4, k5⟩ := r2 id st ho hs
    exact ⟨x, List.mem_append_right _ hx, u, subs, k1, k2, k3, k4.trans m1.block, k5⟩
  | some st' =>
    have := outcome_moved hb m2 ho
    rw [hs] at this
    cases this
    obtain ⟨x, hx, u, subs, k1, k2, k3, k4, k5, k6, k7, k8⟩ := r1 id st h0 ho
    exact ⟨x, List.mem_append_left _ hx, u, subs, k1, k2, k3, k4, k5, k6, k7, k8.trans m2⟩

theorem Tracks.one {c : Cfg} (hw : c.Wf) {e : Ext} {w w1 : World} {a : Addr} {m : Msg} {subs : List Item}
    (hb : Base c w) (hk : Known c a m) (room : w.gov.pollCount + 1 < 2 ^ 64) (hr : handle c e w a m = .ok (w1, subs))
    (hh : Handled c w a m w1 subs) (h : Tally w) : Tracks c w w1 [⟨w, e, a, m⟩] := by
  refine ⟨hh.tally hw hb hk room hr h, hh.moved, fun id st h0 h1 => ?_⟩
  exact ⟨_, List.mem_singleton_self _, w1, subs, hh.resolved hb room hr h0 h1, hb, h, rfl, hr, h0, h1, hh.moved⟩

theorem Tracks.log {c : Cfg} {w : World} (h : Tally w) (l : List Event) : Tracks c w { w with log := l } [] :=
  ⟨⟨h.track, h.fits⟩, ⟨CtlStep.refl _ _, rfl, rfl⟩, fun id st h0 h1 => by
    change outcome w id = some st at h1
    rw [h0] at h1; cases h1⟩

theorem Traced.tracks {c : Cfg} (hw : c.Wf) (ht : c.Tame) {w w' : World} {l : List Item} {t : List Entry}
    (h : Traced c w l w' t) : (∀ i ∈ l, Allowed c i) → Base c w → Tally w → Base c w' ∧ Tracks c w w' t := by
  induction h with
  | nil w =>
    intro _ hb h
    exact ⟨hb, h, .refl _, fun id st h0 h1 => by rw [h0] at h1; cases h1⟩
  | @call w w1 w2 w3 a m subs rest t1 t2 e room h h1 h2 ih1 ih2 =>
    intro hl hb htal
    have ha : c.outsider a ∨ (a = c.self ∧ m.tame = true) := hl _ List.mem_cons_self
    have hk : Known c a m := by
      rcases ha with ha | ⟨ha, hm⟩
      · exact Or.inl ha
      · exact Or.inr ⟨ha, Or.inl hm⟩
    have hh := handled hw ht hb hk room h
    have k1 := Tracks.one hw hb hk room h hh htal
    obtain ⟨b2, p2⟩ := ih1 hh.allowed hh.base k1.1
    obtain ⟨b3, p3⟩ := ih2 (fun i hi => hl i (List.mem_cons_of_mem _ hi)) b2 p2.1
    exact ⟨b3, k1.trans (t' := t1 ++ t2) hh.base (p2.trans b2 p3)⟩
  | @actions w w1 w2 w3 id subs rest t1 t2 e room h h1 h2 ih1 ih2 =>
    intro hl hb htal
    have hk : Known c c.self (.ctl (.executeActions id)) := Or.inr ⟨rfl, Or.inr ⟨id, rfl⟩⟩
    have hh := handled hw ht hb hk room h
    have k1 := Tracks.one hw hb hk room h hh htal
    obtain ⟨b2, p2⟩ := ih1 hh.allowed hh.base k1.1
    obtain ⟨b3, p3⟩ := ih2 (fun i hi => hl i (List.mem_cons_of_mem _ hi)) b2 p2.1
    exact ⟨b3, k1.trans (t' := t1 ++ t2) hh.base (p2.trans b2 p3)⟩
  | failed h ih =>
    intro hl hb htal
    exact ih (fun i hi => hl i (List.mem_cons_of_mem _ hi)) hb htal
  | @deposit w w1 w2 id t calls rest t1 t2 hc h1 h2 ih1 ih2 =>
    intro hl hb htal
    have k1 : Tracks c w { w with log := w.log ++ [.paid id t] } [] := .log htal _
    have hb0 : Base c { w with log := w.log ++ [.paid id t] } := ⟨hb.ctl, hb.mem, hb.council⟩
    obtain ⟨b1, p1⟩ := ih1 hc.allowed hb0 k1.1
    obtain ⟨b2, p2⟩ := ih2 (fun i hi => hl i (List.mem_cons_of_mem _ hi)) b1 p1.1
    exact ⟨b2, k1.trans (t' := t1 ++ t2) hb0 (p1.trans b1 p2)⟩
  | @other w w1 w2 calls rest t1 t2 hc h1 h2 ih1 ih2 =>
    intro hl hb htal
    obtain ⟨b1, p1⟩ := ih1 hc.allowed hb htal
    obtain ⟨b2, p2⟩ := ih2 (fun i hi => hl i (List.mem_cons_of_mem _ hi)) b1 p1.1
    exact ⟨b2, p1.trans b1 p2⟩

/-! ### Votes as weights, within a transaction -/

theorem votedSum_held' {c : Cfg} {w : World} (hb : Base c w) (htl : Tally w) {id : Nat}
    {i : Info} (hi : w.ctl.infos.get id = some i) (hg : i.type = .general) {p : Gov.Poll}
    (hp : w.gov.polls.get id = some p) (hl : p.live) (ho : w.block.time < p.endsAt) (o : Gov.Outcome) :
    Gov.votedSum w.gov id o = held w id o := by
  have hinv := hb.ctl.inv
  rw [votedSum_eq]
  have h1 : ((votesOn w.gov id).filter (fun v => decide (v.outcome = o))).map (·.amount) =
      (((votesOn w.gov id).filter (fun v => decide (v.outcome = o))).map (·.voter)).map
        (fun u => (w.mem.mem.weights.get u).getD 0) := by
    rw [List.map_map]
    apply List.map_congr_left
    intro v hv
    have hv' := (mem_votesOn hinv (List.mem_filter.1 hv).1).1
    have := htl.track id i hi hg ⟨p, hp, hl, ho⟩ v.voter v hv'
    rw [Member.weight_eq] at this
    exact this
  have hn : (((votesOn w.gov id).filter (fun v => decide (v.outcome = o))).map (·.voter)).Nodup :=
    (List.filter_sublist.map _).nodup (votesOn_nodup hinv id)
  rw [h1, sum_list _ _ hn]
  unfold held weighing
  apply sum_congr
  intro u x
  have hiff : u ∈ ((votesOn w.gov id).filter (fun v => decide (v.outcome = o))).map (·.voter) ↔ choice w id u = some o := by
    unfold choice Gov.queryPollVoter
    constructor
    · intro hm
      obtain ⟨v, hv, rfl⟩ := List.mem_map.1 hm
      obtain ⟨hv1, hv2⟩ := List.mem_filter.1 hv
      rw [(mem_votesOn hinv hv1).1]
      simpa using hv2
    · intro hc
      cases hv : w.gov.votes.get (Gov.vkey u id) with
      | none => rw [hv] at hc; cases hc
      | some v =>
        rw [hv] at hc
        have hc : v.outcome = o := by simpa using hc
        have hk : Gov.vkey u id = Gov.vkey v.voter v.pollId := (hinv.vkeys _ _ hv).1
        obtain ⟨hk1, hk2⟩ := Prod.mk.injEq .. ▸ (toLex.injective hk)
        refine List.mem_map.2 ⟨v, List.mem_filter.2 ⟨?_, by simpa using hc⟩, hk1.symm⟩
        unfold votesOn Map.values
        refine List.mem_filter.2 ⟨List.mem_map.2 ⟨_, Map.get_eq_some_iff.1 hv, rfl⟩, ?_⟩
        simpa using hk2.symm
  simp [hiff]

theorem passed_backs {y n a v q t : Nat} {vt : Option Nat} {total o m : Nat} (hq : Controller.Fraction q)
    (ht : Controller.Fraction t) (h : Gov.ruleStatus y n a v q t vt total = .passed o m) :
    n < y ∧ v * 10 ^ 18 < vt.getD t * (y + n + v) := by
  obtain ⟨_, _, hy, hthr⟩ := passed_needs hq ht h
  unfold Gov.ruleStatus at h
  simp only at h
  split at h
  · cases h
  · split at h
    · cases h
    · rename_i h2
      split at h
      · rename_i h3
        unfold Gov.reaches at h2 h3
        have hbase : 0 < y + n + v := by omega
        refine ⟨?_, ?_⟩
        · rcases h3.2 with h4 | h4
          · by_contra hle
            push Not at hle
            exact h4 (Or.inr ⟨hbase, le_trans hthr (Nat.mul_le_mul_right _ hle)⟩)
          · exact h4
        · by_contra hle
          push Not at hle
          exact h2 (Or.inr ⟨hbase, hle⟩)
      · split at h
        · cases h
        · split at h <;> cases h

/-- The rule, for a state within a transaction in which a general proposal is executed while voting is open. -/
theorem early_rule {c : Cfg} {w w1 : World} (hb : Base c w) (htl : Tally w) {e : Ext}
    {a : Addr} {id : Nat} {subs : List Item} (hx : handle c e w a (.ctl (.execute id)) = .ok (w1, subs)) {i : Info}
    (hi : w.ctl.infos.get id = some i) (hg : i.type = .general) {p : Gov.Poll} (hp : w.gov.polls.get id = some p)
    (ho : w.block.time < p.endsAt) :
    outcome w1 id = some (Gov.ruleStatus (held w id .yes) (held w id .no) (held w id .abstain) (held w id .veto)
      p.quorum p.threshold p.vetoThreshold (w.mem.total .never)) := by
  obtain ⟨r, hr⟩ := handle_ctl hx
  have he := hr.exec
  simp only [Controller.exec] at he
  obtain ⟨_, i', p', hi', hp', hne, _, _, _, _, rfl⟩ := Controller.executeProposal_ok_iff.1 he
  rw [hi] at hi'; cases hi'
  rw [hp] at hp'; cases hp'
  have hl : p.live := (hb.ctl.ended id i p hi hp).1 hne
  have hrule := Gov.finalStatus_rule_of_inv hb.ctl.inv hp (htl.fits id i hi hg) (Controller.endTotal (c.env e w) p i.type)
  have htot : Controller.endTotal (c.env e w) p i.type = w.mem.total .never := by
    unfold Controller.endTotal
    rw [if_neg (show ¬ p.endsAt ≤ (c.env e w).block.time from Nat.not_le.2 ho), totalVotes_eq, hg]
    rfl
  rw [htot, votedSum_held' hb htl hi hg hp hl ho, votedSum_held' hb htl hi hg hp hl ho,
    votedSum_held' hb htl hi hg hp hl ho, votedSum_held' hb htl hi hg hp hl ho] at hrule
  have hw1 := hr.world
  simp only at hw1
  rw [hw1]
  rw [outcome_of (i := { i with executedAt := some w.block })
    (p := { p with status := p.finalStatus (Controller.endTotal (c.env e w) p i.type) })]
  · rw [htot, ← hrule]; rfl
  · simp only [Controller.State.resolved, Map.get_set, if_true]
    rfl
  · simp only [Controller.endedPoll, Map.get_set, if_true]

/-! ## C136 -/

theorem backed_of {w v : World} {c : Cfg} (hb : Base c v) {id : Nat} {i : Info} (hi : v.ctl.infos.get id = some i)
    (hn : outcome v id = none) {p q : Gov.Poll} (hq : v.gov.polls.get id = some q) (hpq : p.terms = q.terms)
    (ho : v.block.time < q.endsAt) {total o n : Nat}
    (hs : Gov.ruleStatus (held v id .yes) (held v id .no) (held v id .abstain) (held v id .veto)
      q.quorum q.threshold q.vetoThreshold total = .passed o n)
    (ht : total = v.mem.total .never ∨ (v.block.time / 10 ^ 9 = q.endsAt / 10 ^ 9 ∧ total = w.mem.total (.time q.endsAt))) :
    Backed v w id p := by
  obtain ⟨f1, f2, _⟩ := hb.ctl.fair id q hq
  obtain ⟨k0, k1, _, k3⟩ := passed_needs f1 f2 hs
  obtain ⟨k4, k5⟩ := passed_backs f1 f2 hs
  unfold Gov.Poll.terms at hpq
  simp only [Gov.Terms.mk.injEq] at hpq
  obtain ⟨_, _, _, _, _, _, e1, e2, e3, e4⟩ := hpq
  refine ⟨by rw [hi]; rfl, hn, by rw [e1]; exact ho, k4, by rw [e3]; exact k3, by rw [e3, e4]; exact k5, total, k0,
    by rw [e1]; exact ht, fun P hP => ?_⟩
  have := turnout_le v id hP
  rw [turnout_eq] at this
  rw [e2]
  exact le_trans k1 (Nat.mul_le_mul_right _ this)

theorem Later.trans {c : Cfg} {w w1 w2 : World} (h1 : Later c w w1) (h2 : Later c w1 w2) : Later c w w2 := by
  induction h2 with
  | refl => exact h1
  | tx _ ha hx ih => exact .tx ih ha hx
  | block _ hh ht ih => exact .block ih hh ht

theorem History.append {c : Cfg} {w w1 w2 : World} {t t' : List Entry} (h1 : History c w w1 t)
    (h2 : History c w1 w2 t') : History c w w2 (t ++ t') := by
  induction h2 with
  | start => rw [List.append_nil]; exact h1
  | tx _ ha hx ih => rw [← List.append_assoc]; exact .tx ih ha hx
  | block _ hh ht ih => exact .block ih hh ht

theorem Was.later {c : Cfg} {v w w' : World} (h : Was c v w) (hl : Later c w w') : Was c v w' := by
  cases h with
  | between h1 h2 => exact .between h1 (h2.trans hl)
  | @during w0 t x h1 hh hx hv =>
    obtain ⟨t', ht'⟩ := hl.history
    exact .during h1 (hh.append ht') (List.mem_append_left _ hx) hv

/-- The result of a general proposal that is executed after the end of voting, from the weights of the members in a state
before the end. As `C116_at_end`, for states within transactions. -/
theorem at_end_of {c : Cfg} (hw : c.Wf) (ht : c.Tame) {w w' : World} (h : Reachable c w) {id : Nat}
    {i : Info} (hi : w.ctl.infos.get id = some i) (hg : i.type = .general) {p : Gov.Poll}
    (hp : w.gov.polls.get id = some p) (hn : outcome w id = none) (ho : w.block.time < p.endsAt) {b : Block}
    (hb : p.endsAt ≤ b.time) (hset : Settles { w with block := b } w') {st : Gov.Status} (hs : outcome w' id = some st) :
    ∃ total, st = Gov.ruleStatus (held w id .yes) (held w id .no) (held w id .abstain) (held w id .veto)
        p.quorum p.threshold p.vetoThreshold total ∧ total = w'.mem.total (.time p.endsAt) ∧
      (w.block.time / 10 ^ 9 < p.endsAt / 10 ^ 9 → total = w.mem.total .never) := by
  have hbase := h.base hw ht
  have htl := h.tally hw ht
  have hno : i.executedAt = none := by
    rw [outcome_of hi hp] at hn
    cases hx : i.executedAt with
    | none => rfl
    | some _ => rw [hx] at hn; cases hn
  have hlive := (hbase.ctl.ended id i p hi hp).1 hno
  obtain ⟨i', p', hi', hp', _, _, _, hend⟩ := hset.closed id i p hi hp hb
  rw [hg] at hend
  have hst : st = p.finalStatus (w.mem.total (.time p.endsAt)) := by
    rw [outcome_of hi' hp'] at hs
    rcases hend with ⟨h1, _⟩ | ⟨_, ⟨d, h1, _⟩, h2⟩
    · rw [h1, hno] at hs; cases hs
    · rw [h1] at hs
      cases hs
      exact h2
  refine ⟨w.mem.total (.time p.endsAt), ?_, ?_, fun hsec => ?_⟩
  · rw [hst, Gov.finalStatus_rule_of_inv hbase.ctl.inv hp (htl.fits id i hi hg),
      votedSum_held' hbase htl hi hg hp hlive ho, votedSum_held' hbase htl hi hg hp hlive ho,
      votedSum_held' hbase htl hi hg hp hlive ho, votedSum_held' hbase htl hi hg hp hlive ho]
  · exact (hset.total .general p.endsAt (Nat.div_le_div_right hb)).symm
  · exact bodyTotal_ahead hbase (h.timely hw ht) hsec .general

/-- What is known about general proposals in a state, where `Q` tells which states there were before. -/
structure Behind (c : Cfg) (Q : World → Prop) (w : World) : Prop where
  pending : ∀ id i p, w.ctl.infos.get id = some i → i.type = .general → w.gov.polls.get id = some p →
    outcome w id = none → p.endsAt ≤ w.block.time → ∃ v b i0 q, Q v ∧ Reachable c v ∧ v.ctl.infos.get id = some i0 ∧
      i0.type = .general ∧ v.gov.polls.get id = some q ∧ outcome v id = none ∧ v.block.time < q.endsAt ∧
      q.endsAt ≤ b.time ∧ p.terms = q.terms ∧ Settles { v with block := b } w
  passed : ∀ id i p o n, w.ctl.infos.get id = some i → i.type = .general → w.gov.polls.get id = some p →
    outcome w id = some (.passed o n) → ∃ v, Q v ∧ v.block.time ≤ w.block.time ∧ Backed v w id p

theorem Behind.init {c : Cfg} {w : World} (h : Genesis c w) (Q : World → Prop) : Behind c Q w := by
  have hn : ∀ id, w.ctl.infos.get id = none := by
    obtain ⟨cfg, spec, tr, hc⟩ := h.ctl
    obtain ⟨_, _, h3⟩ := Controller.init_ok hc
    intro id
    rw [h3]; rfl
  exact ⟨fun id i p hi => (by rw [hn] at hi; cases hi), fun id i p o n hi => (by rw [hn] at hi; cases hi)⟩

/-- Messages within one block. -/
theorem Behind.step {c : Cfg} (hw : c.Wf) (ht : c.Tame) {Q Q' : World → Prop} {w w1 : World} {t : List Entry}
    (hb : Base c w) (ih : Behind c Q w) (hset : Settles w w1) (hmov : Moved w w1)
    (hres : ∀ id st, outcome w id = none → outcome w1 id = some st → Resolves c w t id st w1)
    (hQ : ∀ v, Q v → Q' v) (hQt : ∀ x ∈ t, Q' x.world) : Behind c Q' w1 := by
  -- a proposal whose voting is over at the start of the transaction existed then
  have old : ∀ id i' p', w1.ctl.infos.get id = some i' → i'.type = .general → w1.gov.polls.get id = some p' →
      p'.endsAt ≤ w.block.time → ∃ i p, w.ctl.infos.get id = some i ∧ i.type = .general ∧
        w.gov.polls.get id = some p ∧ p'.terms = p.terms ∧ p.endsAt ≤ w.block.time := by
    intro id i' p' hi' hg hp' he
    obtain ⟨p, hp, htm⟩ := hset.old id p' hp' he
    have hhas := hb.ctl.infos id
    rw [Map.has_iff.2 ⟨p, hp⟩] at hhas
    obtain ⟨i, hi⟩ := Map.has_iff.1 hhas
    obtain ⟨i2, h2, h3, _⟩ := hmov.step.infos id i hi
    rw [hi'] at h2; cases h2
    exact ⟨i, p, hi, by rw [← h3]; exact hg, hp, htm.symm, by rw [Gov.terms_endsAt htm]; exact he⟩
  refine ⟨?_, ?_⟩
  · intro id i' p' hi' hg hp' hn he
    rw [hmov.block] at he
    obtain ⟨i, p, hi, hgi, hp, htm, hep⟩ := old id i' p' hi' hg hp' he
    have hn0 : outcome w id = none := by
      cases ho : outcome w id with
      | none => rfl
      | some st => rw [outcome_moved hb hmov ho] at hn; cases hn
    obtain ⟨v, b, i0, q, k0, k1, k2, k3, k4, k5, k6, k7, k8, k9⟩ := ih.pending id i p hi hgi hp hn0 hep
    exact ⟨v, b, i0, q, hQ v k0, k1, k2, k3, k4, k5, k6, k7, htm.trans k8, k9.trans hset⟩
  · intro id i' p' o n hi' hg hp' hs
    cases h0 : outcome w id with
    | some st =>
      have hst := outcome_moved hb hmov h0
      rw [hs] at hst
      cases hst
      obtain ⟨i, p, hi, hp, _⟩ := outcome_some h0
      obtain ⟨i2, h2, h3, _⟩ := hmov.step.infos id i hi
      rw [hi'] at h2; cases h2
      obtain ⟨p2, h4, h5, _⟩ := hmov.step.polls id p hp
      rw [hp'] at h4; cases h4
      obtain ⟨v, k1, k2, k3⟩ := ih.passed id i p o n hi (by rw [← h3]; exact hg) hp h0
      refine ⟨v, hQ v k1, by rw [hmov.block]; exact k2, ?_⟩
      unfold Gov.Poll.terms at h5
      simp only [Gov.Terms.mk.injEq] at h5
      obtain ⟨_, _, _, _, _, _, e1, e2, e3, e4⟩ := h5
      obtain ⟨T, t1, t2, t3⟩ := k3.quorum
      refine ⟨k3.stored, k3.pending, by rw [e1]; exact k3.voting, k3.more, by rw [e3]; exact k3.threshold,
        by rw [e3, e4]; exact k3.noVeto, T, t1, ?_, by rw [e2]; exact t3⟩
      rcases t2 with t2 | ⟨t2, t4⟩
      · exact Or.inl t2
      · rw [e1]
        refine Or.inr ⟨t2, t4.trans ?_⟩
        have := hset.total .general p.endsAt (by
          rw [← t2]
          exact Nat.div_le_div_right k2)
        exact this.symm
    | none =>
      by_cases he : p'.endsAt ≤ w.block.time
      · obtain ⟨i, p, hi, hgi, hp, htm, hep⟩ := old id i' p' hi' hg hp' he
        obtain ⟨v, b, i0, q, k0, k1, k2, k3, k4, k5, k6, k7, k8, k9⟩ := ih.pending id i p hi hgi hp h0 hep
        obtain ⟨T, t1, t2, t3⟩ := at_end_of hw ht k1 k2 k3 k4 k5 k6 k7 (k9.trans hset) hs
        have hend : q.endsAt = p'.endsAt := (Gov.terms_endsAt (htm.trans k8)).symm
        refine ⟨v, hQ v k0, by rw [hmov.block]; omega, ?_⟩
        refine backed_of (k1.base hw ht) k2 k5 k4 (htm.trans k8) k6 t1.symm ?_
        by_cases hsec : v.block.time / 10 ^ 9 < q.endsAt / 10 ^ 9
        · exact Or.inl (t3 hsec)
        · have := Nat.div_le_div_right (c := 10 ^ 9) (Nat.le_of_lt k6)
          exact Or.inr ⟨by omega, t2⟩
      · obtain ⟨x, hxt, u, subs, k1, k2, k3, k4, k5, k6, k7, k8⟩ := hres id _ h0 hs
        rw [k1] at k5
        obtain ⟨r, hr⟩ := handle_ctl k5
        have hex := hr.exec
        simp only [Controller.exec] at hex
        obtain ⟨_, j, q, hj, hq, _⟩ := Controller.executeProposal_ok_iff.1 hex
        obtain ⟨i2, h2, h3, _⟩ := k8.step.infos id j hj
        rw [hi'] at h2; cases h2
        obtain ⟨p2, h4, h5, _⟩ := k8.step.polls id q hq
        rw [hp'] at h4; cases h4
        have hend : p'.endsAt = q.endsAt := Gov.terms_endsAt h5
        have hopen : x.world.block.time < q.endsAt := by rw [k4]; omega
        have hrule := early_rule k2 k3 k5 hj (by rw [← h3]; exact hg) hq hopen
        rw [k7] at hrule
        refine ⟨x.world, hQt x hxt, by rw [k4, hmov.block], ?_⟩
        exact backed_of k2 hj k6 hq h5 hopen (Option.some.inj hrule).symm (Or.inl rfl)

theorem Behind.block {c : Cfg} {Q Q' : World → Prop} {w : World} (h : Reachable c w) (ht : Timely w) (ih : Behind c Q w)
    (hQ : ∀ v, Q v → Q' v) (hw : Q' w) {b : Block} (htm : w.block.time ≤ b.time) : Behind c Q' { w with block := b } := by
  refine ⟨?_, ?_⟩
  · intro id i p hi hg hp hn he
    by_cases hold : p.endsAt ≤ w.block.time
    · obtain ⟨v, b', i0, q, k0, k1, k2, k3, k4, k5, k6, k7, k8, k9⟩ := ih.pending id i p hi hg hp hn hold
      exact ⟨v, b', i0, q, hQ v k0, k1, k2, k3, k4, k5, k6, k7, k8, k9.trans (ht.block htm)⟩
    · exact ⟨w, b, i, p, hw, h, hi, hg, hp, hn, by omega, he, rfl, .refl (ht.block htm).timely⟩
  · intro id i p o n hi hg hp hs
    obtain ⟨v, k1, k2, k3⟩ := ih.passed id i p o n hi hg hp hs
    exact ⟨v, hQ v k1, le_trans k2 htm, ⟨k3.stored, k3.pending, k3.voting, k3.more, k3.threshold, k3.noVeto, k3.quorum⟩⟩

theorem Reachable.behind {c : Cfg} (hw : c.Wf) (ht : c.Tame) {w : World} (h : Reachable c w) :
    Behind c (fun v => Was c v w) w := by
  induction h with
  | init h => exact .init h _
  | @tx w w1 a m h ha hx ih =>
    have hl1 : Later c w w1 := .tx .refl ha hx
    obtain ⟨t, htr⟩ := hx.traced
    obtain ⟨_, _, hmov, hres⟩ := htr.tracks hw ht
      (fun i hi => by rw [List.mem_singleton.1 hi]; exact Or.inl ha) (h.base hw ht) (h.tally hw ht)
    exact ih.step hw ht (h.base hw ht) (hl1.settles hw ht h) hmov hres (fun v hv => hv.later hl1)
      (fun x hx => .during h (.tx .start ha htr) (by simpa using hx) rfl)
  | @block w b h hh htm ih =>
    have hl1 : Later c w { w with block := b } := .block .refl hh htm
    exact ih.block h (h.timely hw ht) (fun v hv => hv.later hl1) (.between h hl1) htm

/-- Behind every general proposal that passed, whenever and however it was executed, there was a moment before the end of
voting when the members backed it with their weights. -/
theorem C136_backed {c : Cfg} (hw : c.Wf) (ht : c.Tame) {w : World} (h : Reachable c w) {id : Nat} {i : Info}
    (hi : w.ctl.infos.get id = some i) (hg : i.type = .general) {o n : Nat} (hs : outcome w id = some (.passed o n)) :
    ∃ v p, Gov.queryPoll w.gov id = .ok p ∧ Was c v w ∧ Backed v w id p := by
  obtain ⟨_, p, _, hp, _⟩ := outcome_some hs
  obtain ⟨v, k1, _, k2⟩ := (h.behind hw ht).passed id i p o n hi hg hp hs
  exact ⟨v, p, Controller.queryPoll_ok_iff.2 hp, k1, k2⟩

/-- The sample proposal passes early; at that moment 60 of 100 coins are for it and 40 against it. If user 10 unstakes 25
coins and user 11 stakes 30 more before the end, it does not pass. -/
example : outcome (sampleRun (sampleVoted ++ [at_ 20, execute 13 1])) 1 = some (.passed 0 60) ∧
    ((sampleRun (sampleVoted ++ [at_ 20, execute 13 1])).ctl.infos.get 1).map (·.type) = some .general ∧
    (held (sampleRun (sampleVoted ++ [at_ 20])) 1 .yes, held (sampleRun (sampleVoted ++ [at_ 20])) 1 .no,
      (sampleRun (sampleVoted ++ [at_ 20])).mem.total .never) = (60, 40, 100) ∧
    outcome (sampleRun (sampleShift ++ [at_ 102, execute 13 1])) 1 = some (.rejected .isRejectingOutcome) := by
  refine ⟨?_, ?_, ?_, ?_⟩ <;> decide +kernel

/-! ### The rules -/

theorem says_harmful {c : Cfg} {a : Action} {m : Msg} (h : Says c a m) : a.type ∉ Controller.harmless := by
  cases h <;> simp [Action.type, Controller.harmless]

theorem History.carried {c : Cfg} (hw : c.Wf) (ht : c.Tame) {w w' : World} {t : List Entry} (hr : Reachable c w)
    (h : History c w w' t) : ∀ x ∈ t, ∀ id i, x.world.ctl.infos.get id = some i →
      ∃ i', w'.ctl.infos.get id = some i' ∧ i'.actions = i.actions := by
  have key := h.induct hw ht (P := fun w w' t => CtlStep w.ctl w'.ctl w.gov w'.gov ∧ ∀ x ∈ t, ∀ id i,
      x.world.ctl.infos.get id = some i → ∃ i', w'.ctl.infos.get id = some i' ∧ i'.actions = i.actions)
    (fun w => ⟨CtlStep.refl _ _, fun x hx => (by cases hx)⟩) (fun w l => ⟨CtlStep.refl _ _, fun x hx => (by cases hx)⟩)
    (fun w b => ⟨CtlStep.refl _ _, fun x hx => (by cases hx)⟩) ?_ ?_ hr
  · exact key.2
  · rintro w w1 w2 t t' ⟨s1, c1⟩ ⟨s2, c2⟩
    refine ⟨s1.trans s2, fun x hx id i hi => ?_⟩
    rcases List.mem_append.1 hx with hx | hx
    · obtain ⟨i1, h1, h2⟩ := c1 x hx id i hi
      obtain ⟨i2, h3, _, _, h4, _⟩ := s2.infos id i1 h1
      exact ⟨i2, h3, h4.trans h2⟩
    · exact c2 x hx id i hi
  · intro w w1 a m subs e _ _ _ hh
    refine ⟨hh.step, fun x hx id i hi => ?_⟩
    rw [List.mem_singleton.1 hx] at hi
    obtain ⟨i', h1, _, _, h2, _⟩ := hh.step.infos id i hi
    exact ⟨i', h1, h2⟩

theorem harmless_changes {l : List Action} (h : ∀ a ∈ l, a.type ∈ Controller.harmless) :
    changes l = [] ∧ ∀ r, l.foldl councilAfter r = r := by
  induction l with
  | nil => exact ⟨rfl, fun _ => rfl⟩
  | cons a t ih =>
    obtain ⟨h1, h2⟩ := ih (fun b hb => h b (List.mem_cons_of_mem _ hb))
    have ha := h a List.mem_cons_self
    unfold changes at h1 ⊢
    refine ⟨?_, fun r => ?_⟩
    · rw [List.filterMap_cons, h1]
      cases a <;> first | rfl | (exact absurd ha (by simp [Action.type, Controller.harmless]))
    · rw [List.foldl_cons, h2]
      cases a <;> first | rfl | (exact absurd ha (by simp [Action.type, Controller.harmless]))

theorem quiet_periodAfter {d : Option Staking.Duration} {x : Entry}
    (hx : x.msg.ofRules = false ∨ ∃ id, x.msg = .ctl (.executeActions id)) : periodAfter d x = d := by
  rcases hx with hx | ⟨id, hx⟩
  · revert hx
    unfold Msg.ofRules periodAfter
    split <;> simp_all
  · unfold periodAfter; rw [hx]

theorem quiet_minimumAfter {n : Nat} {x : Entry}
    (hx : x.msg.ofRules = false ∨ ∃ id, x.msg = .ctl (.executeActions id)) : minimumAfter n x = n := by
  rcases hx with hx | ⟨id, hx⟩
  · revert hx
    unfold Msg.ofRules minimumAfter
    split <;> simp_all
  · unfold minimumAfter; rw [hx]

theorem quiet_seatAfter {u : Addr} {n : Nat} {x : Entry}
    (hx : x.msg.ofRules = false ∨ ∃ id, x.msg = .ctl (.executeActions id)) : seatAfter u n x = n := by
  rcases hx with hx | ⟨id, hx⟩
  · revert hx
    unfold Msg.ofRules seatAfter
    split <;> simp_all
  · unfold seatAfter; rw [hx]

theorem quiet_shareAfter {u : Addr} {n : Nat} {x : Entry}
    (hx : x.msg.ofRules = false ∨ ∃ id, x.msg = .ctl (.executeActions id)) : shareAfter u n x = n := by
  rcases hx with hx | ⟨id, hx⟩
  · revert hx
    unfold Msg.ofRules shareAfter
    split <;> simp_all
  · unfold shareAfter; rw [hx]

theorem quiet_run {x : Entry} (hx : x.msg.ofRules = false) : actionsRun x = [] := by
  revert hx
  unfold Msg.ofRules actionsRun
  split <;> simp_all

/-- The rules of a DAO never change without the members: if they are not the same in two states, then in between the actions
of a general proposal were run that passed, and there was a moment before the end of its voting when the members backed it
with their weights. -/
theorem C136_amended {c : Cfg} (hw : c.Wf) (ht : c.Tame) {w w' : World} (h : Reachable c w) (hl : Later c w w')
    (hne : ¬ SameRules w w') :
    ∃ id i v p, w'.ctl.infos.get id = some i ∧ i.type = .general ∧ ranCount w id = 0 ∧ ranCount w' id = 1 ∧
      Gov.queryPoll w'.gov id = .ok p ∧ Was c v w' ∧ Backed v w' id p := by
  by_contra hcon
  apply hne
  obtain ⟨t, hh⟩ := hl.history
  have hr' := hl.reachable h
  have hb' := hr'.base hw ht
  have cou : ∀ x ∈ t, x.msg.ofRules = false ∨ ∃ id, x.msg = .ctl (.executeActions id) ∧
      ∀ a ∈ actionsRun x, a.type ∈ Controller.harmless := by
    intro x hx
    cases hm : x.msg.ofRules with
    | false => exact Or.inl rfl
    | true =>
      obtain ⟨_, id, i, o, n, h1, h2, h3, h4, h5⟩ := C130_ordered hw ht h hh hx hm
      have hty : i.type = .council := by
        cases hty : i.type with
        | council => rfl
        | general =>
          obtain ⟨v, p, k1, k2, k3⟩ := C136_backed hw ht hr' h1 hty h2
          exact (hcon ⟨id, i, v, p, h1, hty, h3, h4, k1, k2, k3⟩).elim
      have hfree := (hb'.ctl.free id i h1 hty).2
      rcases h5 with h5 | ⟨a, ha, hs⟩
      · refine Or.inr ⟨id, h5, fun a ha => ?_⟩
        unfold actionsRun at ha
        rw [h5] at ha
        simp only at ha
        cases hj : x.world.ctl.infos.get id with
        | none => rw [hj] at ha; cases ha
        | some j =>
          rw [hj] at ha
          obtain ⟨i', k1, k2⟩ := hh.carried hw ht h x hx id j hj
          rw [h1] at k1; cases k1
          exact hfree a (by rw [k2]; exact ha)
      · exact absurd (hfree a ha) (says_harmful hs)
  have fold : ∀ {β : Type} (f : β → Entry → β),
      (∀ b x, x.msg.ofRules = false ∨ (∃ id, x.msg = .ctl (.executeActions id)) → f b x = b) →
      ∀ (l : List Entry) (b : β), (∀ x ∈ l, x.msg.ofRules = false ∨ (∃ id, x.msg = .ctl (.executeActions id))) →
        l.foldl f b = b := by
    intro β f hf l
    induction l with
    | nil => intro b _; rfl
    | cons x l ih =>
      intro b hl
      rw [List.foldl_cons, hf b x (hl x List.mem_cons_self)]
      exact ih b (fun y hy => hl y (List.mem_cons_of_mem _ hy))
  have hmsg : ∀ x ∈ t, x.msg.ofRules = false ∨ (∃ id, x.msg = .ctl (.executeActions id)) := by
    intro x hx
    rcases cou x hx with h1 | ⟨id, h1, _⟩
    · exact Or.inl h1
    · exact Or.inr ⟨id, h1⟩
  have hrun : ∀ a ∈ t.flatMap actionsRun, a.type ∈ Controller.harmless := by
    intro a ha
    obtain ⟨x, hx, ha⟩ := List.mem_flatMap.1 ha
    rcases cou x hx with h1 | ⟨_, _, h1⟩
    · rw [quiet_run h1] at ha; cases ha
    · exact h1 a ha
  obtain ⟨hch, hco⟩ := harmless_changes hrun
  have r := hh.rulings hw ht h
  refine ⟨amended_nil r.config hch, r.council.trans (hco _), ?_, ?_, fun u => ?_, fun s hs => ?_⟩
  · rw [r.period]
    exact fold _ (fun b x hx => quiet_periodAfter hx) t _ hmsg
  · rw [r.minimum]
    exact fold _ (fun b x hx => quiet_minimumAfter hx) t _ hmsg
  · rw [r.seats]
    exact fold _ (fun b x hx => quiet_seatAfter hx) t _ hmsg
  · obtain ⟨s', h1, h2⟩ := r.shares s hs
    refine ⟨s', h1, fun u => ?_⟩
    rw [h2]
    exact fold _ (fun b x hx => quiet_shareAfter hx) t _ hmsg

/-- The sample proposal changes the quorum. -/
example : ¬ SameRules sampleGenesis (sampleRun sampleDone) ∧ Later sampleCfg sampleGenesis (sampleRun sampleDone) ∧
    Reachable sampleCfg sampleGenesis :=
  ⟨fun h => absurd h.config (by decide +kernel), sampleDone_later, .init sample_genesis⟩

end Verif.Dao
