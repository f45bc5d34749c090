import Verif.Dao.Lemmas2

/-!
# The contracts of a DAO together: resolutions, dispatched actions and deposits
-/

set_option linter.unusedSimpArgs false

namespace Verif.Dao
open Verif
open Verif.Controller (DaoType Transfer Sub Info)

/-- The actions that a queued message stands for. -/
def Item.batch : Item → Option Nat
  | .actions id => some id
  | _ => none

/-- The transfer of a deposit that a queued message stands for. -/
def Item.payment (id : Nat) : Item → Option Transfer
  | .deposit j t => if j = id then some t else none
  | _ => none

/-- How often a queue executes the actions of a proposal. -/
def queued (l : List Item) (id : Nat) : Nat := (l.filterMap Item.batch).count id

/-- The transfers of a deposit in a queue. -/
def pend (l : List Item) (id : Nat) : List Transfer := l.filterMap (Item.payment id)

/-- A stored proposal is resolved. -/
def isExec : Option Info → Bool
  | some i => i.executedAt.isSome
  | none => false

/-- A proposal is resolved. -/
def executed (w : World) (id : Nat) : Bool := isExec (w.ctl.infos.get id)

/-- The proposal whose actions a message executes. -/
def Msg.runs : Msg → Option Nat
  | .ctl (.executeActions id) => some id
  | _ => none

/-- What is owed for the resolution of a proposal. -/
def due (c : Cfg) (w : World) (id : Nat) : List Transfer :=
  match w.ctl.infos.get id, w.gov.polls.get id with
  | some i, some p => if i.executedAt.isSome then owed c.comps.treasury i p.status else []
  | _, _ => []

/-- How many executions of its actions a proposal allows. -/
def batches (w : World) (id : Nat) : Nat :=
  match w.ctl.infos.get id, w.gov.polls.get id with
  | some i, some p => if i.executedAt.isSome && isPassed p.status then 1 else 0
  | _, _ => 0

theorem executed_mono {w w' : World} (h : Moved w w') {id : Nat} (hx : executed w id = true) :
    executed w' id = true := by
  unfold executed at hx ⊢
  cases hi : w.ctl.infos.get id with
  | none => rw [hi] at hx; cases hx
  | some i =>
    rw [hi] at hx
    obtain ⟨i', h1, _, _, _, h2⟩ := h.step.infos id i hi
    have : i' = i := h2 (by intro hn; simp only [isExec, hn] at hx; cases hx)
    subst this
    rw [h1]; exact hx

/-- Resolutions are final. -/
theorem resolved_stable {c : Cfg} {w w' : World} (hb : Base c w) (h : Moved w w') {id : Nat}
    (hx : executed w id = true) : due c w' id = due c w id ∧ batches w' id = batches w id := by
  unfold executed at hx
  cases hi : w.ctl.infos.get id with
  | none => rw [hi] at hx; cases hx
  | some i =>
    rw [hi] at hx
    obtain ⟨i', h1, _, _, _, h2⟩ := h.step.infos id i hi
    have hne : i.executedAt ≠ none := by intro hn; simp only [isExec, hn] at hx; cases hx
    have : i' = i := h2 hne
    subst this
    have hhas : w.gov.polls.has id = true := by
      rw [← hb.ctl.infos id, Map.has_iff]
      exact ⟨i', hi⟩
    obtain ⟨p, hp⟩ := Map.has_iff.1 hhas
    obtain ⟨p', h3, _, h4⟩ := h.step.polls id p hp
    have : p' = p := h4 (fun hl => hne ((hb.ctl.ended id i' p hi hp).2 hl))
    subst this
    unfold due batches
    rw [hi, h1, hp, h3]
    exact ⟨rfl, rfl⟩

theorem due_nil {c : Cfg} {w : World} {id : Nat} (hx : executed w id = false) :
    due c w id = [] ∧ batches w id = 0 := by
  unfold executed at hx
  unfold due batches
  cases hi : w.ctl.infos.get id with
  | none => exact ⟨rfl, rfl⟩
  | some i =>
    rw [hi] at hx
    have hx : i.executedAt.isSome = false := hx
    cases w.gov.polls.get id with
    | none => exact ⟨rfl, rfl⟩
    | some p => simp only [hx]; exact ⟨rfl, rfl⟩

theorem paidOut_same {w w' : World} (h : w'.log = w.log) (id : Nat) : paidOut w' id = paidOut w id := by
  unfold paidOut; rw [h]

theorem pend_cons (i : Item) (l : List Item) (id : Nat) :
    pend (i :: l) id = (i.payment id).toList ++ pend l id := by
  unfold pend
  rw [List.filterMap_cons]
  cases i.payment id <;> rfl

theorem queued_cons (i : Item) (l : List Item) (id : Nat) :
    queued (i :: l) id = (if i.batch = some id then 1 else 0) + queued l id := by
  unfold queued
  rw [List.filterMap_cons]
  cases hb : i.batch with
  | none => simp
  | some j =>
    simp only [List.count_cons, Option.some.injEq]
    by_cases hj : j = id
    · subst hj; simp; omega
    · simp [hj]

theorem pend_quiet {l : List Item} (h : ∀ i ∈ l, ∀ id, i.payment id = none) (id : Nat) : pend l id = [] := by
  unfold pend
  rw [List.filterMap_eq_nil_iff]
  exact fun i hi => h i hi id

theorem queued_quiet {l : List Item} (h : ∀ i ∈ l, i.batch = none) (id : Nat) : queued l id = 0 := by
  unfold queued
  rw [List.filterMap_eq_nil_iff.2 h]
  rfl

theorem calls_quiet {c : Cfg} {l : List Item} (h : Calls c l) (id : Nat) : pend l id = [] ∧ queued l id = 0 := by
  refine ⟨pend_quiet (fun i hi id => ?_) id, queued_quiet (fun i hi => ?_) id⟩ <;>
    · obtain ⟨a, m, rfl, _⟩ := h i hi
      rfl

/-- What a message adds: nothing unless it resolves the proposal. -/
structure Added (c : Cfg) (w w1 : World) (m : Msg) (subs : List Item) (id : Nat) : Prop where
  paid : paidOut w1 id = paidOut w id
  pend : pend subs id = if executed w id then [] else due c w1 id
  sent : sentCount w1 id = sentCount w id + (if executed w id then 0 else batches w1 id)
  queued : queued subs id = if executed w id then 0 else batches w1 id
  ran : ranCount w1 id = ranCount w id + (if m.runs = some id then 1 else 0)

/-- Messages that do not resolve proposals. -/
theorem added_quiet {c : Cfg} {w w1 : World} {m : Msg} {subs : List Item} {id : Nat}
    (hx : executed w1 id = executed w id) (hp : paidOut w1 id = paidOut w id) (hq : pend subs id = [])
    (hs : sentCount w1 id = sentCount w id) (hn : queued subs id = 0)
    (hr : ranCount w1 id = ranCount w id + (if m.runs = some id then 1 else 0)) :
    Added c w w1 m subs id := by
  cases he : executed w id with
  | true =>
    exact ⟨hp, by rw [he, hq]; rfl, by rw [he, hs]; rfl, by rw [he, hn]; rfl, hr⟩
  | false =>
    rw [he] at hx
    obtain ⟨h1, h2⟩ := due_nil (c := c) hx
    exact ⟨hp, by rw [he, hq, h1]; rfl, by rw [he, hs, h2]; rfl, by rw [he, hn, h2]; rfl, hr⟩

/-- Messages to the controller other than `ExecuteProposal` send no deposits and dispatch no actions, and they mark no
proposal executed. -/
theorem ctl_quiet {c : Cfg} {e : Controller.Env} {u : Addr} {s : Controller.State} {g : Gov.State}
    {m : Controller.Msg} (x : Member) {r : Controller.State × Gov.State × List Sub} (hm : ∀ id, m ≠ .execute id)
    (hfresh : m.isCreate = true → s.infos.get r.2.1.pollCount = none)
    (h : Controller.exec e u s g m = .ok r) :
    r.2.2.filterMap eventOf = [] ∧ (∀ i ∈ r.2.2.map (toItem c x), i.batch = none ∧ ∀ id, i.payment id = none) ∧
    (∀ id, isExec (r.1.infos.get id) =
      isExec (s.infos.get id)) := by
  have hsubs : ∀ {l : List Sub}, (∀ y ∈ l, eventOf y = none ∧ (toItem c x y).batch = none ∧
      ∀ id, (toItem c x y).payment id = none) → l.filterMap eventOf = [] ∧
      (∀ i ∈ l.map (toItem c x), i.batch = none ∧ ∀ id, i.payment id = none) := by
    intro l hl
    refine ⟨List.filterMap_eq_nil_iff.2 fun y hy => (hl y hy).1, fun i hi => ?_⟩
    obtain ⟨y, hy, rfl⟩ := List.mem_map.1 hi
    exact (hl y hy).2
  have hcreate : m.isCreate = true →
      r.2.2.filterMap eventOf = [] ∧ (∀ i ∈ r.2.2.map (toItem c x), i.batch = none ∧ ∀ id, i.payment id = none) ∧
      (∀ id, isExec (r.1.infos.get id) =
        isExec (s.infos.get id)) := by
    intro hc
    obtain ⟨i, cp, h1, h2⟩ := Controller.created_exec hc h
    have h3 := hsubs (l := r.2.2) (fun y hy => by
      obtain ⟨_, _, rfl⟩ := h2 y hy
      exact ⟨rfl, rfl, fun _ => rfl⟩)
    refine ⟨h3.1, h3.2, fun id => ?_⟩
    rw [h1.state]
    unfold Controller.State.added
    simp only [Map.get_set]
    by_cases hid : r.2.1.pollCount = id
    · subst hid
      rw [if_pos rfl, hfresh hc]
      simp only [isExec, h1.fresh]; rfl
    · rw [if_neg hid]
  cases m with
  | createProposal p f => exact hcreate rfl
  | createWithNft p l => exact hcreate rfl
  | createCouncil p => exact hcreate rfl
  | receive f a p => exact hcreate rfl
  | castVote id o =>
    simp only [Controller.exec, bind_ok_iff, pure_ok_iff] at h
    obtain ⟨r1, h1, rfl⟩ := h
    refine ⟨rfl, fun i hi => (by cases hi), fun j => ?_⟩
    obtain ⟨_, _, i, p, q, hi, _, _, _, _, _, hs⟩ := Controller.castVote_ok_iff.1 h1
    show isExec (r1.1.infos.get j) = _
    rw [hs]
    unfold Controller.voted
    by_cases hc : s.config.early = true ∧ e.daoType ≠ .multisig
    · rw [if_pos hc]
      unfold Controller.restartCooldown
      split
      · simp only [Map.get_set]
        by_cases hj : id = j
        · subst hj
          rw [if_pos rfl, hi]; rfl
        · rw [if_neg hj]
      · rfl
    · rw [if_neg hc]
  | castCouncilVote id o =>
    simp only [Controller.exec, bind_ok_iff, pure_ok_iff] at h
    obtain ⟨r1, h1, rfl⟩ := h
    obtain ⟨_, _, _, i, hi, _, hadm, hg, hs⟩ := Controller.castCouncilVote_ok_iff.1 h1
    refine ⟨rfl, fun i hi => (by cases hi), fun j => ?_⟩
    show isExec (r1.1.infos.get j) = _
    rw [hs]
  | execute id => exact absurd rfl (hm id)
  | weightsChanged l =>
    simp only [Controller.exec, bind_ok_iff, pure_ok_iff] at h
    obtain ⟨r1, h1, rfl⟩ := h
    refine and_assoc.1 ⟨hsubs (fun y hy => ?_), fun _ => rfl⟩
    rcases Controller.weightsChanged_ok_iff.1 h1 with ⟨_, rfl⟩ | ⟨_, _, _, h2⟩
    · cases hy
    · rw [h2] at hy
      rw [List.mem_singleton.1 hy]
      exact ⟨rfl, rfl, fun _ => rfl⟩
  | executeActions id =>
    simp only [Controller.exec, bind_ok_iff, pure_ok_iff] at h
    obtain ⟨r1, h1, rfl⟩ := h
    obtain ⟨_, i, _, h2⟩ := Controller.executeActions_ok_iff.1 h1
    obtain ⟨h3, h4⟩ := Controller.actAll_ok _ h2
    refine and_assoc.1 ⟨hsubs (fun y hy => ?_), fun j => ?_⟩
    · have := h4 y hy
      cases y with
      | actions _ => cases this
      | deposit _ _ => cases this
      | takeNft _ _ => cases this
      | custom n =>
        have hc : (toItem c x (.custom n)).batch = none ∧ ∀ id, (toItem c x (.custom n)).payment id = none := by
          show (match c.decode n with | some (some m) => Item.call c.self m | _ => .other : Item).batch = none ∧ ∀ id,
            (match c.decode n with | some (some m) => Item.call c.self m | _ => .other : Item).payment id = none
          split <;> exact ⟨rfl, fun _ => rfl⟩
        exact ⟨rfl, hc⟩
      | _ => exact ⟨rfl, rfl, fun _ => rfl⟩
    · show isExec (r1.1.infos.get j) = _
      rw [h3.same]
  | deployInitial =>
    simp only [Controller.exec, bind_ok_iff, pure_ok_iff] at h
    obtain ⟨r1, h1, rfl⟩ := h
    obtain ⟨_, _, rfl⟩ := Controller.deployInitial_ok_iff.1 h1
    refine and_assoc.1 ⟨hsubs (fun y hy => ?_), fun _ => rfl⟩
    obtain ⟨z, _, rfl⟩ := List.mem_map.1 hy
    exact ⟨rfl, rfl, fun _ => rfl⟩

theorem entire_eq (a : Controller.DepositAsset) (to : Addr) : Controller.depositTransfers a to = entire to a := by
  cases a <;> rfl

theorem sendDeposit_pend (c : Cfg) (x : Member) (id j : Nat) (a : Controller.DepositAsset) (to : Addr) :
    pend ((Controller.sendDeposit id a to).map (toItem c x)) j = (if id = j then entire to a else []) ∧
    queued ((Controller.sendDeposit id a to).map (toItem c x)) j = 0 ∧
    (Controller.sendDeposit id a to).filterMap eventOf = [] := by
  unfold Controller.sendDeposit pend
  rw [entire_eq]
  refine ⟨?_, queued_quiet ?_ _, ?_⟩
  · rw [List.map_map, List.filterMap_map]
    by_cases hj : id = j
    · rw [if_pos hj]
      have : ((Item.payment j) ∘ ((toItem c x) ∘ Sub.deposit id)) = some := by
        funext t
        show (if id = j then some t else none) = some t
        rw [if_pos hj]
      rw [this, List.filterMap_some]
    · rw [if_neg hj, List.filterMap_eq_nil_iff]
      intro t _
      show (if id = j then some t else none) = none
      rw [if_neg hj]
  · intro i hi
    rw [List.map_map] at hi
    obtain ⟨t, _, rfl⟩ := List.mem_map.1 hi
    rfl
  · rw [List.filterMap_map, List.filterMap_eq_nil_iff]
    intro t _
    rfl

/-- The sub-messages of a resolution. -/
theorem outcome_pend {e : Controller.Env} (c : Cfg) (hc : e.comps = c.comps) (x : Member) (id j : Nat) (i : Info)
    (st : Gov.Status) (hst : ∀ z, st ≠ .inProgress z) (hf : i.type = .council → i.deposit = none) :
    pend ((Controller.outcomeSubs e id i st).map (toItem c x)) j =
      (if id = j then owed c.comps.treasury i st else []) ∧
    queued ((Controller.outcomeSubs e id i st).map (toItem c x)) j = (if id = j ∧ isPassed st = true then 1 else 0) ∧
    ((Controller.outcomeSubs e id i st).filterMap eventOf) = if isPassed st then [.sent id] else [] := by
  have hret : pend ((Controller.returnDeposit id i).map (toItem c x)) j =
      (if id = j then (match i.deposit with | none => [] | some d => entire d.depositor d.asset) else []) ∧
    queued ((Controller.returnDeposit id i).map (toItem c x)) j = 0 ∧
    (Controller.returnDeposit id i).filterMap eventOf = [] := by
    unfold Controller.returnDeposit
    cases i.deposit with
    | none => exact ⟨by simp [pend], rfl, rfl⟩
    | some d => exact sendDeposit_pend c x id j _ _
  cases st with
  | inProgress z => exact absurd rfl (hst z)
  | passed o n =>
    show pend (Item.actions id :: ((Controller.returnDeposit id i).map (toItem c x))) j = _ ∧
      queued (Item.actions id :: ((Controller.returnDeposit id i).map (toItem c x))) j = _ ∧
      Event.sent id :: (Controller.returnDeposit id i).filterMap eventOf = _
    rw [pend_cons, queued_cons, hret.1, hret.2.1, hret.2.2]
    refine ⟨?_, ?_, rfl⟩
    · unfold owed forfeits
      simp only [Item.payment, Option.toList_none, List.nil_append, Bool.false_eq_true, if_false]
      cases i.deposit <;> rfl
    · simp [Item.batch, isPassed]
  | rejected rs =>
    show pend ((Controller.rejectedDeposit e id i rs).map (toItem c x)) j = _ ∧
      queued ((Controller.rejectedDeposit e id i rs).map (toItem c x)) j = _ ∧
      (Controller.rejectedDeposit e id i rs).filterMap eventOf = _
    unfold Controller.rejectedDeposit
    cases ht : i.type with
    | council =>
      simp only [owed, hf ht, isPassed]
      exact ⟨by simp [pend], by simp [queued], rfl⟩
    | general =>
      simp only
      by_cases hr : rs = .quorumNotReached ∨ rs = .isVetoOutcome
      · have hfo : forfeits (.rejected rs) = true := by rcases hr with rfl | rfl <;> rfl
        rw [if_pos hr]
        unfold owed
        rw [hfo]
        cases i.deposit with
        | none => exact ⟨by simp [pend], by simp [queued, isPassed], rfl⟩
        | some d =>
          obtain ⟨h1, h2, h3⟩ := sendDeposit_pend c x id j d.asset e.comps.treasury
          exact ⟨by rw [h1, hc]; simp only [if_true], by simp [h2, isPassed], by simp [h3, isPassed]⟩
      · have hfo : forfeits (.rejected rs) = false := by
          cases rs <;> first | rfl | exact absurd (Or.inl rfl) hr | exact absurd (Or.inr rfl) hr
        rw [if_neg hr]
        unfold owed
        rw [hfo]
        refine ⟨hret.1.trans ?_, by rw [hret.2.1]; simp [isPassed], by rw [hret.2.2]; simp [isPassed]⟩
        cases i.deposit <;> rfl

/-- Every message. -/
theorem added {c : Cfg} {w w1 : World} {a : Addr} {m : Msg} {subs : List Item} (hb : Base c w)
    (room : w.gov.pollCount + 1 < 2 ^ 64) (h : Handled c w a m w1 subs) (id : Nat) : Added c w w1 m subs id := by
  rcases h.kind with ⟨e, m', r, rfl, hx⟩ | ⟨hm, h1, h2, h3⟩
  · have hw := hx.world
    have hsub := hx.subs
    by_cases hm : ∃ j, m' = .execute j
    · obtain ⟨j, rfl⟩ := hm
      have hr := hx.exec
      simp only [Controller.exec] at hr
      obtain ⟨_, i, p, hi, hp, hne, _, _, _, _, rfl⟩ := Controller.executeProposal_ok_iff.1 hr
      simp only at hw hsub
      obtain ⟨h1, h2, h3⟩ := outcome_pend (e := c.env e w) c rfl w.mem j id i
        (p.finalStatus (Controller.endTotal (c.env e w) p i.type))
        (fun z => Gov.finalStatus_not_inProgress _ _ _) (fun ht => (hb.ctl.free j i hi ht).1)
      rw [h3] at hw
      have hlog : w1.log = w.log ++ if isPassed (p.finalStatus (Controller.endTotal (c.env e w) p i.type)) = true
          then [.sent j] else [] := by
        rw [hw]; simp only [ranOf, List.append_nil]
      have hpaid : paidOut w1 id = paidOut w id := by
        unfold paidOut
        rw [hlog]
        split <;> simp [Event.transferOf]
      have hran : ranCount w1 id = ranCount w id := by
        unfold ranCount
        rw [hlog]
        split <;> simp
      have hsent : sentCount w1 id = sentCount w id +
          if j = id ∧ isPassed (p.finalStatus (Controller.endTotal (c.env e w) p i.type)) = true then 1 else 0 := by
        unfold sentCount
        rw [hlog]
        split <;> rename_i hq <;> simp [hq, List.count_cons]
      refine ⟨hpaid, ?_, ?_, ?_, by rw [hran]; simp [Msg.runs]⟩
      all_goals
        first
          | rw [hsub, h1]
          | rw [hsub, h2]
          | rw [hsent]
        by_cases hj : j = id
        · subst hj
          have hxw : executed w j = false := by unfold executed; rw [hi]; simp only [isExec, hne]; rfl
          have hinf : w1.ctl.infos.get j = some { i with executedAt := some w.block } := by
            rw [hw]; exact Map.get_set_self _ _ _
          have hpol : w1.gov.polls.get j = some { p with status := p.finalStatus (Controller.endTotal (c.env e w) p i.type) } := by
            rw [hw]; exact Map.get_set_self _ _ _
          simp only [hxw, due, batches, hinf, hpol, Option.isSome_some, if_true, true_and, Bool.true_and]
          rfl
        · have hsame : executed w1 id = executed w id := by
            unfold executed
            have : w1.ctl.infos.get id = w.ctl.infos.get id := by
              rw [hw]; exact Map.get_set_ne _ _ hj
            rw [this]
          cases hxw : executed w id with
          | true => simp [hj]
          | false =>
            rw [hxw] at hsame
            simp [hj, due_nil (c := c) hsame]
    · have hm' : ∀ j, m' ≠ .execute j := fun j hj => hm ⟨j, hj⟩
      have hfresh : m'.isCreate = true → w.ctl.infos.get r.2.1.pollCount = none := by
        intro hc
        obtain ⟨i, cp, h1, _⟩ := Controller.created_exec hc hx.exec
        obtain ⟨_, h3, _, h4⟩ := CtlInv.created (e := c.env e w) hb.ctl h1 room
        rw [h3]; exact h4
      obtain ⟨h1, h2, h3⟩ := ctl_quiet (c := c) w.mem hm' hfresh hx.exec
      rw [h1] at hw
      have hlog : w1.log = w.log ++ ranOf m' := by rw [hw]; simp only [List.append_nil]
      have hran : ranOf m' = [] ∨ ∃ j, m' = .executeActions j := by
        cases m' <;> first | exact Or.inl rfl | exact Or.inr ⟨_, rfl⟩
      have hlg : paidOut w1 id = paidOut w id ∧ sentCount w1 id = sentCount w id ∧
          ranCount w1 id = ranCount w id + (if (Msg.ctl m').runs = some id then 1 else 0) := by
        unfold paidOut sentCount ranCount
        rw [hlog]
        rcases hran with hr | ⟨j, rfl⟩
        · rw [hr]
          refine ⟨by simp, by simp, ?_⟩
          have : (Msg.ctl m').runs = none := by cases m' <;> first | rfl | cases hr
          simp [this]
        · refine ⟨by simp [ranOf, Event.transferOf], by simp [ranOf], ?_⟩
          by_cases hj : j = id
          · subst hj; simp [ranOf, Msg.runs]
          · simp [ranOf, Msg.runs, hj, List.count_cons]
      refine added_quiet ?_ hlg.1 ?_ hlg.2.1 ?_ hlg.2.2
      · unfold executed
        rw [hw]
        exact h3 id
      · rw [hsub]; exact pend_quiet (fun i hi => (h2 i hi).2) _
      · rw [hsub]; exact queued_quiet (fun i hi => (h2 i hi).1) _
  · refine added_quiet ?_ (paidOut_same h2 id) ?_ ?_ ?_ ?_
    · unfold executed; rw [h1]
    · exact pend_quiet (fun i hi id => by rw [h3 i hi]; rfl) _
    · unfold sentCount; rw [h2]
    · exact queued_quiet (fun i hi => by rw [h3 i hi]; rfl) _
    · unfold ranCount
      have : m.runs = none := by
        cases m with
        | ctl m' => exact absurd rfl (hm m')
        | _ => rfl
      rw [h2, this]; simp

/-- What an execution adds to the events: deposits and dispatches of the proposals it resolves, and of those waiting in
its queue. -/
structure Ledger (c : Cfg) (w : World) (l : List Item) (w' : World) (id : Nat) : Prop where
  paid : (executed w id = true → paidOut w' id = paidOut w id ++ pend l id) ∧
    (executed w id = false → pend l id = [] → paidOut w' id = paidOut w id ++ due c w' id)
  sent : sentCount w' id = sentCount w id + (if executed w id then 0 else batches w' id)
  ran : ranCount w' id + sentCount w id ≤ ranCount w id + sentCount w' id + queued l id

theorem Ledger.comp {c : Cfg} {w w1 w2 : World} {a b : List Item} {id : Nat} (hb : Base c w1) (h1 : Moved w w1)
    (h2 : Moved w1 w2) (ha : Ledger c w a w1 id) (hb' : Ledger c w1 b w2 id) : Ledger c w (a ++ b) w2 id := by
  have hp : pend (a ++ b) id = pend a id ++ pend b id := List.filterMap_append
  have hq : queued (a ++ b) id = queued a id + queued b id := by
    unfold queued
    rw [List.filterMap_append, List.count_append]
  refine ⟨⟨fun hx => ?_, fun hx hn => ?_⟩, ?_, ?_⟩
  · rw [hb'.paid.1 (executed_mono h1 hx), ha.paid.1 hx, hp, List.append_assoc]
  · rw [hp] at hn
    obtain ⟨na, nb⟩ := List.append_eq_nil_iff.1 hn
    have e1 := ha.paid.2 hx na
    cases hx1 : executed w1 id with
    | true =>
      rw [hb'.paid.1 hx1, e1, nb, List.append_nil, (resolved_stable hb h2 hx1).1]
    | false =>
      rw [hb'.paid.2 hx1 nb, e1, (due_nil (c := c) hx1).1, List.append_nil]
  · rw [hb'.sent, ha.sent]
    cases hx : executed w id with
    | true => rw [executed_mono h1 hx]; rfl
    | false =>
      cases hx1 : executed w1 id with
      | true => simp [(resolved_stable hb h2 hx1).2]
      | false => simp [(due_nil (c := c) hx1).2]
  · have := ha.ran
    have := hb'.ran
    omega

theorem Ledger.handled {c : Cfg} {w w1 w2 : World} {a : Addr} {m : Msg} {subs : List Item} {id : Nat}
    (hh : Handled c w a m w1 subs) (hm : Moved w1 w2) (hd : Added c w w1 m subs id)
    (h : Ledger c w1 subs w2 id) :
    (executed w id = true → paidOut w2 id = paidOut w id) ∧
    (executed w id = false → paidOut w2 id = paidOut w id ++ due c w2 id) ∧
    sentCount w2 id = sentCount w id + (if executed w id then 0 else batches w2 id) ∧
    ranCount w2 id + sentCount w id ≤ ranCount w id + sentCount w2 id + (if m.runs = some id then 1 else 0) := by
  refine ⟨fun hx => ?_, fun hx => ?_, ?_, ?_⟩
  · rw [h.paid.1 (executed_mono hh.moved hx), hd.paid, hd.pend, hx]
    simp
  · have hp := hd.pend
    rw [hx] at hp
    simp only [Bool.false_eq_true, if_false] at hp
    cases hx1 : executed w1 id with
    | true =>
      rw [h.paid.1 hx1, hd.paid, hp, (resolved_stable hh.base hm hx1).1]
    | false =>
      rw [(due_nil (c := c) hx1).1] at hp
      rw [h.paid.2 hx1 hp, hd.paid]
  · rw [h.sent, hd.sent]
    cases hx : executed w id with
    | true => rw [executed_mono hh.moved hx]; rfl
    | false =>
      cases hx1 : executed w1 id with
      | true => simp [(resolved_stable hh.base hm hx1).2]
      | false => simp [(due_nil (c := c) hx1).2]
  · have h1 := h.ran
    have h2 := hd.ran
    have h3 := hd.queued
    have h4 := hd.sent
    omega

theorem ledger_cases (c : Cfg) (id : Nat) : Cases c (fun w l w' => Ledger c w l w' id) := by
  have hsingle : ∀ {w w2 : World} {i : Item}, i.payment id = none →
      (executed w id = true → paidOut w2 id = paidOut w id) →
      (executed w id = false → paidOut w2 id = paidOut w id ++ due c w2 id) →
      sentCount w2 id = sentCount w id + (if executed w id then 0 else batches w2 id) →
      ranCount w2 id + sentCount w id ≤ ranCount w id + sentCount w2 id + queued [i] id →
      Ledger c w [i] w2 id := by
    intro w w2 i hi h1 h2 h3 h4
    refine ⟨⟨fun hx => ?_, fun hx _ => h2 hx⟩, h3, h4⟩
    rw [h1 hx, pend_cons, hi]
    simp [pend]
  refine ⟨?_, ?_, ?_, ?_, ?_, ?_⟩
  · intro w _
    refine ⟨⟨fun _ => by simp [pend], fun hx _ => by simp [(due_nil (c := c) hx).1]⟩, ?_, by simp [queued]⟩
    cases hx : executed w id with
    | true => rfl
    | false => simp [(due_nil (c := c) hx).2]
  · intro w w1 w2 w3 a m subs rest e hb b2 b3 m2 m3 hk room _ hh p2 p3
    obtain ⟨h1, h2, h3, h4⟩ := Ledger.handled hh m2 (added hb room hh id) p2
    refine Ledger.comp (a := [.call a m]) b2 (hh.moved.trans m2) m3 (hsingle rfl h1 h2 h3 ?_) p3
    have hr : (if m.runs = some id then 1 else 0) = 0 := by
      rw [if_neg]
      intro hr
      have hm : m = .ctl (.executeActions id) := by
        unfold Msg.runs at hr
        split at hr
        · cases hr; rfl
        · cases hr
      subst hm
      rcases hk with hk | ⟨_, hk⟩
      · rcases hh.kind with ⟨e', m', r, hm', hx⟩ | ⟨hm', _⟩
        · cases hm'
          have hx := hx.exec
          simp only [Controller.exec, bind_ok_iff, pure_ok_iff] at hx
          obtain ⟨r1, hx, _⟩ := hx
          exact hk.1 (Controller.executeActions_ok_iff.1 hx).1
        · exact absurd rfl (hm' _)
      · cases hk
    rw [hr] at h4
    exact Nat.le_trans h4 (Nat.le_add_right _ _)
  · intro w w1 w2 w3 j subs rest e hb b2 b3 m2 m3 room _ hh p2 p3
    obtain ⟨h1, h2, h3, h4⟩ := Ledger.handled hh m2 (added hb room hh id) p2
    refine Ledger.comp (a := [.actions j]) b2 (hh.moved.trans m2) m3 (hsingle rfl h1 h2 h3 ?_) p3
    rw [queued_cons]
    exact h4
  · intro w w1 j rest hb b1 p
    refine ⟨⟨fun hx => ?_, fun hx hn => ?_⟩, p.sent, ?_⟩
    · rw [p.paid.1 hx, pend_cons]; rfl
    · rw [pend_cons] at hn
      exact p.paid.2 hx hn
    · rw [queued_cons]
      have := p.ran
      omega
  · intro w w1 w2 j t calls rest hb b1 b2 hc m1 m2 p1 p2
    obtain ⟨q1, q2⟩ := calls_quiet hc id
    have hw : executed { w with log := w.log ++ [.paid j t] } id = executed w id := rfl
    have hlog : paidOut { w with log := w.log ++ [.paid j t] } id = paidOut w id ++ if j = id then [t] else [] := by
      unfold paidOut
      rw [List.filterMap_append]
      congr 1
      by_cases hj : j = id <;> simp [Event.transferOf, hj]
    refine Ledger.comp (a := [.deposit j t]) b1 m1 m2 ⟨⟨fun hx => ?_, fun hx hn => ?_⟩, ?_, ?_⟩ p2
    · rw [p1.paid.1 hx, q1, hlog, pend_cons]
      by_cases hj : j = id <;> simp [Item.payment, hj, pend]
    · rw [p1.paid.2 hx q1, hlog]
      have : ¬ j = id := by
        intro hj
        simp [pend_cons, Item.payment, hj] at hn
      simp [this]
    · have := p1.sent
      rw [hw] at this
      rw [this]
      simp [sentCount]
    · have := p1.ran
      simp only [ranCount, sentCount, List.count_append] at this ⊢
      rw [q2] at this
      simp at this
      omega
  · intro w w1 w2 calls rest hb b1 b2 hc m1 m2 p1 p2
    obtain ⟨q1, q2⟩ := calls_quiet hc id
    refine Ledger.comp (a := [.other]) b1 m1 m2 (hsingle rfl (fun hx => ?_) (fun hx => p1.paid.2 hx q1) p1.sent ?_) p2
    · rw [p1.paid.1 hx, q1, List.append_nil]
    · have := p1.ran
      omega

/-- The events of a DAO: every proposal that was resolved had its deposit paid to whom it is owed, and its actions
dispatched once if it passed; no others. -/
theorem Reachable.ledger {c : Cfg} (hw : c.Wf) (ht : c.Tame) {w : World} (h : Reachable c w) (id : Nat) :
    paidOut w id = due c w id ∧ sentCount w id = batches w id ∧ ranCount w id ≤ sentCount w id := by
  induction h with
  | @init w h =>
    have hx : executed w id = false := by
      obtain ⟨cfg, spec, tr, hc⟩ := h.ctl
      obtain ⟨_, _, h3⟩ := Controller.init_ok hc
      unfold executed
      rw [h3]; rfl
    obtain ⟨h1, h2⟩ := due_nil (c := c) hx
    rw [h1, h2]
    unfold paidOut sentCount ranCount
    rw [h.log]
    exact ⟨rfl, rfl, Nat.le_refl _⟩
  | @tx w w1 a m h ha hx ih =>
    obtain ⟨i1, i2, i3⟩ := ih
    have hb := h.base hw ht
    obtain ⟨hb1, hm, hl⟩ := hx.induct hw ht (ledger_cases c id)
      (fun i hi => by rw [List.mem_singleton.1 hi]; exact Or.inl ha) hb
    have hq : queued [.call a m] id = 0 := rfl
    refine ⟨?_, ?_, ?_⟩
    · cases hxw : executed w id with
      | true => rw [hl.paid.1 hxw, i1, (resolved_stable hb hm hxw).1]; simp [pend, Item.payment]
      | false => rw [hl.paid.2 hxw rfl, i1, (due_nil (c := c) hxw).1]; rfl
    · rw [hl.sent, i2]
      cases hxw : executed w id with
      | true => rw [(resolved_stable hb hm hxw).2]; rfl
      | false => simp [(due_nil (c := c) hxw).2]
    · have := hl.ran
      omega
  | block h _ _ ih => exact ih

end Verif.Dao
