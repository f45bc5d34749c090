import Verif.Dao.Lemmas5

/-!
# The contracts of a DAO together: what holds whatever the custom messages of proposals are

Dispatch of actions and payment of deposits, without the assumption `Tame`.
-/

set_option linter.unusedSimpArgs false

namespace Verif.Dao
open Verif
open Verif.Controller (Info Transfer Sub)

/-- Proposals have ids that were given out, and council proposals have no deposit. -/
structure Good (w : World) : Prop where
  below : ∀ id i, w.ctl.infos.get id = some i → id ≤ w.gov.pollCount
  free : ∀ id i, w.ctl.infos.get id = some i → i.type = .council → i.deposit = none

theorem updateVotes_count {g g' : Gov.State} {now : Nat} {v : Addr} {a : Nat}
    (h : Gov.updateVotes g now v a = .ok g') : g'.pollCount = g.pollCount := by
  unfold Gov.updateVotes at h
  refine Gov.foldlM_inv _ (fun x => x.pollCount = g.pollCount) ?_ _ _ _ rfl h
  intro x u x' hx hu
  rcases Gov.updateVote_cases hu with rfl | hc
  · exact hx
  · rw [(Gov.castVote_pollCount hc).1, hx]

theorem gov_count_le {g g' : Gov.State} {c : Gov.Call} (room : g.pollCount + 1 < 2 ^ 64) (h : Gov.exec g c = .ok g') :
    g.pollCount ≤ g'.pollCount := by
  unfold Gov.exec at h
  rw [ite_ok_iff] at h
  obtain ⟨_, h⟩ := h
  cases hm : c.msg with
  | createPoll p =>
    rw [hm] at h
    obtain ⟨_, _, rfl⟩ := Gov.createPoll_ok_iff.1 h
    simp only [wadd64_of_lt room]
    omega
  | castVote i o v a =>
    rw [hm] at h
    rw [(Gov.castVote_pollCount h).1]
  | updateVotes v a =>
    rw [hm] at h
    rw [updateVotes_count h]
  | endPoll i m e a =>
    rw [hm] at h
    obtain ⟨_, _, _, _, rfl⟩ := Gov.endPoll_ok_iff.1 h
    exact le_refl _

theorem updateAll_count {e : Controller.Env} {g g' : Gov.State} {l : List WeightChange}
    (h : Controller.updateAllVotes e g l = .ok g') : g'.pollCount = g.pollCount := by
  unfold Controller.updateAllVotes at h
  refine Gov.foldlM_inv _ (fun x => x.pollCount = g.pollCount) ?_ _ _ _ rfl h
  intro x u x' hx hu
  unfold Gov.exec at hu
  rw [ite_ok_iff] at hu
  rw [updateVotes_count hu.2, hx]

/-- The messages of a membership contract touch neither the controller nor the log, and contain no resolution. -/
theorem deliver_plain {c : Cfg} {e : Ext} {a : Addr} : ∀ (outs : List Out) {w : World} {r : World × List Item},
    deliver c e a w outs = .ok r → r.1.ctl = w.ctl ∧ r.1.log = w.log ∧ r.1.gov.pollCount = w.gov.pollCount ∧
      ∀ i ∈ r.2, i.batch = none ∧ ∀ id, i.payment id = none := by
  have hout : ∀ o : Out, (outItem c a o).batch = none ∧ ∀ id, (outItem c a o).payment id = none := by
    intro o
    cases o with
    | notify h l =>
      by_cases hs : h = c.self
      · simp only [outItem, if_pos hs]; exact ⟨rfl, fun _ => rfl⟩
      · simp only [outItem, if_neg hs]; exact ⟨rfl, fun _ => rfl⟩
    | pay _ _ => exact ⟨rfl, fun _ => rfl⟩
    | sendNft _ _ => exact ⟨rfl, fun _ => rfl⟩
  have hmap : ∀ (l : List Out), ∀ i ∈ l.map (outItem c a), i.batch = none ∧ ∀ id, i.payment id = none := by
    intro l i hi
    obtain ⟨o, _, rfl⟩ := List.mem_map.1 hi
    exact hout o
  intro outs
  induction outs with
  | nil => intro w r h; cases h; exact ⟨rfl, rfl, rfl, fun i hi => (by cases hi)⟩
  | cons o t ih =>
    intro w r h
    cases o with
    | pay x y => cases h; exact ⟨rfl, rfl, rfl, hmap (.pay x y :: t)⟩
    | sendNft x y => cases h; exact ⟨rfl, rfl, rfl, hmap (.sendNft x y :: t)⟩
    | notify x l =>
      unfold deliver at h
      by_cases hx : x = c.self
      · rw [if_pos hx] at h
        simp only [bind_ok_iff] at h
        obtain ⟨r1, h1, d, _, h2⟩ := h
        obtain ⟨a1, a2, a3, a4⟩ := ih h2
        refine ⟨a1, a2, ?_, a4⟩
        rw [a3]
        rcases Controller.weightsChanged_ok_iff.1 h1 with ⟨_, rfl⟩ | ⟨_, _, h3, _⟩
        · rfl
        · exact updateAll_count h3
      · rw [if_neg hx] at h
        cases h
        refine ⟨rfl, rfl, rfl, fun i hi => ?_⟩
        rcases List.mem_cons.1 hi with rfl | hi
        · exact ⟨rfl, fun _ => rfl⟩
        · exact hmap t i hi

/-- The deposit recorded for a proposal. -/
def depositOf (w : World) (id : Nat) : Option Controller.Deposit := (w.ctl.infos.get id).bind (·.deposit)

/-- What a message does to the records of one proposal: nothing, or it resolves the proposal. -/
structure Once (c : Cfg) (w w1 : World) (subs : List Item) (id : Nat) : Prop where
  good : Good w1
  kept : w.ctl.infos.has id = true → depositOf w1 id = depositOf w id
  paid : paidOut w1 id = paidOut w id
  done : executed w id = true → executed w1 id = true ∧ pend subs id = [] ∧ sentCount w1 id = sentCount w id
  open_ : executed w id = false →
    (executed w1 id = false ∧ pend subs id = [] ∧ sentCount w1 id = sentCount w id) ∨
    (executed w1 id = true ∧ ∃ i st, w.ctl.infos.get id = some i ∧ (∀ z, st ≠ .inProgress z) ∧
      pend subs id = owed c.comps.treasury i st ∧ sentCount w1 id = sentCount w id + (if isPassed st then 1 else 0))

theorem Once.quiet {c : Cfg} {w w1 : World} {subs : List Item} {id : Nat} (hg : Good w1)
    (hk : w.ctl.infos.has id = true → depositOf w1 id = depositOf w id) (hx : executed w1 id = executed w id)
    (hp : paidOut w1 id = paidOut w id) (hs : sentCount w1 id = sentCount w id) (hq : pend subs id = []) :
    Once c w w1 subs id :=
  ⟨hg, hk, hp, fun h => ⟨hx.trans h, hq, hs⟩, fun h => Or.inl ⟨hx.trans h, hq, hs⟩⟩

theorem Once.same {c : Cfg} {w w1 : World} {subs : List Item} {id : Nat} (hg : Good w) (hc : w1.ctl = w.ctl)
    (hl : w1.log = w.log) (hn : w.gov.pollCount ≤ w1.gov.pollCount) (hs : ∀ i ∈ subs, ∀ id, i.payment id = none) :
    Once c w w1 subs id := by
  refine Once.quiet ⟨?_, ?_⟩ (fun _ => by unfold depositOf; rw [hc]) (by unfold executed; rw [hc])
    (by unfold paidOut; rw [hl]) (by unfold sentCount; rw [hl]) (pend_quiet hs id)
  · intro j i hi
    rw [hc] at hi
    exact le_trans (hg.below j i hi) hn
  · intro j i hi
    rw [hc] at hi
    exact hg.free j i hi

/-- The infos of the controller after a message other than `ExecuteProposal`. -/
theorem ctl_infos {e : Controller.Env} {u : Addr} {s : Controller.State} {g : Gov.State} {m : Controller.Msg}
    {r : Controller.State × Gov.State × List Sub} (hm : ∀ id, m ≠ .execute id) (room : g.pollCount + 1 < 2 ^ 64)
    (h : Controller.exec e u s g m = .ok r) :
    (m.isCreate = true ∧ r.2.1.pollCount = g.pollCount + 1 ∧ ∃ i, r.1.infos = s.infos.set (g.pollCount + 1) i ∧
        (i.type = .council → i.deposit = none)) ∨
    (m.isCreate = false ∧ r.2.1.pollCount = g.pollCount ∧ ∀ id, (r.1.infos.get id).map (fun i => (i.type, i.deposit)) =
      (s.infos.get id).map (fun i => (i.type, i.deposit))) := by
  have hcreate : m.isCreate = true → r.2.1.pollCount = g.pollCount + 1 ∧
      ∃ i, r.1.infos = s.infos.set (g.pollCount + 1) i ∧ (i.type = .council → i.deposit = none) := by
    intro hc
    obtain ⟨i, cp, h1, _⟩ := Controller.created_exec hc h
    obtain ⟨_, _, h6⟩ := Gov.createPoll_ok_iff.1 h1.poll
    rw [wadd64_of_lt room] at h6
    have hcount : r.2.1.pollCount = g.pollCount + 1 := by rw [h6]
    refine ⟨hcount, i, ?_, fun ht => (h1.council ht).1⟩
    rw [h1.state, hcount]
    rfl
  cases m with
  | createProposal p f => exact Or.inl ⟨rfl, hcreate rfl⟩
  | createWithNft p l => exact Or.inl ⟨rfl, hcreate rfl⟩
  | createCouncil p => exact Or.inl ⟨rfl, hcreate rfl⟩
  | receive f a p => exact Or.inl ⟨rfl, hcreate rfl⟩
  | castVote id o =>
    simp only [Controller.exec, bind_ok_iff, pure_ok_iff] at h
    obtain ⟨r1, h1, rfl⟩ := h
    obtain ⟨_, _, i, p, q, hi, _, _, _, hg, _, hs⟩ := Controller.castVote_ok_iff.1 h1
    refine Or.inr ⟨rfl, (Gov.castVote_pollCount hg).1, fun j => ?_⟩
    show (r1.1.infos.get j).map _ = _
    rw [hs]
    unfold Controller.voted
    split
    · unfold Controller.restartCooldown
      split
      · simp only [Map.get_set]
        by_cases hj : id = j
        · subst hj
          rw [if_pos rfl, hi]; rfl
        · rw [if_neg hj]
      · rfl
    · rfl
  | castCouncilVote id o =>
    simp only [Controller.exec, bind_ok_iff, pure_ok_iff] at h
    obtain ⟨r1, h1, rfl⟩ := h
    obtain ⟨_, _, _, i, hi, _, hadm, hg, hs⟩ := Controller.castCouncilVote_ok_iff.1 h1
    refine Or.inr ⟨rfl, (Gov.castVote_pollCount hg).1, fun j => ?_⟩
    show (r1.1.infos.get j).map _ = _
    rw [hs]
  | execute id => exact absurd rfl (hm id)
  | weightsChanged l =>
    simp only [Controller.exec, bind_ok_iff, pure_ok_iff] at h
    obtain ⟨r1, h1, rfl⟩ := h
    refine Or.inr ⟨rfl, ?_, fun _ => rfl⟩
    rcases Controller.weightsChanged_ok_iff.1 h1 with ⟨_, rfl⟩ | ⟨_, _, h2, _⟩
    · rfl
    · exact updateAll_count h2
  | executeActions id =>
    simp only [Controller.exec, bind_ok_iff, pure_ok_iff] at h
    obtain ⟨r1, h1, rfl⟩ := h
    obtain ⟨_, i, _, h2⟩ := Controller.executeActions_ok_iff.1 h1
    refine Or.inr ⟨rfl, rfl, fun j => ?_⟩
    show (r1.1.infos.get j).map _ = _
    rw [(Controller.actAll_ok _ h2).1.same]
  | deployInitial =>
    simp only [Controller.exec, bind_ok_iff, pure_ok_iff] at h
    obtain ⟨r1, h1, rfl⟩ := h
    obtain ⟨_, _, rfl⟩ := Controller.deployInitial_ok_iff.1 h1
    exact Or.inr ⟨rfl, rfl, fun _ => rfl⟩

theorem handle_once {c : Cfg} {e : Ext} {w w1 : World} {a : Addr} {m : Msg} {subs : List Item} (hg : Good w)
    (room : w.gov.pollCount + 1 < 2 ^ 64) (hr : handle c e w a m = .ok (w1, subs)) (id : Nat) :
    Once c w w1 subs id := by
  cases m with
  | gov m =>
    simp only [handle, bind_ok_iff, pure_ok_iff] at hr
    obtain ⟨g, h1, h2⟩ := hr
    cases h2
    exact Once.same hg rfl rfl (gov_count_le room h1) (fun i hi => by cases hi)
  | dist m =>
    simp only [handle, bind_ok_iff, pure_ok_iff] at hr
    obtain ⟨x, _, h2⟩ := hr
    cases h2
    refine Once.same hg rfl rfl (le_refl _) (fun i hi => ?_)
    obtain ⟨_, _, rfl⟩ := List.mem_map.1 hi
    exact fun _ => rfl
  | mem m =>
    simp only [handle, bind_ok_iff] at hr
    obtain ⟨x, _, h2⟩ := hr
    obtain ⟨a1, a2, a3, a4⟩ := deliver_plain _ h2
    exact Once.same hg a1 a2 (le_of_eq a3.symm) (fun i hi => (a4 i hi).2)
  | council m =>
    simp only [handle, bind_ok_iff] at hr
    obtain ⟨x, _, h2⟩ := hr
    obtain ⟨a1, a2, a3, a4⟩ := deliver_plain _ h2
    exact Once.same hg a1 a2 (le_of_eq a3.symm) (fun i hi => (a4 i hi).2)
  | ctl m =>
    obtain ⟨r, hx⟩ := handle_ctl hr
    have hw1 := hx.world
    have hsub := hx.subs
    have hex := hx.exec
    simp only at hw1 hsub
    have hpaid : paidOut w1 id = paidOut w id := by
      unfold paidOut
      rw [hw1]
      simp only [List.filterMap_append]
      have h1 : (ranOf m).filterMap (Event.transferOf id) = [] := by cases m <;> rfl
      have h2 : (r.2.2.filterMap eventOf).filterMap (Event.transferOf id) = [] := by
        rw [List.filterMap_eq_nil_iff]
        intro ev hev
        obtain ⟨s, _, hs⟩ := List.mem_filterMap.1 hev
        cases s <;> cases hs
        rfl
      rw [h1, h2]
      simp
    by_cases hm : ∃ j, m = .execute j
    · obtain ⟨j, rfl⟩ := hm
      simp only [Controller.exec] at hex
      obtain ⟨_, i, p, hi, hp, hn, _, _, _, _, rfl⟩ := Controller.executeProposal_ok_iff.1 hex
      have hni := Gov.finalStatus_not_inProgress p (Controller.endTotal (c.env e w) p i.type)
      obtain ⟨o1, _, o3⟩ := outcome_pend (e := c.env e w) c rfl w.mem j id i
        (p.finalStatus (Controller.endTotal (c.env e w) p i.type)) hni (hg.free j i hi)
      have hinf : w1.ctl.infos = w.ctl.infos.set j { i with executedAt := some w.block } := by rw [hw1]; rfl
      have hcnt : w1.gov.pollCount = w.gov.pollCount := by rw [hw1]; rfl
      have hgood : Good w1 := by
        refine ⟨?_, ?_⟩
        · intro k x hk
          rw [hinf, Map.get_set] at hk
          rw [hcnt]
          by_cases hjk : j = k
          · subst hjk; exact hg.below _ i hi
          · rw [if_neg hjk] at hk; exact hg.below k x hk
        · intro k x hk ht
          rw [hinf, Map.get_set] at hk
          by_cases hjk : j = k
          · rw [if_pos hjk] at hk
            cases hk
            exact hg.free j i hi ht
          · rw [if_neg hjk] at hk; exact hg.free k x hk ht
      have hdep : depositOf w1 id = depositOf w id := by
        unfold depositOf
        rw [hinf, Map.get_set]
        by_cases hjk : j = id
        · subst hjk; rw [if_pos rfl, hi]; rfl
        · rw [if_neg hjk]
      have hpend : pend subs id = if j = id then
          owed c.comps.treasury i (p.finalStatus (Controller.endTotal (c.env e w) p i.type)) else [] := by
        rw [hsub]; exact o1
      have hsent : sentCount w1 id = sentCount w id + if j = id ∧
          isPassed (p.finalStatus (Controller.endTotal (c.env e w) p i.type)) = true then 1 else 0 := by
        unfold sentCount
        rw [hw1]
        simp only [o3, ranOf, List.append_nil, List.count_append]
        congr 1
        cases isPassed (p.finalStatus (Controller.endTotal (c.env e w) p i.type)) with
        | false => simp
        | true =>
          simp only [if_true, and_true]
          by_cases hji : j = id
          · subst hji; simp
          · simp [hji]
      by_cases hjk : j = id
      · subst hjk
        have hopen : executed w j = false := by
          unfold executed isExec; rw [hi]; simp only [hn]; rfl
        have hdone : executed w1 j = true := by
          unfold executed isExec
          rw [hinf, Map.get_set, if_pos rfl]
          rfl
        refine ⟨hgood, fun _ => hdep, hpaid, fun h => (by rw [h] at hopen; cases hopen), fun _ => Or.inr ⟨hdone, i, _, hi, hni, ?_, ?_⟩⟩
        · rw [hpend, if_pos rfl]
        · rw [hsent]; simp only [true_and]
      · refine Once.quiet hgood (fun _ => hdep) ?_ hpaid ?_ ?_
        · unfold executed
          rw [hinf, Map.get_set, if_neg hjk]
        · rw [hsent, if_neg (fun hh => hjk hh.1)]; rfl
        · rw [hpend, if_neg hjk]
    · have hm : ∀ j, m ≠ .execute j := fun j hj => hm ⟨j, hj⟩
      have hnone : w.ctl.infos.get (w.gov.pollCount + 1) = none := by
        cases hn : w.ctl.infos.get (w.gov.pollCount + 1) with
        | none => rfl
        | some x => have := hg.below _ x hn; omega
      have hinfos := ctl_infos hm room hex
      have hfresh : m.isCreate = true → w.ctl.infos.get r.2.1.pollCount = none := by
        intro hc
        rcases hinfos with ⟨_, h2, _⟩ | ⟨h2, _⟩
        · rw [h2]; exact hnone
        · rw [hc] at h2; cases h2
      obtain ⟨q1, q2, q3⟩ := ctl_quiet (c := c) w.mem hm hfresh hex
      have hctl : w1.ctl = r.1 := by rw [hw1]
      have hgov : w1.gov = r.2.1 := by rw [hw1]
      refine Once.quiet ?_ ?_ ?_ hpaid ?_ ?_
      · rcases hinfos with ⟨_, h2, i, h3, h4⟩ | ⟨_, h2, h3⟩
        · refine ⟨?_, ?_⟩
          · intro k x hk
            rw [hctl, h3, Map.get_set] at hk
            rw [hgov, h2]
            by_cases hjk : w.gov.pollCount + 1 = k
            · omega
            · rw [if_neg hjk] at hk
              have := hg.below k x hk
              omega
          · intro k x hk ht
            rw [hctl, h3, Map.get_set] at hk
            by_cases hjk : w.gov.pollCount + 1 = k
            · rw [if_pos hjk] at hk; cases hk; exact h4 ht
            · rw [if_neg hjk] at hk; exact hg.free k x hk ht
        · refine ⟨?_, ?_⟩
          · intro k x hk
            have := h3 k
            rw [hctl] at hk
            rw [hk] at this
            cases hk' : w.ctl.infos.get k with
            | none => rw [hk'] at this; cases this
            | some y => rw [hgov, h2]; exact hg.below k y hk'
          · intro k x hk ht
            have := h3 k
            rw [hctl] at hk
            rw [hk] at this
            cases hk' : w.ctl.infos.get k with
            | none => rw [hk'] at this; cases this
            | some y =>
              rw [hk'] at this
              simp only [Option.map_some, Option.some.injEq, Prod.mk.injEq] at this
              rw [this.2]
              exact hg.free k y hk' (this.1 ▸ ht)
      · intro hhas
        unfold depositOf
        rw [hctl]
        rcases hinfos with ⟨_, h2, i, h3, h4⟩ | ⟨_, h2, h3⟩
        · rw [h3, Map.get_set]
          by_cases hjk : w.gov.pollCount + 1 = id
          · subst hjk
            unfold Map.has at hhas
            rw [hnone] at hhas
            cases hhas
          · rw [if_neg hjk]
        · have := h3 id
          cases hk : r.1.infos.get id with
          | none =>
            rw [hk] at this
            cases hk' : w.ctl.infos.get id with
            | none => rfl
            | some y => rw [hk'] at this; cases this
          | some x =>
            rw [hk] at this
            cases hk' : w.ctl.infos.get id with
            | none => rw [hk'] at this; cases this
            | some y =>
              rw [hk'] at this
              simp only [Option.map_some, Option.some.injEq, Prod.mk.injEq] at this
              exact this.2
      · unfold executed
        rw [hctl]
        exact q3 id
      · unfold sentCount
        rw [hw1]
        simp only [q1, List.append_nil, List.count_append]
        have : (ranOf m).count (.sent id) = 0 := by
          cases m <;> simp [ranOf]
        omega
      · rw [hsub]
        exact pend_quiet (fun i hi => (q2 i hi).2) id

/-- The records of one proposal over an execution. -/
structure Track (c : Cfg) (w : World) (l : List Item) (w' : World) (id : Nat) : Prop where
  good : Good w'
  has : w.ctl.infos.has id = true → w'.ctl.infos.has id = true
  kept : w.ctl.infos.has id = true → depositOf w' id = depositOf w id
  done : executed w id = true → executed w' id = true ∧ paidOut w' id = paidOut w id ++ pend l id ∧
    sentCount w' id = sentCount w id
  open_ : executed w id = false → pend l id = [] →
    (executed w' id = false ∧ paidOut w' id = paidOut w id ∧ sentCount w' id = sentCount w id) ∨
    (executed w' id = true ∧ ∃ i st, w'.ctl.infos.get id = some i ∧ (∀ z, st ≠ .inProgress z) ∧
      paidOut w' id = paidOut w id ++ owed c.comps.treasury i st ∧
      sentCount w' id = sentCount w id + (if isPassed st then 1 else 0))

theorem executed_has {w : World} {id : Nat} (h : executed w id = true) : w.ctl.infos.has id = true := by
  unfold executed at h
  unfold Map.has
  cases hi : w.ctl.infos.get id with
  | none => rw [hi] at h; cases h
  | some _ => rfl

theorem owed_congr {t : Addr} {i i' : Info} {st : Gov.Status} (h : i'.deposit = i.deposit) :
    owed t i' st = owed t i st := by
  unfold owed
  rw [h]

theorem depositOf_get {w w' : World} {id : Nat} {i : Info} (hi : w.ctl.infos.get id = some i)
    (hh : w'.ctl.infos.has id = true) (hd : depositOf w' id = depositOf w id) :
    ∃ i', w'.ctl.infos.get id = some i' ∧ i'.deposit = i.deposit := by
  unfold Map.has at hh
  cases hi' : w'.ctl.infos.get id with
  | none => rw [hi'] at hh; cases hh
  | some i' =>
    refine ⟨i', rfl, ?_⟩
    unfold depositOf at hd
    rw [hi, hi'] at hd
    exact hd

theorem Track.refl {c : Cfg} {w : World} (hg : Good w) (id : Nat) : Track c w [] w id :=
  ⟨hg, fun h => h, fun _ => rfl, fun h => ⟨h, (by simp [pend]), rfl⟩, fun h _ => Or.inl ⟨h, rfl, rfl⟩⟩

theorem Track.comp {c : Cfg} {w w1 w2 : World} {a b : List Item} {id : Nat} (h1 : Track c w a w1 id)
    (h2 : Track c w1 b w2 id) : Track c w (a ++ b) w2 id := by
  have hp : pend (a ++ b) id = pend a id ++ pend b id := List.filterMap_append
  refine ⟨h2.good, fun h => h2.has (h1.has h), fun h => (h2.kept (h1.has h)).trans (h1.kept h), ?_, ?_⟩
  · intro hx
    obtain ⟨a1, a2, a3⟩ := h1.done hx
    obtain ⟨b1, b2, b3⟩ := h2.done a1
    exact ⟨b1, by rw [b2, a2, hp, List.append_assoc], by rw [b3, a3]⟩
  · intro hx hq
    rw [hp, List.append_eq_nil_iff] at hq
    rcases h1.open_ hx hq.1 with ⟨a1, a2, a3⟩ | ⟨a1, i, st, a2, a3, a4, a5⟩
    · rcases h2.open_ a1 hq.2 with ⟨b1, b2, b3⟩ | ⟨b1, i, st, b2, b3, b4, b5⟩
      · exact Or.inl ⟨b1, b2.trans a2, b3.trans a3⟩
      · exact Or.inr ⟨b1, i, st, b2, b3, by rw [b4, a2], by rw [b5, a3]⟩
    · obtain ⟨b1, b2, b3⟩ := h2.done a1
      have hhas := executed_has a1
      obtain ⟨i', c1, c2⟩ := depositOf_get a2 (h2.has hhas) (h2.kept hhas)
      refine Or.inr ⟨b1, i', st, c1, a3, ?_, by rw [b3, a5]⟩
      rw [b2, a4, hq.2, List.append_nil, owed_congr c2]

/-- A message followed by its sub-messages. -/
theorem Track.call {c : Cfg} {w w1 w2 : World} {subs : List Item} {id : Nat} (h : Once c w w1 subs id)
    (h1 : Track c w1 subs w2 id) {x : Item} (hx : x.payment id = none)
    (hhas : w.ctl.infos.has id = true → w1.ctl.infos.has id = true) : Track c w [x] w2 id := by
  have hp : pend [x] id = [] := by rw [pend_cons, hx]; rfl
  refine ⟨h1.good, fun hh => h1.has (hhas hh), fun hh => (h1.kept (hhas hh)).trans (h.kept hh), ?_, ?_⟩
  · intro he
    obtain ⟨a1, a2, a3⟩ := h.done he
    obtain ⟨b1, b2, b3⟩ := h1.done a1
    exact ⟨b1, by rw [b2, a2, hp, h.paid], by rw [b3, a3]⟩
  · intro he _
    rcases h.open_ he with ⟨a1, a2, a3⟩ | ⟨a1, i, st, a2, a3, a4, a5⟩
    · rcases h1.open_ a1 a2 with ⟨b1, b2, b3⟩ | ⟨b1, i, st, b2, b3, b4, b5⟩
      · exact Or.inl ⟨b1, b2.trans h.paid, b3.trans a3⟩
      · exact Or.inr ⟨b1, i, st, b2, b3, by rw [b4, h.paid], by rw [b5, a3]⟩
    · obtain ⟨b1, b2, b3⟩ := h1.done a1
      have h0 : w.ctl.infos.has id = true := by unfold Map.has; rw [a2]; rfl
      obtain ⟨i', c1, c2⟩ := depositOf_get a2 (h1.has (hhas h0)) ((h1.kept (hhas h0)).trans (h.kept h0))
      refine Or.inr ⟨b1, i', st, c1, a3, ?_, by rw [b3, a5]⟩
      rw [b2, a4, h.paid, owed_congr c2]

theorem handle_has {c : Cfg} {e : Ext} {w w1 : World} {a : Addr} {m : Msg} {subs : List Item}
    (room : w.gov.pollCount + 1 < 2 ^ 64) (hr : handle c e w a m = .ok (w1, subs)) {id : Nat}
    (hh : w.ctl.infos.has id = true) : w1.ctl.infos.has id = true := by
  cases m with
  | gov m =>
    simp only [handle, bind_ok_iff, pure_ok_iff] at hr
    obtain ⟨g, h1, h2⟩ := hr
    cases h2
    exact hh
  | dist m =>
    simp only [handle, bind_ok_iff, pure_ok_iff] at hr
    obtain ⟨x, _, h2⟩ := hr
    cases h2
    exact hh
  | mem m =>
    simp only [handle, bind_ok_iff] at hr
    obtain ⟨x, _, h2⟩ := hr
    rw [(deliver_plain _ h2).1]
    exact hh
  | council m =>
    simp only [handle, bind_ok_iff] at hr
    obtain ⟨x, _, h2⟩ := hr
    rw [(deliver_plain _ h2).1]
    exact hh
  | ctl m =>
    obtain ⟨r, hx⟩ := handle_ctl hr
    have hw1 := hx.world
    have hex := hx.exec
    simp only at hw1
    rw [hw1]
    show r.1.infos.has id = true
    by_cases hm : ∃ j, m = .execute j
    · obtain ⟨j, rfl⟩ := hm
      simp only [Controller.exec] at hex
      obtain ⟨_, i, p, hi, hp, hn, _, _, _, _, rfl⟩ := Controller.executeProposal_ok_iff.1 hex
      show (w.ctl.infos.set j _).has id = true
      rw [Map.has_set, hh]; simp
    · rcases ctl_infos (fun j hj => hm ⟨j, hj⟩) room hex with ⟨_, _, i, h3, _⟩ | ⟨_, _, h3⟩
      · rw [h3, Map.has_set, hh]; simp
      · have := h3 id
        unfold Map.has at hh ⊢
        cases hk : w.ctl.infos.get id with
        | none => rw [hk] at hh; cases hh
        | some y =>
          rw [hk] at this
          cases hk' : r.1.infos.get id with
          | none => rw [hk'] at this; cases this
          | some z => rfl

theorem Exec.track {c : Cfg} {w w' : World} {l : List Item} (h : Exec c w l w') (id : Nat) : Good w →
    Track c w l w' id := by
  induction h with
  | nil w => exact fun hg => Track.refl hg id
  | @call w w1 w2 w3 a m subs rest e room hh h1 h2 ih1 ih2 =>
    intro hg
    have ho := handle_once hg room hh id
    have t1 := Track.call ho (ih1 ho.good) (x := .call a m) rfl (handle_has room hh)
    exact t1.comp (ih2 t1.good)
  | @actions w w1 w2 w3 j subs rest e room hh h1 h2 ih1 ih2 =>
    intro hg
    have ho := handle_once hg room hh id
    have t1 := Track.call ho (ih1 ho.good) (x := .actions j) rfl (handle_has room hh)
    exact t1.comp (ih2 t1.good)
  | @failed w w1 j rest h ih =>
    intro hg
    have h1 := ih hg
    have hp : pend (.actions j :: rest) id = pend rest id := rfl
    exact ⟨h1.good, h1.has, h1.kept, fun hx => by rw [hp]; exact h1.done hx, fun hx hq => h1.open_ hx (by rw [← hp]; exact hq)⟩
  | @deposit w w1 w2 j t calls rest hc h1 h2 ih1 ih2 =>
    intro hg
    have t1 := ih1 ⟨hg.below, hg.free⟩
    have hcalls := (calls_quiet hc id).1
    have t0 : Track c w [.deposit j t] w1 id := by
      have hpay : paidOut { w with log := w.log ++ [.paid j t] } id = paidOut w id ++ pend [.deposit j t] id := by
        unfold paidOut pend
        simp only [List.filterMap_append]
        rfl
      have hsent : sentCount { w with log := w.log ++ [.paid j t] } id = sentCount w id := by
        unfold sentCount
        simp only [List.count_append]
        simp
      refine ⟨t1.good, t1.has, t1.kept, ?_, ?_⟩
      · intro hx
        obtain ⟨a1, a2, a3⟩ := t1.done hx
        exact ⟨a1, by rw [a2, hcalls, hpay, List.append_nil], by rw [a3, hsent]⟩
      · intro hx hq
        rcases t1.open_ hx hcalls with ⟨a1, a2, a3⟩ | ⟨a1, i, st, a2, a3, a4, a5⟩
        · exact Or.inl ⟨a1, by rw [a2, hpay, hq, List.append_nil], by rw [a3, hsent]⟩
        · exact Or.inr ⟨a1, i, st, a2, a3, by rw [a4, hpay, hq, List.append_nil], by rw [a5, hsent]⟩
    exact t0.comp (ih2 t0.good)
  | @other w w1 w2 calls rest hc h1 h2 ih1 ih2 =>
    intro hg
    have t1 := ih1 hg
    have hcalls := (calls_quiet hc id).1
    have t0 : Track c w [.other] w1 id := by
      have hp : pend [.other] id = [] := rfl
      exact ⟨t1.good, t1.has, t1.kept, fun hx => by rw [hp, ← hcalls]; exact t1.done hx,
        fun hx _ => t1.open_ hx hcalls⟩
    exact t0.comp (ih2 t0.good)

/-- Over any history: nothing is dispatched or paid before the resolution, and then once. -/
theorem Reachable.once {c : Cfg} {w : World} (h : Reachable c w) (id : Nat) : Good w ∧
    ((executed w id = false ∧ paidOut w id = [] ∧ sentCount w id = 0) ∨
     (executed w id = true ∧ ∃ i st, w.ctl.infos.get id = some i ∧ (∀ z, st ≠ .inProgress z) ∧
      paidOut w id = owed c.comps.treasury i st ∧ sentCount w id = if isPassed st then 1 else 0)) := by
  induction h with
  | @init w h =>
    have hnone : ∀ j, w.ctl.infos.get j = none := by
      intro j
      obtain ⟨cfg, spec, tr, hc⟩ := h.ctl
      obtain ⟨_, _, h3⟩ := Controller.init_ok hc
      rw [h3]; rfl
    refine ⟨⟨fun j i hj => (by rw [hnone j] at hj; cases hj), fun j i hj => (by rw [hnone j] at hj; cases hj)⟩, Or.inl ⟨?_, ?_, ?_⟩⟩
    · unfold executed; rw [hnone]; rfl
    · unfold paidOut; rw [h.log]; rfl
    · unfold sentCount; rw [h.log]; rfl
  | @tx w w1 a m h ha hx ih =>
    obtain ⟨hg, ih⟩ := ih
    have t := hx.track id hg
    refine ⟨t.good, ?_⟩
    rcases ih with ⟨a1, a2, a3⟩ | ⟨a1, i, st, a2, a3, a4, a5⟩
    · rcases t.open_ a1 rfl with ⟨b1, b2, b3⟩ | ⟨b1, i, st, b2, b3, b4, b5⟩
      · exact Or.inl ⟨b1, b2.trans a2, b3.trans a3⟩
      · exact Or.inr ⟨b1, i, st, b2, b3, by rw [b4, a2]; rfl, by rw [b5, a3]; omega⟩
    · obtain ⟨b1, b2, b3⟩ := t.done a1
      have hhas := executed_has a1
      obtain ⟨i', c1, c2⟩ := depositOf_get a2 (t.has hhas) (t.kept hhas)
      refine Or.inr ⟨b1, i', st, c1, a3, ?_, by rw [b3, a5]⟩
      rw [b2, a4, owed_congr c2]
      exact List.append_nil _
  | @block w b h _ _ ih => exact ⟨⟨ih.1.below, ih.1.free⟩, ih.2⟩

end Verif.Dao
