import Verif.Dao.Props25

/-!
# The contracts of a DAO together: when a DAO is locked for good (C144)
-/

set_option linter.unusedSimpArgs false

namespace Verif.Dao
open Verif
open Verif.Controller (Action GovConfig CouncilConfig Info Proposable Changed ValidConfig Sub)

/-! ### Specification -/

/-- A multisig in which nobody has weight, and with no general proposal left on which voting ended while somebody had: voting
on those that are not resolved either ends in a later second, or ended when nobody had weight. -/
structure Dead (w : World) : Prop where
  type : w.mem.daoType = .multisig
  empty : w.mem.total .never = 0
  pending : ∀ id i p, w.ctl.infos.get id = some i → i.type = .general → outcome w id = none →
    Gov.queryPoll w.gov id = .ok p → w.block.time / 10 ^ 9 < p.endsAt / 10 ^ 9 ∨ electorate w .general p.endsAt = 0

/-! ### Lemmas -/

/-- As `Dead`, in a form that does not depend on time. -/
structure Still (w : World) : Prop where
  type : w.mem.daoType = .multisig
  empty : w.mem.total .never = 0
  pending : ∀ id i p, w.ctl.infos.get id = some i → i.type = .general → i.executedAt = none →
    w.gov.polls.get id = some p → w.mem.total (.time p.endsAt) = 0

theorem Dead.still {c : Cfg} (hw : c.Wf) (ht : c.Tame) {w : World} (h : Reachable c w) (hd : Dead w) : Still w := by
  refine ⟨hd.type, hd.empty, fun id i p hi hg hx hp => ?_⟩
  have hn : outcome w id = none := by
    unfold outcome
    rw [hi, hp]
    simp [hx]
  rcases hd.pending id i p hi hg hn (Controller.queryPoll_ok_iff.2 hp) with h1 | h1
  · have := bodyTotal_ahead (h.base hw ht) (h.timely hw ht) h1 .general
    exact this.trans hd.empty
  · exact h1

/-- What stays as it is. -/
structure Same (w0 w : World) : Prop where
  mem : w.mem = w0.mem
  infos : ∀ id i, w.ctl.infos.get id = some i → i.type = .general → w0.ctl.infos.get id = some i
  polls : ∀ id i, w.ctl.infos.get id = some i → i.type = .general → w.gov.polls.get id = w0.gov.polls.get id
  ran : ∀ id i, w.ctl.infos.get id = some i → i.type = .general → ranCount w id = ranCount w0 id

theorem Same.refl (w : World) : Same w w := ⟨rfl, fun _ _ h _ => h, fun _ _ _ _ => rfl, fun _ _ _ _ => rfl⟩

/-- Items of a queue behind which there is no general proposal. -/
def Mild (c : Cfg) (w : World) : Item → Prop
  | .call a _ => c.outsider a
  | .actions id => ∃ i, w.ctl.infos.get id = some i ∧ i.type = .council
  | .deposit _ _ => True
  | .other => True

theorem Mild.moved {c : Cfg} {w w1 : World} (h : Moved w w1) {i : Item} (hi : Mild c w i) : Mild c w1 i := by
  cases i with
  | call a m => exact hi
  | actions id =>
    obtain ⟨j, h1, h2⟩ := hi
    obtain ⟨j', k1, k2, _⟩ := h.step.infos id j h1
    exact ⟨j', k1, k2.trans h2⟩
  | deposit _ _ => trivial
  | other => trivial

theorem Still.weight {c : Cfg} {w0 : World} (hs : Still w0) (hb : w0.mem.Ok c.self) (u : Addr) : w0.mem.weight u = 0 := by
  have := hb.weight_le u
  have h0 := hs.empty
  omega

theorem harmless_does (c : Cfg) (x : Member) {e : Controller.Env} : ∀ {l : List Action} {s s' : Controller.State} {subs : List Sub},
    Controller.DoesAll e s l s' subs → (∀ y ∈ l, y.type ∈ Controller.harmless) →
    s' = s ∧ (∀ y ∈ subs, toItem c x y = .other) ∧ subs.filterMap eventOf = [] := by
  intro l
  induction l with
  | nil =>
    intro s s' subs h _
    cases h
    exact ⟨rfl, fun y hy => (by cases hy), rfl⟩
  | cons y t ih =>
    intro s s' subs h hl
    cases h with
    | cons hd htl =>
      have hk := hl y List.mem_cons_self
      have one : ∀ {s1 : Controller.State} {z : List Sub}, Controller.Does e s y s1 z →
          s1 = s ∧ (∀ v ∈ z, toItem c x v = .other) ∧ z.filterMap eventOf = [] := by
        intro s1 z hz
        cases hz <;> first
          | exact ⟨rfl, fun v hv => by rw [List.mem_singleton.1 hv]; rfl, rfl⟩
          | (exfalso; simp [Controller.harmless, Action.type] at hk)
      obtain ⟨rfl, h2, h3⟩ := one hd
      obtain ⟨rfl, k2, k3⟩ := ih htl (fun z hz => hl z (List.mem_cons_of_mem _ hz))
      refine ⟨rfl, fun v hv => ?_, ?_⟩
      · rcases List.mem_append.1 hv with hv | hv
        · exact h2 v hv
        · exact k2 v hv
      · rw [List.filterMap_append, h3, k3]
        rfl

theorem ran_append {w : World} {l : List Event} {id : Nat} (h : Event.ran id ∉ l) (w1 : World) (h1 : w1.log = w.log ++ l) :
    ranCount w1 id = ranCount w id := by
  unfold ranCount
  rw [h1, List.count_append, List.count_eq_zero.2 h]
  omega

theorem ran_events {l : List Sub} {id : Nat} : Event.ran id ∉ l.filterMap eventOf := by
  intro h
  obtain ⟨s, _, hs⟩ := List.mem_filterMap.1 h
  cases s <;> simp [eventOf] at hs

theorem outsider_multisig {c : Cfg} {e : Ext} {w : World} {a : Addr} (ha : c.outsider a) {s : Members} {m : Multisig.Msg}
    {r : Members × List Out} : Multisig.exec s (c.menv e w a) m ≠ .ok r := by
  intro h
  cases m with
  | updateMembers l =>
    simp only [Multisig.exec, Multisig.updateMembers, ite_ok_iff] at h
    exact h.1 ha.1
  | setMembers l =>
    simp only [Multisig.exec, Multisig.setMembers, ite_ok_iff] at h
    exact h.1 ha.1
  | addHook x =>
    simp only [Multisig.exec, bind_ok_iff, Members.addHook, ite_ok_iff] at h
    obtain ⟨_, h, _⟩ := h
    exact h.1 ha.1
  | removeHook x =>
    simp only [Multisig.exec, bind_ok_iff, Members.removeHook, ite_ok_iff] at h
    obtain ⟨_, h, _⟩ := h
    exact h.1 ha.1

/-- A message of an outsider. -/
theorem still_call {c : Cfg} {w0 w w1 : World} {a : Addr} {m : Msg} {e : Ext} {subs : List Item}
    (hs : Still w0) (hb : Base c w) (room : w.gov.pollCount + 1 < 2 ^ 64) (h : Same w0 w) (ha : c.outsider a)
    (hr : handle c e w a m = .ok (w1, subs)) : Same w0 w1 ∧ ∀ i ∈ subs, Mild c w1 i := by
  have hty : w.mem.daoType = .multisig := by rw [h.mem]; exact hs.type
  have hwt : ∀ u, w.mem.weight u = 0 := by
    intro u
    rw [h.mem]
    exact hs.weight (c := c) (by rw [← h.mem]; exact hb.mem) u
  have hdep : w.ctl.config.minDeposit = none := hb.ctl.config.deposit hty
  have nocreate : ∀ {p d u r}, Controller.createProposal (c.env e w) w.ctl w.gov p d u ≠ .ok r := by
    intro p d u r hc
    obtain ⟨_, h2, _⟩ := Controller.createProposal_ok_iff.1 hc
    rcases h2 with ⟨_, h2⟩ | ⟨x, h2, _⟩
    · exact h2 (hwt u)
    · rw [hdep] at h2; cases h2
  have quiet : ∀ {w2 : World}, w2.mem = w.mem → w2.ctl.infos = w.ctl.infos → w2.gov = w.gov → w2.log = w.log → Same w0 w2 := by
    intro w2 h1 h2 h3 h4
    refine ⟨h1.trans h.mem, ?_, ?_, ?_⟩
    · rw [h2]; exact h.infos
    · rw [h2, h3]; exact h.polls
    · rw [h2]
      intro id i hi hg
      have := h.ran id i hi hg
      unfold ranCount at this ⊢
      rw [h4]; exact this
  cases m with
  | ctl m =>
    obtain ⟨r, hx⟩ := handle_ctl hr
    have he := hx.exec
    have hw1 := hx.world
    have hsub := hx.subs
    simp only at hw1 hsub
    cases m with
    | createProposal p f =>
      exfalso
      simp only [Controller.exec, bind_ok_iff, pure_ok_iff] at he
      obtain ⟨y, hy, _⟩ := he
      exact nocreate (Controller.createWithFunds_ok hy)
    | createWithNft p l =>
      exfalso
      simp only [Controller.exec] at he
      obtain ⟨_, _, _, _, _, h1⟩ := Controller.createWithNft_ok_iff.1 he
      exact nocreate h1
    | receive u n p =>
      exfalso
      simp only [Controller.exec, bind_ok_iff, pure_ok_iff] at he
      obtain ⟨y, hy, _⟩ := he
      obtain ⟨_, _, _, _, h1⟩ := Controller.receive_ok_iff.1 hy
      exact nocreate h1
    | createCouncil p =>
      simp only [Controller.exec, bind_ok_iff, pure_ok_iff] at he
      obtain ⟨y, hy, rfl⟩ := he
      obtain ⟨_, k, _, _, _, _, _, _, h2, h3⟩ := Controller.createCouncil_ok_iff.1 hy
      obtain ⟨_, _, h4⟩ := Gov.createPoll_ok_iff.1 h2
      refine ⟨?_, by rw [hsub]; intro i hi; cases hi⟩
      have hold : ∀ id i, w1.ctl.infos.get id = some i → i.type = .general →
          w.ctl.infos.get id = some i ∧ w1.gov.polls.get id = w.gov.polls.get id := by
        intro id i hi hg
        rw [hw1] at hi ⊢
        simp only at hi ⊢
        rw [h3] at hi
        have hi : (w.ctl.infos.set y.2.pollCount _).get id = some i := hi
        by_cases hid : id = y.2.pollCount
        · subst hid
          rw [Map.get_set_self] at hi
          cases hi
          cases hg
        · rw [Map.get_set_ne _ _ (Ne.symm hid)] at hi
          refine ⟨hi, ?_⟩
          rw [h4] at hid ⊢
          simp only at hid ⊢
          rw [Map.get_set_ne _ _ (Ne.symm hid)]
      refine ⟨by rw [hw1]; exact h.mem, ?_, ?_, ?_⟩
      · intro id i hi hg
        exact h.infos id i (hold id i hi hg).1 hg
      · intro id i hi hg
        obtain ⟨k1, k2⟩ := hold id i hi hg
        rw [k2]
        exact h.polls id i k1 hg
      · intro id i hi hg
        rw [← h.ran id i (hold id i hi hg).1 hg]
        refine ran_append (l := []) List.not_mem_nil _ ?_
        rw [hw1]
        simp [ranOf]
    | castVote id o =>
      exfalso
      simp only [Controller.exec, bind_ok_iff, pure_ok_iff] at he
      obtain ⟨y, hy, _⟩ := he
      exact (Controller.castVote_ok_iff.1 hy).2.1 (hwt a)
    | castCouncilVote id o =>
      simp only [Controller.exec, bind_ok_iff, pure_ok_iff] at he
      obtain ⟨y, hy, rfl⟩ := he
      obtain ⟨_, _, _, i0, hi0, hg0, _, h2, h3⟩ := Controller.castCouncilVote_ok_iff.1 hy
      obtain ⟨_, _, p, hp, _, _, _, h4⟩ := Gov.castVote_ok_iff.1 h2
      refine ⟨?_, by rw [hsub]; intro i hi; cases hi⟩
      have hinf : w1.ctl.infos = w.ctl.infos := by rw [hw1]; simp only; rw [h3]
      refine ⟨by rw [hw1]; exact h.mem, by rw [hinf]; exact h.infos, ?_, ?_⟩
      · intro j i hi hg
        rw [hinf] at hi
        rw [← h.polls j i hi hg, hw1]
        simp only
        rw [h4]
        simp only
        rw [Map.get_set_ne]
        rintro rfl
        rw [hi0] at hi
        cases hi
        rw [hg0] at hg
        cases hg
      · intro j i hi hg
        rw [hinf] at hi
        rw [← h.ran j i hi hg]
        refine ran_append (l := []) List.not_mem_nil _ ?_
        rw [hw1]
        simp [ranOf]
    | execute id =>
      simp only [Controller.exec] at he
      obtain ⟨_, i0, p, hi0, hp, hex, _, htot, _, _, h2⟩ := Controller.executeProposal_ok_iff.1 he
      have hcou : i0.type = .council := by
        cases hg : i0.type with
        | council => rfl
        | general =>
          exfalso
          apply htot
          rw [hg]
          unfold Controller.endTotal
          have hi' := h.infos id i0 hi0 hg
          have hp' : w0.gov.polls.get id = some p := by rw [← h.polls id i0 hi0 hg]; exact hp
          split
          · rw [totalVotes_eq]
            show w.mem.total _ = 0
            rw [h.mem]
            exact hs.pending id i0 p hi' hg hex hp'
          · rw [totalVotes_eq]
            show w.mem.total _ = 0
            rw [h.mem]
            exact hs.empty
      rw [h2] at hw1 hsub
      simp only at hw1 hsub
      have hget : w1.ctl.infos.get id = some { i0 with executedAt := some (c.env e w).block } := by
        rw [hw1]
        exact Map.get_set_self _ _ _
      constructor
      · have hold : ∀ j i, w1.ctl.infos.get j = some i → i.type = .general → j ≠ id ∧ w.ctl.infos.get j = some i := by
          intro j i hi hg
          have hne : j ≠ id := by
            rintro rfl
            rw [hget] at hi
            cases hi
            have hg : i0.type = .general := hg
            rw [hcou] at hg
            cases hg
          refine ⟨hne, ?_⟩
          rw [hw1] at hi
          have hi : (w.ctl.infos.set id _).get j = some i := hi
          rw [Map.get_set_ne _ _ (Ne.symm hne)] at hi
          exact hi
        refine ⟨by rw [hw1]; exact h.mem, ?_, ?_, ?_⟩
        · intro j i hi hg
          exact h.infos j i (hold j i hi hg).2 hg
        · intro j i hi hg
          obtain ⟨k1, k2⟩ := hold j i hi hg
          rw [← h.polls j i k2 hg, hw1]
          show (w.gov.polls.set id _).get j = _
          rw [Map.get_set_ne _ _ (Ne.symm k1)]
        · intro j i hi hg
          rw [← h.ran j i (hold j i hi hg).2 hg]
          refine ran_append ran_events _ (l := (Controller.outcomeSubs (c.env e w) id i0
            (p.finalStatus (Controller.endTotal (c.env e w) p i0.type))).filterMap eventOf) ?_
          rw [hw1]
          simp [ranOf]
      · intro i hi
        rw [hsub] at hi
        obtain ⟨s, hs', rfl⟩ := List.mem_map.1 hi
        have hmild : s = .actions id ∨ ∃ t, s = .deposit id t := by
          have hdep := (hb.ctl.free id i0 hi0 hcou).1
          unfold Controller.outcomeSubs Controller.returnDeposit Controller.rejectedDeposit at hs'
          rw [hdep, hcou] at hs'
          simp only at hs'
          split at hs'
          · exact Or.inl (List.mem_singleton.1 hs')
          · cases hs'
          · cases hs'
        rcases hmild with rfl | ⟨t, rfl⟩
        · exact ⟨_, hget, hcou⟩
        · trivial
    | weightsChanged l =>
      exfalso
      simp only [Controller.exec, bind_ok_iff, pure_ok_iff] at he
      obtain ⟨y, hy, _⟩ := he
      rcases Controller.weightsChanged_ok_iff.1 hy with ⟨h1, _⟩ | ⟨_, h1, _⟩
      · exact ha.2.2 h1
      · exact ha.2.1 h1
    | executeActions id =>
      exfalso
      simp only [Controller.exec, bind_ok_iff, pure_ok_iff] at he
      obtain ⟨y, hy, _⟩ := he
      exact ha.1 (Controller.executeActions_ok_iff.1 hy).1
    | deployInitial =>
      simp only [Controller.exec, bind_ok_iff, pure_ok_iff] at he
      obtain ⟨y, hy, rfl⟩ := he
      obtain ⟨_, _, h3⟩ := Controller.deployInitial_ok_iff.1 hy
      rw [h3] at hw1 hsub
      simp only at hw1 hsub
      refine ⟨quiet (by rw [hw1]) (by rw [hw1]) (by rw [hw1]) ?_, ?_⟩
      · rw [hw1]
        have : ∀ l : List Nat, (l.map Sub.deploy).filterMap eventOf = [] := by
          intro l
          induction l with
          | nil => rfl
          | cons x t ih => simpa [eventOf] using ih
        simp [ranOf, this]
      · intro i hi
        rw [hsub] at hi
        obtain ⟨s, hs', rfl⟩ := List.mem_map.1 hi
        obtain ⟨d, _, rfl⟩ := List.mem_map.1 hs'
        trivial
  | gov m =>
    exfalso
    simp only [handle, bind_ok_iff] at hr
    obtain ⟨g, h1, _⟩ := hr
    unfold Gov.exec at h1
    rw [ite_ok_iff] at h1
    exact h1.1 (fun hh => ha.1 (hh.trans hb.ctl.gov.admin))
  | dist m =>
    simp only [handle, bind_ok_iff, pure_ok_iff] at hr
    obtain ⟨r, _, hr⟩ := hr
    cases hr
    refine ⟨quiet rfl rfl rfl rfl, fun i hi => ?_⟩
    obtain ⟨_, _, rfl⟩ := List.mem_map.1 hi
    trivial
  | mem m =>
    exfalso
    simp only [handle] at hr
    obtain ⟨y, hy, _⟩ := bind_ok_iff.1 hr
    cases hm : w.mem with
    | staking k s => rw [hm] at hty; cases k <;> cases hty
    | nft s => rw [hm] at hty; cases hty
    | multisig s =>
      rw [hm] at hy
      cases m with
      | staking m => cases hy
      | nft m => cases hy
      | multisig m =>
        simp only [Member.exec] at hy
        obtain ⟨z, hz, _⟩ := bind_ok_iff.1 hy
        exact outsider_multisig ha hz
  | council m =>
    exfalso
    simp only [handle] at hr
    obtain ⟨y, hy, _⟩ := bind_ok_iff.1 hr
    exact outsider_multisig ha hy

/-- The actions of a proposal of the council. -/
theorem still_actions {c : Cfg} {w0 w w1 : World} {id : Nat} {e : Ext} {subs : List Item}
    (hb : Base c w) (h : Same w0 w) {i : Info} (hi : w.ctl.infos.get id = some i) (hg : i.type = .council)
    (hr : handle c e w c.self (.ctl (.executeActions id)) = .ok (w1, subs)) : Same w0 w1 ∧ ∀ i ∈ subs, Mild c w1 i := by
  obtain ⟨r, hx⟩ := handle_ctl hr
  have he := hx.exec
  have hw1 := hx.world
  have hsub := hx.subs
  simp only at hw1 hsub
  simp only [Controller.exec, bind_ok_iff, pure_ok_iff] at he
  obtain ⟨y, hy, rfl⟩ := he
  obtain ⟨_, i', hi', hact⟩ := Controller.executeActions_ok_iff.1 hy
  rw [hi] at hi'
  cases hi'
  obtain ⟨h1, h2, h3⟩ := harmless_does c w.mem ((Controller.actAll_iff _).1 hact) (hb.ctl.free id i hi hg).2
  simp only at hw1 hsub
  rw [h1, h3] at hw1
  constructor
  · refine ⟨by rw [hw1]; exact h.mem, by rw [hw1]; exact h.infos, by rw [hw1]; exact h.polls, ?_⟩
    intro j k hk hgk
    have hk' : w.ctl.infos.get j = some k := by rw [hw1] at hk; exact hk
    rw [← h.ran j k hk' hgk]
    refine ran_append (l := [.ran id]) ?_ _ (by rw [hw1]; simp [ranOf])
    intro hm
    cases List.mem_singleton.1 hm
    rw [hi] at hk'
    cases hk'
    rw [hg] at hgk
    cases hgk
  · intro k hk
    rw [hsub] at hk
    obtain ⟨s, hs, rfl⟩ := List.mem_map.1 hk
    rw [h2 s hs]
    trivial

theorem still_cases {c : Cfg} {w0 : World} (hs : Still w0) :
    Cases c (fun w l w' => Same w0 w → (∀ i ∈ l, Mild c w i) → Same w0 w') where
  nil := fun _ _ h _ => h
  call := by
    intro w w1 w2 w3 a m subs rest e hb _ _ m2 m3 _ room hr hh p1 p2 h hl
    obtain ⟨h1, h2⟩ := still_call hs hb room h (hl _ List.mem_cons_self) hr
    exact p2 (p1 h1 h2) (fun i hi => ((hl i (List.mem_cons_of_mem _ hi)).moved hh.moved).moved m2)
  actions := by
    intro w w1 w2 w3 id subs rest e hb _ _ m2 m3 room hr hh p1 p2 h hl
    obtain ⟨i, hi, hg⟩ := hl _ List.mem_cons_self
    obtain ⟨h1, h2⟩ := still_actions hb h hi hg hr
    exact p2 (p1 h1 h2) (fun i hi => ((hl i (List.mem_cons_of_mem _ hi)).moved hh.moved).moved m2)
  failed := by
    intro w w1 id rest _ _ p h hl
    exact p h (fun i hi => hl i (List.mem_cons_of_mem _ hi))
  deposit := by
    intro w w1 w2 id t calls rest _ _ _ hc m1 m2 p1 p2 h hl
    have hcalls : ∀ i ∈ calls, Mild c { w with log := w.log ++ [.paid id t] } i := by
      intro i hi
      obtain ⟨a, m, rfl, ha⟩ := hc i hi
      exact ha
    refine p2 (p1 ⟨h.mem, h.infos, h.polls, fun j k hk hg => ?_⟩ hcalls)
      (fun i hi => (hl i (List.mem_cons_of_mem _ hi)).moved m1)
    rw [← h.ran j k hk hg]
    exact ran_append (l := [.paid id t]) (by simp) _ rfl
  other := by
    intro w w1 w2 calls rest _ _ _ hc m1 m2 p1 p2 h hl
    have hcalls : ∀ i ∈ calls, Mild c w i := by
      intro i hi
      obtain ⟨a, m, rfl, ha⟩ := hc i hi
      exact ha
    exact p2 (p1 h hcalls) (fun i hi => (hl i (List.mem_cons_of_mem _ hi)).moved m1)

theorem still_later {c : Cfg} (hw : c.Wf) (ht : c.Tame) {w w' : World} (h : Reachable c w) (hs : Still w)
    (hl : Later c w w') : Same w w' := by
  induction hl with
  | refl => exact Same.refl w
  | @tx w1 w2 a m hl ha hx ih =>
    have hb := (hl.reachable h).base hw ht
    exact (hx.induct hw ht (still_cases hs) (fun i hi => by rw [List.mem_singleton.1 hi]; exact Or.inl ha) hb).2.2 ih
      (fun i hi => by rw [List.mem_singleton.1 hi]; exact ha)
  | block hl hh htm ih => exact ⟨ih.mem, ih.infos, ih.polls, ih.ran⟩

/-! ## C144 -/

/-- A multisig in which nobody has weight is locked for good, once no vote that ended before is left to be acted on: whatever
anybody does, nobody ever gets weight again, no general proposal is made any more, none is resolved, none is carried out, and
none of the rules ever changes. All that is left is what the council may do. -/
theorem C144_locked {c : Cfg} (hw : c.Wf) (ht : c.Tame) {w w' : World} (h : Reachable c w) (hd : Dead w) (hl : Later c w w') :
    Dead w' ∧ SameRules w w' ∧ (∀ u, w'.mem.weight u = 0) ∧
    ∀ id i, w'.ctl.infos.get id = some i → i.type = .general →
      w.ctl.infos.get id = some i ∧ outcome w' id = outcome w id ∧ ranCount w' id = ranCount w id := by
  have hs := hd.still hw ht h
  have hsame := still_later hw ht h hs hl
  have hout : ∀ id i, w'.ctl.infos.get id = some i → i.type = .general → outcome w' id = outcome w id := by
    intro id i hi hg
    unfold outcome
    rw [hi, hsame.infos id i hi hg, hsame.polls id i hi hg]
  refine ⟨⟨by rw [hsame.mem]; exact hs.type, by rw [hsame.mem]; exact hs.empty, ?_⟩, ?_, ?_,
    fun id i hi hg => ⟨hsame.infos id i hi hg, hout id i hi hg, hsame.ran id i hi hg⟩⟩
  · intro id i p hi hg ho hp
    right
    have hp' := Controller.queryPoll_ok_iff.1 hp
    have hx : i.executedAt = none := by
      unfold outcome at ho
      rw [hi, hp'] at ho
      cases hx : i.executedAt with
      | none => rfl
      | some b => simp [hx] at ho
    show w'.mem.total _ = 0
    rw [hsame.mem]
    exact hs.pending id i p (hsame.infos id i hi hg) hg hx (by rw [← hsame.polls id i hi hg]; exact hp')
  · by_contra hne
    obtain ⟨id, i, v, p, h1, h2, h3, h4, _⟩ := C136_amended hw ht h hl hne
    have := hsame.ran id i h1 h2
    omega
  · intro u
    rw [hsame.mem]
    exact hs.weight (c := c) (h.base hw ht).mem u

theorem leads_all {c : Cfg} (hw : c.Wf) (ht : c.Tame) {w : World} (h : Reachable c w) {G : List Addr}
    (hG : ∀ u ∈ G, c.outsider u ∧ 0 < w.mem.weight u) (hall : ∀ u, 0 < w.mem.weight u → u ∈ G) (hne : G ≠ []) :
    Leads c w G := by
  have hb := h.base hw ht
  have hz : weighing w (fun u => !among G u) = 0 := by
    unfold weighing
    apply sum_zero
    intro u x hx
    have hwt : w.mem.weight u = x := by
      rw [w.mem.weight_eq]
      unfold Members.weight
      rw [hx]
      rfl
    by_cases hu : u ∈ G
    · simp [among, hu]
    · have hx0 : x = 0 := by
        by_contra hne
        exact hu (hall u (by omega))
      simp [hx0]
  have hs := weighing_split w (among G)
  rw [hz] at hs
  have hs : weighing w (fun _ => true) = weighing w (among G) := hs.symm
  have hp := weighing_pos hne (fun u hu => (hG u hu).2)
  have share : ∀ {d : Nat}, Controller.Fraction d → HasShare w (among G) d := by
    intro d hd
    unfold HasShare
    rw [hs, Nat.mul_comm]
    exact Nat.mul_le_mul_left _ hd.2
  refine ⟨hG, by rw [hz]; exact hp, share hb.ctl.config.quorum, share hb.ctl.config.threshold, ?_⟩
  unfold OthersLack
  rw [hz, hs, Nat.zero_mul]
  refine Nat.mul_pos ?_ hp
  cases hv : w.ctl.config.veto with
  | none => exact hb.ctl.config.threshold.1
  | some v => exact (hb.ctl.config.veto v hv).1

/-- Otherwise it is not locked: in a DAO of any kind in which somebody has weight, all those who have can, if they agree and none
of them is restricted, have any proposal of at most ten actions passed that can be made (if no deposit is asked for, or one
in coins, which they attach). -/
theorem C144_unanimous {c : Cfg} (hw : c.Wf) (ht : c.Tame) {w : World} (h : Reachable c w) {G : List Addr}
    (hG : ∀ u, u ∈ G ↔ 0 < w.mem.weight u) (hsome : 0 < w.mem.total .never) (ho : ∀ u ∈ G, c.outsider u)
    (e : Ext) (he : ∀ u ∈ G, e.restricted u = false) (hd : w.ctl.config.minDeposit = none ∨ w.mem.daoType = .denom)
    (hfit : w.block.time + w.ctl.config.voteDuration * 10 ^ 9 < 2 ^ 64) (room : w.gov.pollCount + 2 < 2 ^ 64)
    {l : List Action} (hten : l.length ≤ 10) (hl : ∀ x ∈ l, Proposable (c.env e w) w.ctl.config x) :
    ∃ w' i o n, Acting c G w w' ∧ w'.block.time = w.block.time + w.ctl.config.voteDuration * 10 ^ 9 ∧
      w'.ctl.infos.get (w.gov.pollCount + 1) = some i ∧ i.actions = l ∧
      outcome w' (w.gov.pollCount + 1) = some (.passed o n) ∧ sentCount w' (w.gov.pollCount + 1) = 1 := by
  refine C134_passes hw ht h (leads_all hw ht h (fun u hu => ⟨ho u hu, (hG u).1 hu⟩) (fun u hu => (hG u).2 hu) ?_) e he hd
    hfit room hten hl
  rintro rfl
  rw [weighing_all hw ht h] at hsome
  have : weighing w (fun _ => true) = 0 := by
    unfold weighing
    apply sum_zero
    intro u x hx
    have hwt : w.mem.weight u = x := by
      rw [w.mem.weight_eq]
      unfold Members.weight
      rw [hx]
      rfl
    have := (hG u).2
    have hx0 : x = 0 := by
      by_contra hne
      cases this (by omega)
    simp [hx0]
  omega

/-- Someone gets weight in a DAO in which nobody had any. -/
theorem revived {c : Cfg} (hw : c.Wf) (ht : c.Tame) {w w1 : World} (h : Reachable c w) (hzero : w.mem.total .never = 0)
    {a b : Addr} {m : MemberMsg} {n : Nat} {e : Ext} (hb : c.outsider b) (ho : c.outsider a) (hn : 0 < n)
    (hx : handle c e w b (.mem m) = .ok (w1, [])) (hj : Joined w w1 a n)
    (he : e.restricted a = false) (hd : w.ctl.config.minDeposit = none ∨ w.mem.daoType = .denom)
    (hfit : w.block.time + w.ctl.config.voteDuration * 10 ^ 9 < 2 ^ 64) (room : w.gov.pollCount + 2 < 2 ^ 64)
    {l : List Action} (hten : l.length ≤ 10) (hl : ∀ x ∈ l, Proposable (c.env e w) w.ctl.config x) :
    ∃ w' i o k, Later c w w' ∧ w'.block.time = w.block.time + w.ctl.config.voteDuration * 10 ^ 9 ∧
      w'.ctl.infos.get (w.gov.pollCount + 1) = some i ∧ i.actions = l ∧
      outcome w' (w.gov.pollCount + 1) = some (.passed o k) ∧ sentCount w' (w.gov.pollCount + 1) = 1 := by
  have hbs := h.base hw ht
  have hex : Exec c w [.call b (.mem m)] w1 := .call e (by omega) hx (.nil _) (.nil _)
  have hr1 := h.tx hb hex
  have hst := handle_mem hw hbs.mem (fun hs => absurd hs (fun hs => hb.1 hs)) hx
  simp only at hst
  have hctl : w1.ctl = w.ctl := (congrArg World.ctl hst.same :)
  have hblk : w1.block = w.block := (congrArg World.block hst.same :)
  have hcount : w1.gov.pollCount = w.gov.pollCount := by
    rcases hst.gov with ⟨l, e', _, _, hu, _⟩ | ⟨hg, _⟩
    · exact updateAll_count hu
    · rw [hg]
  have hw0 : ∀ u, w.mem.weight u = 0 := fun u => by
    have := hbs.mem.weight_le u
    omega
  have hlead : Leads c w1 [a] := by
    refine leads_all hw ht hr1 (fun u hu => ?_) (fun u hu => ?_) (by simp)
    · rw [List.mem_singleton.1 hu, hj.1]
      exact ⟨ho, by omega⟩
    · by_contra hne
      have hne : u ≠ a := fun he => hne (List.mem_singleton.2 he)
      rw [hj.2 u hne, hw0] at hu
      omega
  obtain ⟨w', i, o, k, k1, k2, k3, k4, k5, k6⟩ := C134_passes hw ht hr1 hlead e
    (fun u hu => by rw [List.mem_singleton.1 hu]; exact he) (by rw [hctl, hst.type]; exact hd)
    (by rw [hblk, hctl]; exact hfit) (by rw [hcount]; exact room) hten (fun x hx => by
      have := hl x hx
      rw [hctl]
      have hd : (c.env e w1).daoType = (c.env e w).daoType := hst.type
      cases x <;> first | exact this | (simp only [Proposable, hd] at this ⊢; exact this))
  rw [hcount] at k3 k5 k6
  rw [hblk, hctl] at k2
  exact ⟨w', i, o, k, Later.trans (.tx .refl hb hex) (k1.later (fun u hu => by rw [List.mem_singleton.1 hu]; exact ho)), k2, k3, k4,
    k5, k6⟩

/-- And the other kinds of DAOs are never locked: where nobody has weight, whoever stakes a single coin becomes the only member,
and can have any such proposal passed all alone. -/
theorem C144_revived_denom {c : Cfg} (hw : c.Wf) (ht : c.Tame) {w : World} (h : Reachable c w) {s : Staking.State}
    (hm : w.mem = .staking .denom s) (hzero : w.mem.total .never = 0) {a : Addr} (ho : c.outsider a) {n : Nat} (hn : 0 < n)
    (hin : Fits w a n) (hf : RewardsFit w) (e : Ext) (he : e.restricted a = false)
    (hfit : w.block.time + w.ctl.config.voteDuration * 10 ^ 9 < 2 ^ 64) (room : w.gov.pollCount + 2 < 2 ^ 64)
    {l : List Action} (hten : l.length ≤ 10) (hl : ∀ x ∈ l, Proposable (c.env e w) w.ctl.config x) :
    ∃ w' i o k, Later c w w' ∧ w'.block.time = w.block.time + w.ctl.config.voteDuration * 10 ^ 9 ∧
      w'.ctl.infos.get (w.gov.pollCount + 1) = some i ∧ i.actions = l ∧
      outcome w' (w.gov.pollCount + 1) = some (.passed o k) ∧ sentCount w' (w.gov.pollCount + 1) = 1 := by
  obtain ⟨hacc, heff⟩ := C119_stake_denom hw ht h hm a none n hin hf e
  obtain ⟨⟨w1, subs⟩, hx⟩ := hacc.2 he
  obtain ⟨hsub, hj⟩ := heff _ hx
  simp only at hsub
  subst hsub
  exact revived hw ht h hzero ho ho hn hx hj he (Or.inr (by rw [hm]; rfl)) hfit room hten hl

/-- The same with the token that the DAO is for. -/
theorem C144_revived_token {c : Cfg} (hw : c.Wf) (ht : c.Tame) {w : World} (h : Reachable c w) {s : Staking.State}
    (hm : w.mem = .staking .token s) (hzero : w.mem.total .never = 0) {a : Addr} (ho : c.outsider a)
    (htok : c.outsider s.asset) {n : Nat} (hn : 0 < n)
    (hin : Fits w a n) (hf : RewardsFit w) (e : Ext) (he : e.restricted a = false) (hd : w.ctl.config.minDeposit = none)
    (hfit : w.block.time + w.ctl.config.voteDuration * 10 ^ 9 < 2 ^ 64) (room : w.gov.pollCount + 2 < 2 ^ 64)
    {l : List Action} (hten : l.length ≤ 10) (hl : ∀ x ∈ l, Proposable (c.env e w) w.ctl.config x) :
    ∃ w' i o k, Later c w w' ∧ w'.block.time = w.block.time + w.ctl.config.voteDuration * 10 ^ 9 ∧
      w'.ctl.infos.get (w.gov.pollCount + 1) = some i ∧ i.actions = l ∧
      outcome w' (w.gov.pollCount + 1) = some (.passed o k) ∧ sentCount w' (w.gov.pollCount + 1) = 1 := by
  obtain ⟨hacc, heff⟩ := C119_stake_token hw ht h hm a n hin hf e
  obtain ⟨⟨w1, subs⟩, hx⟩ := hacc.2 he
  obtain ⟨hsub, hj⟩ := heff _ hx
  simp only at hsub
  subst hsub
  exact revived hw ht h hzero htok ho hn hx hj he (Or.inl hd) hfit room hten hl

/-- The same with one NFT of the collection that the DAO is for. -/
theorem C144_revived_nft {c : Cfg} (hw : c.Wf) (ht : c.Tame) {w : World} (h : Reachable c w) {s : Nft.State} {x : Addr}
    (hm : w.mem = .nft s) (hx : s.nft = .cw721 x) (hzero : w.mem.total .never = 0) {a : Addr} (ho : c.outsider a)
    (hcol : c.outsider x) {t : Nat} (hfree : s.stakes.get t = none)
    (hin : Fits w a 1) (hf : RewardsFit w) (e : Ext) (he : e.restricted a = false) (hd : w.ctl.config.minDeposit = none)
    (hfit : w.block.time + w.ctl.config.voteDuration * 10 ^ 9 < 2 ^ 64) (room : w.gov.pollCount + 2 < 2 ^ 64)
    {l : List Action} (hten : l.length ≤ 10) (hl : ∀ x ∈ l, Proposable (c.env e w) w.ctl.config x) :
    ∃ w' i o k, Later c w w' ∧ w'.block.time = w.block.time + w.ctl.config.voteDuration * 10 ^ 9 ∧
      w'.ctl.infos.get (w.gov.pollCount + 1) = some i ∧ i.actions = l ∧
      outcome w' (w.gov.pollCount + 1) = some (.passed o k) ∧ sentCount w' (w.gov.pollCount + 1) = 1 := by
  obtain ⟨hacc, heff⟩ := C119_stake_nft hw ht h hm hx a t hin hf e
  obtain ⟨⟨w1, subs⟩, hx⟩ := hacc.2 ⟨he, hfree⟩
  obtain ⟨hsub, hj, _⟩ := heff _ hx
  simp only at hsub
  subst hsub
  exact revived hw ht h hzero hcol ho Nat.one_pos hx hj he (Or.inl hd) hfit room hten hl

/-! ### Examples -/

/-- The members of the multisig DAO of C132 vote to take the weight from all of them. -/
def multisigEmptied : List Step :=
  [at_ 2, .tx sampleExt 10 (.ctl (.createProposal ⟨0, 0, [.modifyMultisig [(10, 0), (11, 0), (12, 0)]], none⟩ [])),
    .tx sampleExt 10 (.ctl (.createProposal ⟨0, 0, [.updateMinWeight 7], none⟩ [])), at_ 3,
    vote 10 1 .yes, vote 11 1 .yes, vote 10 2 .yes, at_ 20, execute 11 1]

theorem multisigEmptied_some : ∃ w, runAll sampleCfg multisigGenesis multisigEmptied = some w := by
  have : (runAll sampleCfg multisigGenesis multisigEmptied).isSome = true := by decide +kernel
  exact Option.isSome_iff_exists.1 this

/-- The DAO is locked from then on, although proposal 2 is still voted on and has three quarters of the former weight. -/
example : ∃ w, runAll sampleCfg multisigGenesis multisigEmptied = some w ∧ Reachable sampleCfg w ∧ Dead w ∧
    outcome w 2 = none ∧ ∀ w', Later sampleCfg w w' → SameRules w w' ∧ outcome w' 2 = none := by
  obtain ⟨w, hw⟩ := multisigEmptied_some
  have hr := runAll_reachable multisigEmptied (.init multisig_genesis) hw
  have hw' : w = (runAll sampleCfg multisigGenesis multisigEmptied).getD multisigGenesis := by rw [hw]; rfl
  have hd : Dead w := by
    refine ⟨by rw [hw']; decide +kernel, by rw [hw']; decide +kernel, fun id i p hi hg ho hp => Or.inl ?_⟩
    have hp := Controller.queryPoll_ok_iff.1 hp
    have key : ∀ e ∈ w.gov.polls.entries, w.block.time / 10 ^ 9 < e.2.endsAt / 10 ^ 9 := by
      rw [hw']; decide +kernel
    exact key _ (Map.get_eq_some_iff.1 hp)
  have ho : outcome w 2 = none := by rw [hw']; decide +kernel
  refine ⟨w, hw, hr, hd, ho, fun w' hl => ?_⟩
  obtain ⟨_, h1, _, h2⟩ := C144_locked sampleCfg_wf sampleCfg_tame hr hd hl
  refine ⟨h1, ?_⟩
  cases hi : w'.ctl.infos.get 2 with
  | none => unfold outcome; rw [hi]
  | some i =>
    obtain ⟨i0, hi0, hg0⟩ : ∃ i0, w.ctl.infos.get 2 = some i0 ∧ i0.type = .general := by
      rw [hw']
      refine ⟨_, rfl, ?_⟩
      decide +kernel
    obtain ⟨i', hi', ht', _⟩ := (hl.moved sampleCfg_wf sampleCfg_tame hr).1.infos 2 i0 hi0
    rw [hi] at hi'
    cases hi'
    rw [(h2 2 i hi (ht'.trans hg0)).2.1, ho]

/-- While they have weight, they can still do everything. -/
example : ∃ w' i o n, Acting sampleCfg [10, 11, 12] multisigGenesis w' ∧ w'.ctl.infos.get 1 = some i ∧
    i.actions = [.modifyMultisig [(10, 0), (11, 0), (12, 0)]] ∧ outcome w' 1 = some (.passed o n) := by
  have hid : multisigGenesis.gov.pollCount + 1 = 1 := by decide +kernel
  have hty : (sampleCfg.env sampleExt multisigGenesis).daoType = .multisig := by decide +kernel
  obtain ⟨w', i, o, n, h1, _, h3, h4, h5, _⟩ := C144_unanimous sampleCfg_wf sampleCfg_tame (.init multisig_genesis)
    (G := [10, 11, 12]) (fun u => by
      constructor
      · have key : ∀ v ∈ [10, 11, 12], 0 < multisigGenesis.mem.weight v := by decide +kernel
        exact key u
      · intro hu
        rw [Member.weight_eq] at hu
        unfold Members.weight at hu
        have key : ∀ e ∈ multisigGenesis.mem.mem.weights.entries, e.1 ∈ [10, 11, 12] := by decide +kernel
        cases hx : multisigGenesis.mem.mem.weights.get u with
        | none => rw [hx] at hu; simp at hu
        | some x => exact key _ (Map.get_eq_some_iff.1 hx))
    (by decide +kernel) (by decide) sampleExt (by decide) (Or.inl (by decide +kernel)) (by decide +kernel) (by decide +kernel)
    (l := [.modifyMultisig [(10, 0), (11, 0), (12, 0)]]) (by decide)
    (fun x hx => by
      rw [List.mem_singleton.1 hx]
      exact ⟨hty, by decide⟩)
  rw [hid] at h3 h5
  exact ⟨w', i, o, n, h1, h3, h4, h5⟩

/-- In a new DAO for the coin 20, nobody has weight yet. User 50 can have anything done with one coin. -/
example : ∃ w' i o n, Later sampleCfg sampleGenesis w' ∧ w'.ctl.infos.get 1 = some i ∧
    i.actions = [.requestFunding none 50 [⟨.native 20, 500⟩]] ∧ outcome w' 1 = some (.passed o n) := by
  have hid : sampleGenesis.gov.pollCount + 1 = 1 := by decide +kernel
  obtain ⟨w', i, o, n, h1, _, h3, h4, h5, _⟩ := C144_revived_denom sampleCfg_wf sampleCfg_tame (.init sample_genesis) rfl
    (by decide +kernel) (a := 50) (by decide +kernel) (n := 1) (by decide) ⟨by decide +kernel, by decide +kernel⟩
    (fun b => by rw [Distributor.owed_empty (by decide +kernel)]; decide) sampleExt (by decide) (by decide +kernel)
    (by decide +kernel) (l := [.requestFunding none 50 [⟨.native 20, 500⟩]]) (by decide)
    (fun x hx => by
      rw [List.mem_singleton.1 hx]
      intro _ a ha
      rw [List.mem_singleton.1 ha]
      exact fun _ _ hn => by cases hn)
  rw [hid] at h3 h5
  exact ⟨w', i, o, n, h1, h3, h4, h5⟩

/-- A new DAO for the token with address 21, and one for the NFTs of collection 25, neither of which asks for deposits. -/
def tokenGenesis : World :=
  { sampleGenesis with
    ctl := (Controller.init ⟨1, 10 ^ 9⟩ sampleCfg.enterprise .token { sampleConfig with minDeposit := none } none [] []).toOption.getD
      sampleCtl
    mem := .staking .token (Staking.init ⟨1, 10 ^ 9⟩ 21 (.time 1000) [1] [] []) }

theorem token_genesis : Genesis sampleCfg tokenGenesis :=
  ⟨⟨{ sampleConfig with minDeposit := none }, none, [], by decide +kernel⟩, rfl,
    ⟨none, [], by decide +kernel⟩, ⟨21, .time 1000, rfl⟩,
    ⟨[(40, 1), (41, 1), (42, 1)], by decide +kernel⟩, rfl⟩

def collectionGenesis : World :=
  { sampleGenesis with
    ctl := (Controller.init ⟨1, 10 ^ 9⟩ sampleCfg.enterprise .nft { sampleConfig with minDeposit := none } none [] []).toOption.getD
      sampleCtl
    mem := .nft (Nft.init ⟨1, 10 ^ 9⟩ (.cw721 25) (.time 1000) [1] [] []) }

theorem collection_genesis : Genesis sampleCfg collectionGenesis :=
  ⟨⟨{ sampleConfig with minDeposit := none }, none, [], by decide +kernel⟩, rfl,
    ⟨none, [], by decide +kernel⟩, ⟨.cw721 25, .time 1000, rfl⟩,
    ⟨[(40, 1), (41, 1), (42, 1)], by decide +kernel⟩, rfl⟩

/-- There, one unit of the token or one NFT are enough. -/
example : (∃ w' i o n, Later sampleCfg tokenGenesis w' ∧ w'.ctl.infos.get 1 = some i ∧
      i.actions = [.updateMinWeight 5] ∧ outcome w' 1 = some (.passed o n)) ∧
    ∃ w' i o n, Later sampleCfg collectionGenesis w' ∧ w'.ctl.infos.get 1 = some i ∧
      i.actions = [.updateMinWeight 5] ∧ outcome w' 1 = some (.passed o n) := by
  constructor
  · have hid : tokenGenesis.gov.pollCount + 1 = 1 := by decide +kernel
    obtain ⟨w', i, o, n, h1, _, h3, h4, h5, _⟩ := C144_revived_token sampleCfg_wf sampleCfg_tame (.init token_genesis) rfl
      (by decide +kernel) (a := 50) (by decide +kernel) (by decide +kernel) (n := 1) (by decide)
      ⟨by decide +kernel, by decide +kernel⟩
      (fun b => by rw [Distributor.owed_empty (by decide +kernel)]; decide) sampleExt (by decide) (by decide +kernel)
      (by decide +kernel) (by decide +kernel) (l := [.updateMinWeight 5]) (by decide)
      (fun x hx => by rw [List.mem_singleton.1 hx]; trivial)
    rw [hid] at h3 h5
    exact ⟨w', i, o, n, h1, h3, h4, h5⟩
  · have hid : collectionGenesis.gov.pollCount + 1 = 1 := by decide +kernel
    obtain ⟨w', i, o, n, h1, _, h3, h4, h5, _⟩ := C144_revived_nft sampleCfg_wf sampleCfg_tame (.init collection_genesis) rfl rfl
      (by decide +kernel) (a := 50) (by decide +kernel) (by decide +kernel) (t := 7) (by decide +kernel)
      ⟨by decide +kernel, by decide +kernel⟩
      (fun b => by rw [Distributor.owed_empty (by decide +kernel)]; decide) sampleExt (by decide) (by decide +kernel)
      (by decide +kernel) (by decide +kernel) (l := [.updateMinWeight 5]) (by decide)
      (fun x hx => by rw [List.mem_singleton.1 hx]; trivial)
    rw [hid] at h3 h5
    exact ⟨w', i, o, n, h1, h3, h4, h5⟩

end Verif.Dao
