import Verif.Dao.Lemmas

/-!
# The contracts of a DAO together: what one message does
-/

set_option linter.unusedSimpArgs false

namespace Verif.Dao
open Verif
open Verif.Controller (DaoType Transfer Sub)
open Verif.Staking (Explains)

/-- Invariant of a DAO. -/
structure Base (c : Cfg) (w : World) : Prop where
  ctl : CtlInv c.self w.mem.daoType w.block.time w.ctl w.gov
  mem : w.mem.Ok c.self
  council : (Member.multisig w.council).Ok c.self

theorem Base.env {c : Cfg} {w : World} (h : Base c w) (e : Ext) : EnvOk (c.env e w) := by
  have key : ∀ {x : Member}, x.Ok c.self → (∀ u, x.weight u < M128) ∧ (∀ t, x.total (.time t) < M128 ∧ x.total .never < M128) := by
    intro x hx
    refine ⟨fun u => lt_of_le_of_lt (hx.weight_le u) ?_, fun t => ⟨Member.total_lt hx t, ?_⟩⟩
    · rw [hx.total]; exact hx.small
    · rw [hx.total]; exact hx.small
  exact ⟨(key h.mem).1, (key h.mem).2, (key h.council).1, (key h.council).2⟩

/-- Messages that can be in the queue, given that custom messages are tame. -/
def Allowed (c : Cfg) : Item → Prop
  | .call a m => c.outsider a ∨ (a = c.self ∧ m.tame = true)
  | _ => True

/-- Messages to the membership contract. -/
structure MemStep (c : Cfg) (w w1 : World) (subs : List Item) : Prop where
  ok : w1.mem.Ok c.self
  type : w1.mem.daoType = w.mem.daoType
  subs : ∀ i ∈ subs, i = .other
  gov : (∃ l e, Explains w.mem.weight l w1.mem.weight ∧ (∀ ch ∈ l, ch.new < M128) ∧
      Controller.updateAllVotes (c.env e w1) w.gov l = .ok w1.gov ∧
      ∃ d, Distributor.exec w.dist (e.denv c.self) (.updateWeights (l.map (fun ch => (ch.user, ch.new)))) = .ok d ∧
        w1.dist = d.1) ∨
    (w1.gov = w.gov ∧ w1.dist = w.dist ∧ ∀ u, w1.mem.weight u = w.mem.weight u)
  same : w1 = { w with mem := w1.mem, gov := w1.gov, dist := w1.dist }

theorem deliver_quiet {c : Cfg} {e : Ext} {a : Addr} {w : World} {outs : List Out}
    (h : ∀ o ∈ outs, ∀ h l, o ≠ .notify h l) {r : World × List Item} (hr : deliver c e a w outs = .ok r) :
    r.1 = w ∧ ∀ i ∈ r.2, i = .other := by
  have hout : ∀ o ∈ outs, outItem c a o = .other := by
    intro o ho
    cases o with
    | notify x l => exact absurd rfl (h _ ho x l)
    | pay _ _ => rfl
    | sendNft _ _ => rfl
  have hmap : ∀ i ∈ outs.map (outItem c a), i = .other := by
    intro i hi
    obtain ⟨o, ho, rfl⟩ := List.mem_map.1 hi
    exact hout o ho
  cases outs with
  | nil => cases hr; exact ⟨rfl, fun i hi => (by cases hi)⟩
  | cons o t =>
    cases o with
    | notify x l => exact absurd rfl (h _ List.mem_cons_self x l)
    | pay _ _ => cases hr; exact ⟨rfl, hmap⟩
    | sendNft _ _ => cases hr; exact ⟨rfl, hmap⟩

theorem handle_mem {c : Cfg} (hw : c.Wf) {e : Ext} {w : World} {a : Addr} {m : MemberMsg} {r : World × List Item}
    (h : w.mem.Ok c.self) (ha : a = c.self → m.tame = true) (hr : handle c e w a (.mem m) = .ok r) :
    MemStep c w r.1 r.2 := by
  simp only [handle, bind_ok_iff] at hr
  obtain ⟨x, h1, h2⟩ := hr
  have hrep := Member.exec_ok (e := ⟨c.menv e w a, e.proxy⟩) h rfl ha h1
  rcases hrep.report with ⟨l, ho, hex, hle⟩ | ⟨ho, hsame⟩
  · rw [ho] at h2
    unfold deliver at h2
    rw [if_pos rfl] at h2
    simp only [bind_ok_iff] at h2
    obtain ⟨y, hy, d, hd, h3⟩ := h2
    cases h3
    rcases Controller.weightsChanged_ok_iff.1 hy with ⟨hc, _⟩ | ⟨_, _, hu, hs⟩
    · exact absurd hc hw.both
    rw [hs] at hd
    unfold updateDist at hd
    simp only [bind_ok_iff] at hd
    obtain ⟨d', hd', hd''⟩ := hd
    cases hd''
    refine ⟨hrep.ok, hrep.type, fun i hi => (by cases hi), Or.inl ⟨l, e, hex, ?_, ?_, d', hd', rfl⟩, rfl⟩
    · intro ch hch
      refine lt_of_le_of_lt (hle ch hch) ?_
      refine lt_of_le_of_lt (hrep.ok.weight_le _) ?_
      rw [hrep.ok.total]
      exact hrep.ok.small
    · exact hu
  · obtain ⟨h3, h4⟩ := deliver_quiet ho h2
    refine ⟨?_, ?_, h4, ?_, ?_⟩ <;> rw [h3]
    · exact hrep.ok
    · exact hrep.type
    · exact Or.inr ⟨rfl, rfl, hsame⟩

theorem handle_council {c : Cfg} {e : Ext} {w : World} {a : Addr} {m : Multisig.Msg}
    {r : World × List Item} (h : (Member.multisig w.council).Ok c.self)
    (ha : a = c.self → (Msg.council m).tame = true) (hr : handle c e w a (.council m) = .ok r) :
    (Member.multisig r.1.council).Ok c.self ∧ r.1 = { w with council := r.1.council } ∧ r.2 = [] := by
  simp only [handle, bind_ok_iff] at hr
  obtain ⟨x, h1, h2⟩ := hr
  have hadmin : (∃ z, m = .addHook z ∨ m = .removeHook z) → False := by
    rintro ⟨z, rfl | rfl⟩
    · simp only [Multisig.exec, bind_ok_iff, Members.addHook, ite_ok_iff, ne_eq, Classical.not_not] at h1
      obtain ⟨_, ⟨h1, _⟩, _⟩ := h1
      exact absurd (ha h1) (by simp [Msg.tame])
    · simp only [Multisig.exec, bind_ok_iff, Members.removeHook, ite_ok_iff, ne_eq, Classical.not_not] at h1
      obtain ⟨_, ⟨h1, _⟩, _⟩ := h1
      exact absurd (ha h1) (by simp [Msg.tame])
  obtain ⟨g1, g2, g3, g4, l, g5⟩ := multisig_hooks h.good h.small h.snap
    (fun z => ⟨fun hh => hadmin ⟨z, Or.inl hh⟩, fun hh => hadmin ⟨z, Or.inr hh⟩⟩) h1
  have g6 : x.2 = [.notify c.self l] := g5.trans (report_single (m := w.council) h.hooks l)
  rw [g6] at h2
  unfold deliver at h2
  rw [if_pos rfl] at h2
  simp only [bind_ok_iff] at h2
  obtain ⟨y, hy, d, hd, h3⟩ := h2
  cases h3
  rcases Controller.weightsChanged_ok_iff.1 hy with ⟨_, rfl⟩ | ⟨hc, _⟩
  · cases hd
    exact ⟨⟨g1, g3.trans h.hooks, g4, g2⟩, rfl, rfl⟩
  · exact absurd rfl hc

/-- What a message to the controller does. -/
structure CtlHandled (c : Cfg) (e : Ext) (w : World) (a : Addr) (m : Controller.Msg) (w1 : World) (subs : List Item)
    (r : Controller.State × Gov.State × List Sub) : Prop where
  exec : Controller.exec (c.env e w) a w.ctl w.gov m = .ok r
  world : w1 = { w with ctl := r.1, gov := r.2.1, log := w.log ++ ranOf m ++ r.2.2.filterMap eventOf }
  subs : subs = r.2.2.map (toItem c w.mem)

theorem handle_ctl {c : Cfg} {e : Ext} {w : World} {a : Addr} {m : Controller.Msg} {x : World × List Item}
    (hr : handle c e w a (.ctl m) = .ok x) : ∃ r, CtlHandled c e w a m x.1 x.2 r := by
  simp only [handle, bind_ok_iff, pure_ok_iff] at hr
  obtain ⟨r, h1, rfl⟩ := hr
  exact ⟨r, h1, rfl, rfl⟩

/-- What any message does. -/
structure Handled (c : Cfg) (w : World) (a : Addr) (m : Msg) (w1 : World) (subs : List Item) : Prop where
  base : Base c w1
  allowed : ∀ i ∈ subs, Allowed c i
  step : CtlStep w.ctl w1.ctl w.gov w1.gov
  block : w1.block = w.block
  type : w1.mem.daoType = w.mem.daoType
  kind : (∃ e m' r, m = .ctl m' ∧ CtlHandled c e w a m' w1 subs r) ∨
    ((∀ m', m ≠ .ctl m') ∧ w1.ctl = w.ctl ∧ w1.log = w.log ∧ ∀ i ∈ subs, i = .other)

/-- Senders and messages that occur under the assumption on custom messages. -/
def Known (c : Cfg) (a : Addr) (m : Msg) : Prop :=
  c.outsider a ∨ (a = c.self ∧ (m.tame = true ∨ ∃ id, m = .ctl (.executeActions id)))

theorem toItem_allowed {c : Cfg} (ht : c.Tame) (x : Member) {s : Sub} (hs : s.ofAction) : Allowed c (toItem c x s) := by
  cases s with
  | actions _ => cases hs
  | deposit _ _ => cases hs
  | takeNft _ _ => cases hs
  | treasury _ _ => trivial
  | enterprise _ => trivial
  | council l => exact Or.inr ⟨rfl, rfl⟩
  | unlocking d => cases x <;> exact Or.inr ⟨rfl, rfl⟩
  | members l => exact Or.inr ⟨rfl, rfl⟩
  | distributor m =>
    obtain ⟨w, rfl⟩ := hs
    exact Or.inr ⟨rfl, rfl⟩
  | deploy _ => trivial
  | custom n =>
    show Allowed c (match c.decode n with | some (some m) => Item.call c.self m | _ => .other)
    cases hn : c.decode n with
    | none => trivial
    | some y =>
      cases y with
      | none => trivial
      | some m => exact Or.inr ⟨rfl, ht n m hn⟩

theorem ctl_subs {c : Cfg} {e : Controller.Env} (ht : c.Tame) {u : Addr} {s : Controller.State} {g : Gov.State}
    {m : Controller.Msg} (x : Member) {r : Controller.State × Gov.State × List Sub}
    (hm : ∀ l, m = .weightsChanged l → u ≠ e.comps.membership)
    (h : Controller.exec e u s g m = .ok r) : ∀ i ∈ r.2.2.map (toItem c x), Allowed c i := by
  have hcreate : m.isCreate = true → ∀ i ∈ r.2.2.map (toItem c x), Allowed c i := by
    intro hm i hi
    obtain ⟨_, _, _, h1⟩ := Controller.created_exec hm h
    obtain ⟨y, hy, rfl⟩ := List.mem_map.1 hi
    obtain ⟨_, _, rfl⟩ := h1 y hy
    trivial
  cases m with
  | createProposal p f => exact hcreate rfl
  | createWithNft p l => exact hcreate rfl
  | createCouncil p => exact hcreate rfl
  | receive f a p => exact hcreate rfl
  | castVote id o =>
    simp only [Controller.exec, bind_ok_iff, pure_ok_iff] at h
    obtain ⟨r1, h1, rfl⟩ := h
    intro i hi; cases hi
  | castCouncilVote id o =>
    simp only [Controller.exec, bind_ok_iff, pure_ok_iff] at h
    obtain ⟨r1, h1, rfl⟩ := h
    intro i hi; cases hi
  | execute id =>
    simp only [Controller.exec] at h
    obtain ⟨_, inf, p, _, _, _, _, _, _, _, rfl⟩ := Controller.executeProposal_ok_iff.1 h
    have hdep : ∀ (id : Nat) (a : Controller.DepositAsset) (to : Addr), ∀ i ∈ (Controller.sendDeposit id a to).map (toItem c x),
        Allowed c i := by
      intro id a to i hi
      unfold Controller.sendDeposit at hi
      rw [List.map_map] at hi
      obtain ⟨y, _, rfl⟩ := List.mem_map.1 hi
      trivial
    have hret : ∀ i ∈ (Controller.returnDeposit id inf).map (toItem c x), Allowed c i := by
      unfold Controller.returnDeposit
      cases inf.deposit with
      | none => intro i hi; cases hi
      | some d => exact hdep _ _ _
    intro i hi
    simp only at hi
    unfold Controller.outcomeSubs at hi
    split at hi
    · rcases List.mem_cons.1 hi with rfl | hi
      · trivial
      · exact hret i hi
    · unfold Controller.rejectedDeposit at hi
      split at hi
      · cases hi
      · split at hi
        · split at hi
          · exact hdep _ _ _ i hi
          · cases hi
        · exact hret i hi
    · cases hi
  | weightsChanged l =>
    simp only [Controller.exec, bind_ok_iff, pure_ok_iff] at h
    obtain ⟨r1, h1, rfl⟩ := h
    rcases Controller.weightsChanged_ok_iff.1 h1 with ⟨_, rfl⟩ | ⟨_, h2, _⟩
    · intro i hi; cases hi
    · exact absurd h2 (hm l rfl)
  | executeActions id =>
    simp only [Controller.exec, bind_ok_iff, pure_ok_iff] at h
    obtain ⟨r1, h1, rfl⟩ := h
    obtain ⟨_, i, _, h2⟩ := Controller.executeActions_ok_iff.1 h1
    intro i hi
    obtain ⟨y, hy, rfl⟩ := List.mem_map.1 hi
    exact toItem_allowed ht x ((Controller.actAll_ok _ h2).2 y hy)
  | deployInitial =>
    simp only [Controller.exec, bind_ok_iff, pure_ok_iff] at h
    obtain ⟨r1, h1, rfl⟩ := h
    obtain ⟨_, _, rfl⟩ := Controller.deployInitial_ok_iff.1 h1
    intro i hi
    simp only [List.map_map] at hi
    obtain ⟨y, _, rfl⟩ := List.mem_map.1 hi
    trivial

theorem handled {c : Cfg} (hw : c.Wf) (ht : c.Tame) {e : Ext} {w w1 : World} {a : Addr} {m : Msg} {subs : List Item}
    (h : Base c w) (hk : Known c a m) (room : w.gov.pollCount + 1 < 2 ^ 64)
    (hr : handle c e w a m = .ok (w1, subs)) : Handled c w a m w1 subs := by
  have hself : c.outsider a → a ≠ c.self := fun hh => hh.1
  cases m with
  | ctl m =>
    obtain ⟨r, hx⟩ := handle_ctl hr
    have hnm : ∀ l, m = .weightsChanged l → a ≠ (c.env e w).comps.membership := by
      intro l hl
      rcases hk with hk | ⟨rfl, _⟩
      · exact hk.2.1
      · exact fun hh => hw.membership hh.symm
    have hwc : ∀ l, m = .weightsChanged l → r.2.1 = w.gov ∧ r.1 = w.ctl := by
      rintro l rfl
      have := hx.exec
      simp only [Controller.exec, bind_ok_iff, pure_ok_iff] at this
      obtain ⟨r1, h1, rfl⟩ := this
      rcases Controller.weightsChanged_ok_iff.1 h1 with ⟨_, rfl⟩ | ⟨_, h2, _⟩
      · exact ⟨rfl, rfl⟩
      · exact absurd h2 (hnm l rfl)
    have hboth : CtlInv c.self w.mem.daoType w.block.time r.1 r.2.1 ∧ CtlStep w.ctl r.1 w.gov r.2.1 := by
      by_cases hm : ∃ l, m = .weightsChanged l
      · obtain ⟨l, hl⟩ := hm
        obtain ⟨h1, h2⟩ := hwc l hl
        rw [h1, h2]
        exact ⟨h.ctl, CtlStep.refl _ _⟩
      · exact ctl_exec (e := c.env e w) h.ctl (h.env e) room (fun l hl => absurd ⟨l, hl⟩ hm) hx.exec
    have hsub := ctl_subs ht w.mem hnm hx.exec
    have hworld := hx.world
    have hs := hx.subs
    simp only at hworld hs
    refine ⟨?_, ?_, ?_, ?_, ?_, Or.inl ⟨e, m, r, rfl, hx⟩⟩
    · rw [hworld]; exact ⟨hboth.1, h.mem, h.council⟩
    · rw [hs]; exact hsub
    · rw [hworld]; exact hboth.2
    · rw [hworld]
    · rw [hworld]
  | gov m =>
    exfalso
    simp only [handle, bind_ok_iff] at hr
    obtain ⟨g, h1, _⟩ := hr
    unfold Gov.exec at h1
    rw [ite_ok_iff] at h1
    have hadm := h.ctl.gov.admin
    rcases hk with hk | ⟨_, hk | ⟨id, hk⟩⟩
    · exact h1.1 (fun hh => hk.1 (hh.trans hadm))
    · cases hk
    · cases hk
  | dist m =>
    simp only [handle, bind_ok_iff, pure_ok_iff] at hr
    obtain ⟨r, h1, h2⟩ := hr
    cases h2
    have hoth : ∀ i ∈ r.2.map (fun _ => Item.other), i = .other := by
      intro i hi
      obtain ⟨_, _, rfl⟩ := List.mem_map.1 hi
      rfl
    refine ⟨⟨h.ctl, h.mem, h.council⟩, ?_, CtlStep.refl _ _, rfl, rfl,
      Or.inr ⟨fun m' hh => (by cases hh), rfl, rfl, hoth⟩⟩
    intro i hi
    rw [hoth i hi]; trivial
  | mem m =>
    have hm : a = c.self → m.tame = true := by
      intro ha
      rcases hk with hk | ⟨_, hk | ⟨id, hk⟩⟩
      · exact absurd ha hk.1
      · exact hk
      · cases hk
    have hs := handle_mem hw h.mem hm hr
    simp only at hs
    have hctl : CtlInv c.self w1.mem.daoType w1.block.time w1.ctl w1.gov ∧ CtlStep w.ctl w1.ctl w.gov w1.gov := by
      have hb : w1.block = w.block := by rw [hs.same]
      have hc : w1.ctl = w.ctl := by rw [hs.same]
      rw [hs.type, hb, hc]
      rcases hs.gov with ⟨l, e', _, hl, hu, _⟩ | ⟨hg, _⟩
      · refine ⟨?_, infos_same rfl, polls_updateAll l hu⟩
        have hci : CtlInv (c.env e' w1).self (c.env e' w1).daoType (c.env e' w1).block.time w.ctl w.gov := by
          show CtlInv c.self w1.mem.daoType w1.block.time w.ctl w.gov
          rw [hs.type, hb]; exact h.ctl
        have := (updateAll_inv l hl hci hu).1
        change CtlInv c.self w1.mem.daoType w1.block.time w.ctl w1.gov at this
        rwa [hs.type, hb] at this
      · rw [hg]; exact ⟨h.ctl, CtlStep.refl _ _⟩
    refine ⟨⟨hctl.1, hs.ok, ?_⟩, ?_, hctl.2, by rw [hs.same], hs.type,
      Or.inr ⟨fun m' hh => (by cases hh), by rw [hs.same], by rw [hs.same], hs.subs⟩⟩
    · rw [hs.same]; exact h.council
    · intro i hi
      rw [hs.subs i hi]; trivial
  | council m =>
    have hm : a = c.self → (Msg.council m).tame = true := by
      intro ha
      rcases hk with hk | ⟨_, hk | ⟨id, hk⟩⟩
      · exact absurd ha hk.1
      · exact hk
      · cases hk
    obtain ⟨h1, h2, h3⟩ := handle_council h.council hm hr
    simp only at h1 h2 h3
    refine ⟨⟨?_, ?_, h1⟩, ?_, ?_, by rw [h2], by rw [h2],
      Or.inr ⟨fun m' hh => (by cases hh), by rw [h2], by rw [h2], ?_⟩⟩
    · rw [h2]; exact h.ctl
    · rw [h2]; exact h.mem
    · rw [h3]; intro i hi; cases hi
    · rw [h2]; exact CtlStep.refl _ _
    · rw [h3]; intro i hi; cases hi

/-! ### Induction over executions -/

theorem Calls.allowed {c : Cfg} {l : List Item} (h : Calls c l) : ∀ i ∈ l, Allowed c i := by
  intro i hi
  obtain ⟨a, m, rfl, ha⟩ := h i hi
  exact Or.inl ha

/-- What executions do to the stored proposals, the block and the DAO type. -/
structure Moved (w w' : World) : Prop where
  step : CtlStep w.ctl w'.ctl w.gov w'.gov
  block : w'.block = w.block
  type : w'.mem.daoType = w.mem.daoType

theorem Moved.refl (w : World) : Moved w w := ⟨CtlStep.refl _ _, rfl, rfl⟩

theorem Moved.trans {w w1 w2 : World} (h1 : Moved w w1) (h2 : Moved w1 w2) : Moved w w2 :=
  ⟨h1.step.trans h2.step, h2.block.trans h1.block, h2.type.trans h1.type⟩

theorem Handled.moved {c : Cfg} {w w1 : World} {a : Addr} {m : Msg} {subs : List Item} (h : Handled c w a m w1 subs) :
    Moved w w1 := ⟨h.step, h.block, h.type⟩

/-- Cases of an induction over executions. -/
structure Cases (c : Cfg) (P : World → List Item → World → Prop) : Prop where
  nil : ∀ w, Base c w → P w [] w
  call : ∀ w w1 w2 w3 a m subs rest e, Base c w → Base c w2 → Base c w3 → Moved w1 w2 → Moved w2 w3 →
    (c.outsider a ∨ (a = c.self ∧ m.tame = true)) → w.gov.pollCount + 1 < 2 ^ 64 →
    handle c e w a m = .ok (w1, subs) → Handled c w a m w1 subs →
    P w1 subs w2 → P w2 rest w3 → P w (.call a m :: rest) w3
  actions : ∀ w w1 w2 w3 id subs rest e, Base c w → Base c w2 → Base c w3 → Moved w1 w2 → Moved w2 w3 → w.gov.pollCount + 1 < 2 ^ 64 →
    handle c e w c.self (.ctl (.executeActions id)) = .ok (w1, subs) →
    Handled c w c.self (.ctl (.executeActions id)) w1 subs →
    P w1 subs w2 → P w2 rest w3 → P w (.actions id :: rest) w3
  failed : ∀ w w1 id rest, Base c w → Base c w1 → P w rest w1 → P w (.actions id :: rest) w1
  deposit : ∀ w w1 w2 id t calls rest, Base c w → Base c w1 → Base c w2 → Calls c calls →
    Moved w w1 → Moved w1 w2 → P { w with log := w.log ++ [.paid id t] } calls w1 → P w1 rest w2 →
    P w (.deposit id t :: rest) w2
  other : ∀ w w1 w2 calls rest, Base c w → Base c w1 → Base c w2 → Calls c calls →
    Moved w w1 → Moved w1 w2 → P w calls w1 → P w1 rest w2 → P w (.other :: rest) w2

theorem Exec.induct {c : Cfg} (hw : c.Wf) (ht : c.Tame) {P : World → List Item → World → Prop} (hP : Cases c P)
    {w w' : World} {l : List Item} (h : Exec c w l w') : (∀ i ∈ l, Allowed c i) → Base c w →
      Base c w' ∧ Moved w w' ∧ P w l w' := by
  induction h with
  | nil w => intro _ hb; exact ⟨hb, Moved.refl _, hP.nil w hb⟩
  | @call w w1 w2 w3 a m subs rest e room h h1 h2 ih1 ih2 =>
    intro hl hb
    have ha : c.outsider a ∨ (a = c.self ∧ m.tame = true) := hl _ List.mem_cons_self
    have hk : Known c a m := by
      rcases ha with ha | ⟨ha, hm⟩
      · exact Or.inl ha
      · exact Or.inr ⟨ha, Or.inl hm⟩
    have hh := handled hw ht hb hk room h
    obtain ⟨b2, m2, p2⟩ := ih1 hh.allowed hh.base
    obtain ⟨b3, m3, p3⟩ := ih2 (fun i hi => hl i (List.mem_cons_of_mem _ hi)) b2
    exact ⟨b3, hh.moved.trans (m2.trans m3), hP.call _ _ _ _ _ _ _ _ e hb b2 b3 m2 m3 ha room h hh p2 p3⟩
  | @actions w w1 w2 w3 id subs rest e room h h1 h2 ih1 ih2 =>
    intro hl hb
    have hk : Known c c.self (.ctl (.executeActions id)) := Or.inr ⟨rfl, Or.inr ⟨id, rfl⟩⟩
    have hh := handled hw ht hb hk room h
    obtain ⟨b2, m2, p2⟩ := ih1 hh.allowed hh.base
    obtain ⟨b3, m3, p3⟩ := ih2 (fun i hi => hl i (List.mem_cons_of_mem _ hi)) b2
    exact ⟨b3, hh.moved.trans (m2.trans m3), hP.actions _ _ _ _ _ _ _ e hb b2 b3 m2 m3 room h hh p2 p3⟩
  | failed h ih =>
    intro hl hb
    obtain ⟨b1, m1, p1⟩ := ih (fun i hi => hl i (List.mem_cons_of_mem _ hi)) hb
    exact ⟨b1, m1, hP.failed _ _ _ _ hb b1 p1⟩
  | @deposit w w1 w2 id t calls rest hc h1 h2 ih1 ih2 =>
    intro hl hb
    obtain ⟨b1, m1, p1⟩ := ih1 hc.allowed ⟨hb.ctl, hb.mem, hb.council⟩
    obtain ⟨b2, m2, p2⟩ := ih2 (fun i hi => hl i (List.mem_cons_of_mem _ hi)) b1
    have m1' : Moved w w1 := ⟨m1.step, m1.block, m1.type⟩
    exact ⟨b2, m1'.trans m2, hP.deposit _ _ _ _ _ _ _ hb b1 b2 hc m1' m2 p1 p2⟩
  | @other w w1 w2 calls rest hc h1 h2 ih1 ih2 =>
    intro hl hb
    obtain ⟨b1, m1, p1⟩ := ih1 hc.allowed hb
    obtain ⟨b2, m2, p2⟩ := ih2 (fun i hi => hl i (List.mem_cons_of_mem _ hi)) b1
    exact ⟨b2, m1.trans m2, hP.other _ _ _ _ _ hb b1 b2 hc m1 m2 p1 p2⟩

theorem Exec.moved {c : Cfg} (hw : c.Wf) (ht : c.Tame) {w w' : World} {l : List Item} (h : Exec c w l w')
    (hl : ∀ i ∈ l, Allowed c i) (hb : Base c w) : Base c w' ∧ Moved w w' := by
  have hP : Cases c (fun _ _ _ => True) := by constructor <;> intros <;> trivial
  obtain ⟨h1, h2, _⟩ := h.induct hw ht hP hl hb
  exact ⟨h1, h2⟩

theorem Genesis.base {c : Cfg} {w : World} (h : Genesis c w) : Base c w := by
  refine ⟨?_, Member.fresh_ok h.mem, ?_⟩
  · obtain ⟨cfg, spec, tr, hc⟩ := h.ctl
    obtain ⟨h1, h2, h3⟩ := Controller.init_ok hc
    rw [h3, h.gov]
    refine ⟨GovHist.init _, ⟨rfl, rfl, rfl⟩, h1, ?_, fun id => rfl, fun id i p hi => (by cases hi),
      fun id i hi => (by cases hi), fun id i hi => (by cases hi), fun id p hp => (by cases hp),
      fun id i p x hi => (by cases hi), fun id p hp => (by cases hp)⟩
    intro c hc
    cases spec with
    | none => cases hc
    | some x => cases hc; exact (h2 x rfl).2
  · obtain ⟨l, hl⟩ := h.council
    obtain ⟨h1, h2, h3, h4⟩ := multisig_init_ok hl
    exact ⟨h1, h2, h3, h4⟩

theorem Reachable.base {c : Cfg} (hw : c.Wf) (ht : c.Tame) {w : World} (h : Reachable c w) : Base c w := by
  induction h with
  | init h => exact h.base
  | @tx w w1 a m h ha hx ih =>
    exact (hx.moved hw ht (fun i hi => by rw [List.mem_singleton.1 hi]; exact Or.inl ha) ih).1
  | @block w b h hh htm ih =>
    exact ⟨{ ih.ctl with started := fun id p hp => le_trans (ih.ctl.started id p hp) htm }, ih.mem, ih.council⟩

end Verif.Dao
