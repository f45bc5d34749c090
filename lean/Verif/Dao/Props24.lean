import Verif.Dao.Calm
import Verif.Dao.SimTrace
import Verif.Dao.Props9

/-!
# C142: without the assumption on custom messages

Proposals can carry custom messages, which the controller sends in its own name. Nothing is assumed here about what they can
say. The guarantees hold until the first proposal is run whose actions forge a message that the contracts of the DAO expect
from one another only, and that proposal is a general one which passed with the backing of the members.
-/

namespace Verif.Dao
open Verif
open Verif.Controller (Info Action)

/-- On the way from `w0` to `w` by a history with the messages `t`, the contracts were in state `v`: between two
transactions or blocks, or within a transaction, when one of its messages was to be handled. -/
inductive Before (c : Cfg) (w0 w : World) (t : List Entry) (v : World) : Prop
  | between {t1 t2 : List Entry} (h1 : History c w0 v t1) (h2 : History c v w t2) (ht : t = t1 ++ t2)
  | during {x : Entry} (hx : x ∈ t) (hv : x.world = v)

theorem Before.tx {c : Cfg} {w0 w w1 v : World} {t t1 : List Entry} {a : Addr} {m : Msg} (h : Before c w0 w t v)
    (ha : c.outsider a) (hx : Traced c w [.call a m] w1 t1) : Before c w0 w1 (t ++ t1) v := by
  cases h with
  | between h1 h2 ht => exact .between h1 (h2.tx ha hx) (by rw [ht, List.append_assoc])
  | during hx hv => exact .during (List.mem_append_left _ hx) hv

theorem Before.block {c : Cfg} {w0 w v : World} {t : List Entry} (h : Before c w0 w t v) {b : Block}
    (hh : w.block.height ≤ b.height) (ht : w.block.time ≤ b.time) : Before c w0 { w with block := b } t v := by
  cases h with
  | between h1 h2 ht' => exact .between h1 (h2.block hh ht) ht'
  | during hx hv => exact .during hx hv

theorem History.behind {c : Cfg} (hw : c.Wf) (ht : c.Tame) {w0 w : World} {t : List Entry} (h0 : Genesis c w0)
    (h : History c w0 w t) : Behind c (Before c w0 w t) w := by
  induction h with
  | start => exact .init h0 _
  | @tx w1 w2 a m t t1 h ha hx ih =>
    have hr : Reachable c w1 := h.later.reachable (.init h0)
    obtain ⟨_, _, hmov, hres⟩ := hx.tracks hw ht
      (fun i hi => by rw [List.mem_singleton.1 hi]; exact Or.inl ha) (hr.base hw ht) (hr.tally hw ht)
    have hl1 : Later c w1 w2 := .tx .refl ha hx.exec
    exact ih.step hw ht (hr.base hw ht) (hl1.settles hw ht hr) hmov hres (fun v hv => hv.tx ha hx)
      (fun x hx => .during (List.mem_append_right _ hx) rfl)
  | @block w1 b t h hh htm ih =>
    have hr : Reachable c w1 := h.later.reachable (.init h0)
    exact ih.block hr (hr.timely hw ht) (fun v hv => hv.block hh htm)
      (.between h (.block .start hh htm) (List.append_nil _).symm) htm

theorem Before.uncalm {c : Cfg} {w0 w v : World} {t : List Entry} (hc : Calm c t) (h : Before c.calm w0 w t v) :
    Before c w0 w t v := by
  cases h with
  | between h1 h2 ht =>
    obtain ⟨c1, c2⟩ := Calm.append.1 (ht ▸ hc)
    exact .between (h1.uncalm c1) (h2.uncalm c2) ht
  | during hx hv => exact .during hx hv

/-! ### The first breach -/

theorem first_breach {c : Cfg} : ∀ (t : List Entry), ¬ Calm c t →
    ∃ t1 x t2, t = t1 ++ x :: t2 ∧ Calm c t1 ∧ ¬ x.calm c := by
  intro t
  induction t with
  | nil => intro h; exact absurd (fun x hx => (by cases hx)) h
  | cons x t ih =>
    intro h
    by_cases hx : x.calm c
    · obtain ⟨t1, y, t2, rfl, h1, h2⟩ := ih (fun ht => h (Calm.cons.2 ⟨hx, ht⟩))
      exact ⟨x :: t1, y, t2, rfl, Calm.cons.2 ⟨hx, h1⟩, h2⟩
    · exact ⟨[], x, t, rfl, fun y hy => (by cases hy), hx⟩

/-- The first run of actions that forge a message, in a history from `w0` to `w` with the messages `t`. `t1` are the
messages of the transactions before, which lead to `w1`; `t2` those before it in the same transaction. -/
structure FirstBreach (c : Cfg) (w0 w : World) (t t1 t2 : List Entry) (w1 : World) (x : Entry) (id : Nat) : Prop where
  trace : ∃ t3, t = t1 ++ (t2 ++ x :: t3)
  before : History c w0 w1 t1
  within : ∃ a m w2 t3, c.outsider a ∧ Traced c w1 [.call a m] w2 (t2 ++ x :: t3) ∧ Later c w2 w
  calm : Calm c (t1 ++ t2)
  runs : x.sender = c.self ∧ x.msg = .ctl (.executeActions id)
  /-- an action asks for a message that is forged -/
  forges : ∃ i a m, x.world.ctl.infos.get id = some i ∧ a ∈ i.actions ∧ Says c a m ∧ m.tame = false

/-- Whatever custom messages can say: in every history of a DAO, either no proposal that was run forged a message, or the
first one that did is a general proposal which had passed, whose actions had not been run before, and which the members
backed with their weights at a moment before the end of voting. -/
theorem C142_first_breach {c : Cfg} (hw : c.Wf) {w0 w : World} {t : List Entry} (h0 : Genesis c w0)
    (h : History c w0 w t) : Calm c t ∨ ∃ t1 t2 w1 x id, FirstBreach c w0 w t t1 t2 w1 x id ∧
      (∃ i, x.world.ctl.infos.get id = some i ∧ i.type = .general) ∧ (∃ o n, outcome x.world id = some (.passed o n)) ∧
      ranCount x.world id = 0 ∧
      ∃ v p, Gov.queryPoll x.world.gov id = .ok p ∧ (Before c w0 w1 t1 v ∨ ∃ y ∈ t2, y.world = v) ∧
        Backed v x.world id p := by
  induction h with
  | start => exact Or.inl (fun x hx => (by cases hx))
  | @block w1 b t h hh htm ih =>
    rcases ih with hc | ⟨t1, t2, w2, x, id, hf, hrest⟩
    · exact Or.inl hc
    · refine Or.inr ⟨t1, t2, w2, x, id, ⟨hf.trace, hf.before, ?_, hf.calm, hf.runs, hf.forges⟩, hrest⟩
      obtain ⟨a, m, w3, t3, k1, k2, k3⟩ := hf.within
      exact ⟨a, m, w3, t3, k1, k2, k3.block hh htm⟩
  | @tx w1 w2 a m t t' h ha hx ih =>
    rcases ih with hc | ⟨t1, t2, w3, x, id, hf, hrest⟩
    · by_cases hc' : Calm c t'
      · exact Or.inl (Calm.append.2 ⟨hc, hc'⟩)
      · obtain ⟨t2, x, t3, rfl, h2, h3⟩ := first_breach t' hc'
        have hmid := hx.midway (c := c) (w0 := w1) (l0 := [.call a m]) (t0 := []) (rest := []) (by rw [List.append_nil]; exact .start)
        obtain ⟨i, rest, v1, subs, hm, hi, hhandle⟩ := hmid.split (List.nil_append _)
        have hwc := calm_wf hw
        have htc := calm_tame c
        have h0c := calm_genesis h0
        have hhc := h.calm hc
        have hrc : Reachable c.calm w1 := hhc.later.reachable (.init h0c)
        have hmc := hm.calm h2
        have ham := hmc.amid hwc htc hrc ha
        -- it runs the actions of a proposal
        obtain ⟨id, hid⟩ : ∃ id, x.msg = .ctl (.executeActions id) := by
          by_contra hno
          apply h3
          intro y hy
          unfold actionsRun at hy
          split at hy
          · rename_i id hid
            exact absurd ⟨id, hid⟩ hno
          · cases hy
        have hhandle' := hhandle
        rw [hid] at hhandle'
        obtain ⟨r, hctl⟩ := handle_ctl hhandle'
        have hexec := hctl.exec
        simp only [Controller.exec, bind_ok_iff, pure_ok_iff] at hexec
        obtain ⟨r1, hexec, _⟩ := hexec
        obtain ⟨hself, j, hj, _⟩ := Controller.executeActions_ok_iff.1 hexec
        have hself : x.sender = c.self := hself
        -- it was dispatched by the controller
        have hq : i = .actions id := by
          rcases hi with rfl | ⟨id', rfl, _, hid'⟩
          · have hal := ham.allowed _ List.mem_cons_self
            rw [hid] at hal
            rcases hal with hal | ⟨_, hal⟩
            · exact absurd hself hal.1
            · cases hal
          · rw [hid] at hid'
            cases hid'
            rfl
        subst hq
        have hran := ham.ran id
        have hsent := ham.sent id
        rw [queued_cons] at hran
        have hone : (if (Item.actions id).batch = some id then 1 else 0) = 1 := if_pos rfl
        rw [batches_eq] at hsent
        have hpass : ranCount x.world id = 0 ∧ ∃ o n, outcome x.world id = some (.passed o n) := by
          cases ho : outcome x.world id with
          | none =>
            rw [ho] at hsent
            simp only at hsent
            omega
          | some st =>
            rw [ho] at hsent
            simp only at hsent
            cases hst : isPassed st with
            | false =>
              rw [hst] at hsent
              simp at hsent
              omega
            | true =>
              rw [hst] at hsent
              simp only [if_true] at hsent
              obtain ⟨o, n, rfl⟩ := (isPassed_iff st).1 hst
              exact ⟨by omega, o, n, rfl⟩
        obtain ⟨hran0, o, n, hpass⟩ := hpass
        -- some action forges a message
        have hforge : ∃ b m', b ∈ j.actions ∧ Says c b m' ∧ m'.tame = false := by
          by_contra hno
          apply h3
          intro b hb m' hs
          unfold actionsRun at hb
          rw [hid] at hb
          simp only at hb
          rw [hj] at hb
          cases hm' : m'.tame with
          | true => rfl
          | false => exact absurd ⟨b, m', hb, hs, hm'⟩ hno
        obtain ⟨b, m', hb, hs, hm'⟩ := hforge
        have hgen : j.type = .general := by
          cases hty : j.type with
          | general => rfl
          | council => exact absurd ((ham.base.ctl.free id j hj hty).2 b hb) (says_harmful hs)
        obtain ⟨_, p, _, hp, _⟩ := outcome_some hpass
        have hbeh : Behind c.calm (fun v => Before c.calm w0 w1 t v ∨ ∃ y ∈ t2, y.world = v) x.world :=
          (hhc.behind hwc htc h0c).step hwc htc (hrc.base hwc htc) ham.settles ham.tracks.2.1 ham.tracks.2.2
            (fun v hv => Or.inl hv) (fun y hy => Or.inr ⟨y, hy, rfl⟩)
        obtain ⟨v, k1, _, k2⟩ := hbeh.passed id j p o n hj hgen hp hpass
        refine Or.inr ⟨t, t2, w1, x, id, ⟨⟨t3, rfl⟩, h, ⟨a, m, w2, t3, ha, hx, .refl⟩, Calm.append.2 ⟨hc, h2⟩, ⟨hself, hid⟩,
          j, b, m', hj, hb, hs, hm'⟩, ⟨j, hj, hgen⟩, ⟨o, n, hpass⟩, hran0, v, p, Controller.queryPoll_ok_iff.2 hp, ?_, k2⟩
        rcases k1 with k1 | k1
        · exact Or.inl (k1.uncalm hc)
        · exact Or.inr k1
    · obtain ⟨t3, rfl⟩ := hf.trace
      refine Or.inr ⟨t1, t2, w3, x, id, ⟨⟨t3 ++ t', by simp⟩, hf.before, ?_, hf.calm, hf.runs, hf.forges⟩, hrest⟩
      obtain ⟨a', m', w4, t4, k1, k2, k3⟩ := hf.within
      exact ⟨a', m', w4, t4, k1, k2, k3.tx ha hx.exec⟩

/-! ### Until then -/

/-- As long as no proposal that was run forged a message: the actions of each proposal were dispatched at most once, and
exactly if it passed; they were run at most as often; its deposit was not paid before, and once after its resolution. -/
theorem C142_once {c : Cfg} (hw : c.Wf) {w0 w : World} {t : List Entry} (h0 : Genesis c w0)
    (h : History c w0 w t) (hc : Calm c t) (id : Nat) :
    ranCount w id ≤ sentCount w id ∧ sentCount w id ≤ 1 ∧
    (sentCount w id = 1 ↔ ∃ o n, outcome w id = some (.passed o n)) ∧
    (outcome w id = none → paidOut w id = []) ∧
    ∀ i st, w.ctl.infos.get id = some i → outcome w id = some st → paidOut w id = match i.deposit with
      | none => []
      | some d =>
        entire (if st = .rejected .quorumNotReached ∨ st = .rejected .isVetoOutcome then c.comps.treasury
          else d.depositor) d.asset := by
  have hr : Reachable c.calm w := (h.calm hc).later.reachable (.init (calm_genesis h0))
  have hwc := calm_wf hw
  have htc := calm_tame c
  obtain ⟨h1, h2⟩ := C44_at_most_once hwc htc hr id
  exact ⟨h1, h2, C44_dispatched_iff_passed hwc htc hr id, fun ho => C45_not_before_resolution hwc htc hr ho,
    fun i st hi ho => C45_paid_once hwc htc hr hi ho .refl⟩

/-- As long as no proposal that was run forged a message, members can unstake whatever they have staked. -/
theorem C142_exit {c : Cfg} (hw : c.Wf) {w0 w : World} {t : List Entry} (h0 : Genesis c w0)
    (h : History c w0 w t) (hc : Calm c t) {k : Staking.Kind} {s : Staking.State} (hm : w.mem = .staking k s) (u : Addr)
    {n : Nat} (hn : n ≤ w.mem.weight u) (hid : s.nextClaim + 1 < 2 ^ 64) (hroom : w.gov.pollCount + 1 < 2 ^ 64)
    (hf : RewardsFit w) (e : Ext) :
    ∃ w1 s1, handle c e w u (.mem (.staking (.unstake n))) = .ok (w1, []) ∧
      w1.mem = .staking k s1 ∧ w1.mem.weight u = w.mem.weight u - n ∧
      s1.claims.get s.nextClaim = some ⟨s.nextClaim, u, n, Staking.releaseAt s.unlocking w.block⟩ := by
  have hr : Reachable c.calm w := (h.calm hc).later.reachable (.init (calm_genesis h0))
  obtain ⟨w1, s1, k1, _, k2, k3, _, k4, _⟩ := C117_unstake (calm_wf hw) (calm_tame c) hr hm u hn hid hroom hf e
  refine ⟨w1, s1, ?_, k2, k3, k4⟩
  rw [← k1]
  exact (calm_handle (fun a ha => (by cases ha))).symm

/-- As long as no proposal that was run forged a message, the rules change only through a general proposal that the members
backed. -/
theorem C142_rules {c : Cfg} (hw : c.Wf) {w0 w w' : World} {t t' : List Entry} (h0 : Genesis c w0)
    (h : History c w0 w t) (h' : History c w w' t') (hc : Calm c (t ++ t')) (hne : ¬ SameRules w w') :
    ∃ id i v p, w'.ctl.infos.get id = some i ∧ i.type = .general ∧ ranCount w id = 0 ∧ ranCount w' id = 1 ∧
      Gov.queryPoll w'.gov id = .ok p ∧ Before c w0 w' (t ++ t') v ∧ Backed v w' id p := by
  obtain ⟨c1, c2⟩ := Calm.append.1 hc
  have hwc := calm_wf hw
  have htc := calm_tame c
  have hr : Reachable c.calm w := (h.calm c1).later.reachable (.init (calm_genesis h0))
  have hl := (h'.calm c2).later
  obtain ⟨id, i, _, p, k1, k2, k3, k4, k5, _, _⟩ := C136_amended hwc htc hr hl hne
  have hr' := hl.reachable hr
  obtain ⟨b1, b2⟩ := C44_at_most_once hwc htc hr' id
  obtain ⟨o, n, ho⟩ := (C44_dispatched_iff_passed hwc htc hr' id).1 (by omega)
  have hh := (h.calm c1).append (h'.calm c2)
  obtain ⟨v, j1, _, j2⟩ := (hh.behind hwc htc (calm_genesis h0)).passed id i p o n k1 k2 (Controller.queryPoll_ok_iff.1 k5) ho
  exact ⟨id, i, v, p, k1, k2, k3, k4, k5, j1.uncalm hc, j2⟩

/-- So when something was run that should not have been, the members once backed a proposal that forges a message: if
the actions of a proposal were run more often than they were dispatched, there was such a proposal before. -/
theorem C142_forged {c : Cfg} (hw : c.Wf) {w0 w : World} {t : List Entry} (h0 : Genesis c w0) (h : History c w0 w t)
    {id : Nat} (hbad : sentCount w id < ranCount w id) :
    ∃ t1 t2 w1 x j v p, FirstBreach c w0 w t t1 t2 w1 x j ∧ Gov.queryPoll x.world.gov j = .ok p ∧
      (Before c w0 w1 t1 v ∨ ∃ y ∈ t2, y.world = v) ∧ Backed v x.world j p := by
  rcases C142_first_breach hw h0 h with hc | ⟨t1, t2, w1, x, j, hf, _, _, _, v, p, h1, h2, h3⟩
  · have := (C142_once hw h0 h hc id).1
    omega
  · exact ⟨t1, t2, w1, x, j, v, p, hf, h1, h2, h3⟩

/-! ### Examples -/

/-- An action whose custom messages are not forged. -/
def mild (c : Cfg) : Action → Bool
  | .executeMsgs l => l.all (fun n => match c.decode n with | some (some m) => m.tame | _ => true)
  | _ => true

theorem calm_of_mild {c : Cfg} {t : List Entry} (h : (t.all (fun x => (actionsRun x).all (mild c))) = true) :
    Calm c t := by
  intro x hx a ha m hs
  have h1 := List.all_eq_true.1 (List.all_eq_true.1 h x hx) a ha
  cases hs with
  | custom hn hd =>
    have h2 := List.all_eq_true.1 h1 _ hn
    rw [hd] at h2
    exact h2
  | _ => rfl

/-- In a DAO whose proposals could forge messages, user 12's proposal passes, changes the quorum and sends custom
messages, none of which is forged. -/
example : ¬ forgeCfg.Tame ∧ forgeCfg.Wf ∧ ∃ w t, Genesis forgeCfg sampleGenesis ∧ History forgeCfg sampleGenesis w t ∧
    Calm forgeCfg t ∧ ranCount w 1 = 1 ∧ sentCount w 1 = 1 ∧ outcome w 1 = some (.passed 0 60) ∧
    paidOut w 1 = [.asset (.native 20) 30 12] ∧ w.mem.weight 11 = 40 ∧ ¬ SameRules sampleGenesis w := by
  refine ⟨fun h => ?_, ⟨by decide, by decide, by decide⟩, ?_⟩
  · exact absurd (h 9 (.ctl (.executeActions 1)) rfl) (by decide)
  · have hs : ((traceAll forgeCfg sampleGenesis sampleDone).map (fun r =>
        r.2.all (fun x => (actionsRun x).all (mild forgeCfg)) && decide (ranCount r.1 1 = 1 ∧ sentCount r.1 1 = 1 ∧
          outcome r.1 1 = some (.passed 0 60) ∧ paidOut r.1 1 = [.asset (.native 20) 30 12] ∧ r.1.mem.weight 11 = 40 ∧
          r.1.ctl.config ≠ sampleGenesis.ctl.config))) = some true := by decide +kernel
    obtain ⟨⟨w, t⟩, h1, h2⟩ := Option.map_eq_some_iff.1 hs
    simp only [Bool.and_eq_true, decide_eq_true_eq] at h2
    obtain ⟨h2, h3, h4, h5, h6, h7, h8⟩ := h2
    exact ⟨w, t, forge_genesis, traceAll_history _ .start h1, calm_of_mild h2, h3, h4, h5, h6, h7, fun h => h8 h.config⟩

/-- Later in the same DAO a rejected proposal is run by a forged message. That message is in a proposal that passed. -/
example : ∃ w t, Genesis forgeCfg sampleGenesis ∧ History forgeCfg sampleGenesis w t ∧ sentCount w 1 < ranCount w 1 ∧
    outcome w 2 = some (.passed 0 60) ∧ held (forgeRun (forgeLost.take 11)) 2 .yes = 60 := by
  have hs : ((traceAll forgeCfg sampleGenesis forgeLost).map (fun r =>
      decide (sentCount r.1 1 < ranCount r.1 1 ∧ outcome r.1 2 = some (.passed 0 60)))) = some true := by decide +kernel
  obtain ⟨⟨w, t⟩, h1, h2⟩ := Option.map_eq_some_iff.1 hs
  simp only [decide_eq_true_eq] at h2
  exact ⟨w, t, forge_genesis, traceAll_history _ .start h1, h2.1, h2.2, by decide +kernel⟩

end Verif.Dao
