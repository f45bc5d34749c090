import Verif.Dao.Props18
import Verif.Dao.Props21
import Verif.Dao.SimTrace

/-!
# The contracts of a DAO together: what the council passes is backed by the council, while nothing else disturbs it (C140)
-/

set_option linter.unusedSimpArgs false

namespace Verif.Dao
open Verif
open Verif.Controller (Info PType)
open Verif.Staking (At)

/-! ### Specification -/

/-- The message on record is one to the membership contract upon which that contract reports a weight of the user to the
controller. -/
def Entry.reports (c : Cfg) (x : Entry) (u : Addr) : Prop :=
  ∃ m r l, x.msg = .mem m ∧ x.world.mem.exec ⟨c.menv x.ext x.world x.sender, x.ext.proxy⟩ m = .ok r ∧
    .notify c.self l ∈ r.2 ∧ u ∈ l.map (·.user)

/-- No message on record is one to the council's contract, and the membership contract reports no weight of anybody in the
council. -/
def Undisturbed (c : Cfg) (w : World) (t : List Entry) : Prop :=
  ∀ x ∈ t, (∀ m, x.msg ≠ .council m) ∧ ∀ u, 0 < Multisig.queryWeight w.council u → ¬ x.reports c u

/-- What the council members who chose an option on a proposal weigh in the council together. -/
def seated (w : World) (id : Nat) (o : Gov.Outcome) : Nat := seats w (fun u => decide (choice w id u = some o))

/-! ### Votes -/

/-- A message to the membership contract leaves the votes of those whose weight it does not report. -/
theorem mem_unreported {c : Cfg} (hw : c.Wf) {e : Ext} {w w1 : World} {a : Addr} {m : MemberMsg} {subs : List Item}
    (hb : Base c w) (hk : Known c a (.mem m)) (hr : handle c e w a (.mem m) = .ok (w1, subs)) {u : Addr}
    (hu : ¬ Entry.reports c ⟨w, e, a, .mem m⟩ u) (id : Nat) :
    w1.gov.votes.get (Gov.vkey u id) = w.gov.votes.get (Gov.vkey u id) := by
  have ha : a = c.self → m.tame = true := by
    intro hs
    rcases hk with hk | ⟨_, hk | ⟨_, hk⟩⟩
    · exact absurd hs hk.1
    · exact hk
    · cases hk
  simp only [handle, bind_ok_iff] at hr
  obtain ⟨x, h1, h2⟩ := hr
  have hrep := Member.exec_ok (e := ⟨c.menv e w a, e.proxy⟩) hb.mem rfl ha h1
  rcases hrep.report with ⟨l, ho, hex, hle⟩ | ⟨ho, hsame⟩
  · have hnot : u ∉ l.map (·.user) := fun hin =>
      hu ⟨m, x, l, rfl, h1, by rw [ho]; exact List.mem_singleton_self _, hin⟩
    rw [ho] at h2
    unfold deliver at h2
    rw [if_pos rfl] at h2
    simp only [bind_ok_iff] at h2
    obtain ⟨y, hy, d, hd, h3⟩ := h2
    cases h3
    rcases Controller.weightsChanged_ok_iff.1 hy with ⟨hc, _⟩ | ⟨_, _, hup, hs⟩
    · exact absurd hc hw.both
    have hlt : ∀ ch ∈ l, ch.new < M128 := by
      intro ch hch
      refine lt_of_le_of_lt (hle ch hch) ?_
      refine lt_of_le_of_lt (hrep.ok.weight_le _) ?_
      rw [hrep.ok.total]
      exact hrep.ok.small
    have hci : CtlInv (c.env e { w with mem := x.1 }).self (c.env e { w with mem := x.1 }).daoType
        (c.env e { w with mem := x.1 }).block.time w.ctl w.gov := by
      have h1 : (c.env e { w with mem := x.1 }).daoType = w.mem.daoType := hrep.type
      rw [h1]
      exact hb.ctl
    obtain ⟨k1, k2⟩ := updateAll_votes l hlt hci hup hex
    by_cases hopen : Gov.openAt w.gov (c.env e { w with mem := x.1 }).block.time id
    · have := k1 id hopen u
      rw [if_neg hnot] at this
      exact this
    · exact k2 id hopen u
  · obtain ⟨h3, _⟩ := deliver_quiet ho h2
    have h3 : w1 = { w with mem := x.1 } := h3
    rw [h3]

/-- Only messages to the council's contract change the council. -/
theorem Handled.council {c : Cfg} (hw : c.Wf) {e : Ext} {w w1 : World} {a : Addr} {m : Msg} {subs : List Item}
    (hb : Base c w) (hk : Known c a m) (hr : handle c e w a m = .ok (w1, subs)) (hm : ∀ x, m ≠ .council x) :
    w1.council = w.council := by
  cases m with
  | council x => exact absurd rfl (hm x)
  | ctl m =>
    obtain ⟨r, hx⟩ := handle_ctl hr
    have := hx.world
    simp only at this
    rw [this]
  | gov m =>
    simp only [handle, bind_ok_iff, pure_ok_iff] at hr
    obtain ⟨x, _, hr⟩ := hr
    cases hr
    rfl
  | dist m =>
    simp only [handle, bind_ok_iff, pure_ok_iff] at hr
    obtain ⟨x, _, hr⟩ := hr
    cases hr
    rfl
  | mem m =>
    have ha : a = c.self → m.tame = true := by
      intro hs
      rcases hk with hk | ⟨_, hk | ⟨_, hk⟩⟩
      · exact absurd hs hk.1
      · exact hk
      · cases hk
    have := (handle_mem hw hb.mem ha hr).same
    simp only at this
    rw [this]

/-- The votes of a user on a proposal, over a history without messages to the council's contract, without reports about the
user if they are in the council. -/
def Sat (c : Cfg) (id : Nat) (u : Addr) (w w' : World) (t : List Entry) : Prop :=
  (∀ x ∈ t, ∀ m, x.msg ≠ .council m) → w'.council = w.council ∧
    ((0 < Multisig.queryWeight w.council u → ∀ x ∈ t, ¬ x.reports c u) →
      (∀ i, w.ctl.infos.get id = some i → ∃ i', w'.ctl.infos.get id = some i' ∧ i'.type = i.type) ∧
      ∀ v, w'.gov.votes.get (Gov.vkey u id) = some v →
        (0 < Multisig.queryWeight w.council u ∧ v.amount = Multisig.queryWeight w.council u) ∨
        (∃ v0, w.gov.votes.get (Gov.vkey u id) = some v0 ∧
          (0 < Multisig.queryWeight w.council u → v0.amount = v.amount)) ∨
        ∃ i, w'.ctl.infos.get id = some i ∧ i.type = .general)

theorem Sat.refl (c : Cfg) (id : Nat) (u : Addr) {w w' : World} (h1 : w'.ctl = w.ctl) (h2 : w'.gov = w.gov)
    (h3 : w'.council = w.council) : Sat c id u w w' [] := by
  intro _
  refine ⟨h3, fun _ => ⟨fun i hi => ⟨i, by rw [h1]; exact hi, rfl⟩, fun v hv => Or.inr (Or.inl ⟨v, ?_, fun _ => rfl⟩)⟩⟩
  rw [← h2]; exact hv

theorem Sat.trans {c : Cfg} {id : Nat} {u : Addr} {w w1 w2 : World} {t t' : List Entry}
    (h1 : Sat c id u w w1 t) (h2 : Sat c id u w1 w2 t') : Sat c id u w w2 (t ++ t') := by
  intro hc
  obtain ⟨a1, a2⟩ := h1 (fun x hx => hc x (List.mem_append_left _ hx))
  obtain ⟨b1, b2⟩ := h2 (fun x hx => hc x (List.mem_append_right _ hx))
  refine ⟨b1.trans a1, fun hn => ?_⟩
  rw [a1] at b2
  obtain ⟨a3, a4⟩ := a2 (fun hp x hx => hn hp x (List.mem_append_left _ hx))
  obtain ⟨b3, b4⟩ := b2 (fun hp x hx => hn hp x (List.mem_append_right _ hx))
  refine ⟨fun i hi => ?_, fun v hv => ?_⟩
  · obtain ⟨i1, k1, k2⟩ := a3 i hi
    obtain ⟨i2, k3, k4⟩ := b3 i1 k1
    exact ⟨i2, k3, k4.trans k2⟩
  · rcases b4 v hv with hw | ⟨v1, hv1, he1⟩ | hg
    · exact Or.inl hw
    · rcases a4 v1 hv1 with ⟨k1, k2⟩ | ⟨v0, hv0, he0⟩ | ⟨i, hi, ht⟩
      · exact Or.inl ⟨k1, (he1 k1).symm.trans k2⟩
      · exact Or.inr (Or.inl ⟨v0, hv0, fun hp => (he0 hp).trans (he1 hp)⟩)
      · obtain ⟨i2, k3, k4⟩ := b3 i hi
        exact Or.inr (Or.inr ⟨i2, k3, k4.trans ht⟩)
    · exact Or.inr (Or.inr hg)

theorem Sat.one {c : Cfg} (hw : c.Wf) {e : Ext} {w w1 : World} {a : Addr} {m : Msg} {subs : List Item}
    (hb : Base c w) (hk : Known c a m) (hr : handle c e w a m = .ok (w1, subs)) (hh : Handled c w a m w1 subs)
    (id : Nat) (u : Addr) : Sat c id u w w1 [⟨w, e, a, m⟩] := by
  intro hc
  have hcn : w1.council = w.council :=
    Handled.council hw hb hk hr (fun x => hc _ (List.mem_singleton_self _) x)
  refine ⟨hcn, fun hn => ⟨fun i hi => ?_, fun v hv => ?_⟩⟩
  · obtain ⟨i', k1, k2, _⟩ := hh.step.infos id i hi
    exact ⟨i', k1, k2⟩
  · rcases Handled.voted hw hb hk hr id u with ⟨_, h1⟩ | ⟨o, k, _, hab, h1⟩ | ⟨mm, rfl, h1⟩
    · exact Or.inr (Or.inl ⟨v, by rw [← h1]; exact hv, fun _ => rfl⟩)
    · obtain ⟨i, hi, ht⟩ := hab.stored
      rw [h1] at hv
      cases hv
      cases k with
      | general =>
        obtain ⟨i', k1, k2, _⟩ := hh.step.infos id i hi
        exact Or.inr (Or.inr ⟨i', k1, k2.trans ht⟩)
      | council => exact Or.inl ⟨hab.weight, rfl⟩
    · rw [h1] at hv
      cases h0 : w.gov.votes.get (Gov.vkey u id) with
      | none => rw [h0] at hv; cases hv
      | some v0 =>
        refine Or.inr (Or.inl ⟨v0, rfl, fun hp => ?_⟩)
        have := mem_unreported hw hb hk hr (hn hp _ (List.mem_singleton_self _)) id
        rw [h1, h0, Option.map_some] at this
        rw [h0, Option.map_some] at hv
        rw [this] at hv
        cases hv
        rfl

theorem History.sat {c : Cfg} (hw : c.Wf) (ht : c.Tame) {w w' : World} {t : List Entry} (hr : Reachable c w)
    (h : History c w w' t) (id : Nat) (u : Addr) : Sat c id u w w' t :=
  h.induct hw ht (P := fun w w' t => Sat c id u w w' t) (fun w => .refl c id u rfl rfl rfl)
    (fun w l => .refl c id u rfl rfl rfl) (fun w b => .refl c id u rfl rfl rfl) (fun _ _ _ _ _ h1 h2 => h1.trans h2)
    (fun _ _ _ _ _ _ hb hk hr hh => Sat.one hw hb hk hr hh id u) hr

/-! ### Results -/

/-- How a council proposal is resolved over a history without messages to the council's contract. -/
def Concludes (id : Nat) (w w' : World) (t : List Entry) : Prop :=
  (∀ x ∈ t, ∀ m, x.msg ≠ .council m) → w'.council = w.council ∧
    (∀ i, w.ctl.infos.get id = some i → ∃ i', w'.ctl.infos.get id = some i' ∧ i'.type = i.type) ∧
    (∀ st, outcome w id = some st → outcome w' id = some st ∧ w'.gov.polls.get id = w.gov.polls.get id) ∧
    ∀ st i p, outcome w id = none → outcome w' id = some st → w'.ctl.infos.get id = some i → i.type = .council →
      w'.gov.polls.get id = some p → ∃ a, (a = At.never ∨ a = .time p.endsAt) ∧
        st = p.finalStatus (Multisig.queryTotal w.council a)

theorem Concludes.refl (id : Nat) {w w' : World} (h1 : w'.ctl = w.ctl) (h2 : w'.gov = w.gov)
    (h3 : w'.council = w.council) : Concludes id w w' [] := by
  have ho : outcome w' id = outcome w id := by unfold outcome; rw [h1, h2]
  intro _
  refine ⟨h3, fun i hi => ⟨i, by rw [h1]; exact hi, rfl⟩, fun st hs => ⟨by rw [ho]; exact hs, by rw [h2]⟩, ?_⟩
  intro st i p h0 hs
  rw [ho, h0] at hs
  cases hs

theorem Concludes.trans {id : Nat} {w w1 w2 : World} {t t' : List Entry}
    (h1 : Concludes id w w1 t) (h2 : Concludes id w1 w2 t') : Concludes id w w2 (t ++ t') := by
  intro hc
  obtain ⟨a1, a2, a3, a4⟩ := h1 (fun x hx => hc x (List.mem_append_left _ hx))
  obtain ⟨b1, b2, b3, b4⟩ := h2 (fun x hx => hc x (List.mem_append_right _ hx))
  refine ⟨b1.trans a1, fun i hi => ?_, fun st hs => ?_, fun st i p h0 hs hi hty hp => ?_⟩
  · obtain ⟨i1, k1, k2⟩ := a2 i hi
    obtain ⟨i2, k3, k4⟩ := b2 i1 k1
    exact ⟨i2, k3, k4.trans k2⟩
  · obtain ⟨k1, k2⟩ := a3 st hs
    obtain ⟨k3, k4⟩ := b3 st k1
    exact ⟨k3, k4.trans k2⟩
  · cases h01 : outcome w1 id with
    | none =>
      have := b4 st i p h01 hs hi hty hp
      rwa [a1] at this
    | some st1 =>
      obtain ⟨k1, k2⟩ := b3 st1 h01
      rw [hs] at k1
      cases k1
      obtain ⟨i1, _, hi1, _, _, _⟩ := outcome_some h01
      obtain ⟨i2, k3, k4⟩ := b2 i1 hi1
      rw [hi] at k3
      cases k3
      exact a4 st i1 p h0 h01 hi1 (k4.symm.trans hty) (k2 ▸ hp)

theorem Concludes.one {c : Cfg} (hw : c.Wf) {e : Ext} {w w1 : World} {a : Addr} {m : Msg} {subs : List Item}
    (hb : Base c w) (hk : Known c a m) (room : w.gov.pollCount + 1 < 2 ^ 64) (hr : handle c e w a m = .ok (w1, subs))
    (hh : Handled c w a m w1 subs) (id : Nat) : Concludes id w w1 [⟨w, e, a, m⟩] := by
  intro hc
  have hcn : w1.council = w.council :=
    Handled.council hw hb hk hr (fun x => hc _ (List.mem_singleton_self _) x)
  refine ⟨hcn, fun i hi => ?_, fun st hs => ⟨outcome_moved hb hh.moved hs, ?_⟩, fun st i p h0 hs hi hty hp => ?_⟩
  · obtain ⟨i', k1, k2, _⟩ := hh.step.infos id i hi
    exact ⟨i', k1, k2⟩
  · obtain ⟨i, p, hi, hp, hx, _⟩ := outcome_some hs
    obtain ⟨p', k1, _, k2⟩ := hh.step.polls id p hp
    have hd : ¬ p.live := by
      intro hl
      rw [(hb.ctl.ended id i p hi hp).2 hl] at hx; cases hx
    rw [k1, k2 hd, hp]
  · have hm := hh.resolved hb room hr h0 hs
    subst hm
    obtain ⟨r, hx⟩ := handle_ctl hr
    have he := hx.exec
    simp only [Controller.exec] at he
    obtain ⟨_, j, q, hj, hq, _, _, _, _, _, rfl⟩ := Controller.executeProposal_ok_iff.1 he
    have hworld := hx.world
    simp only at hworld
    obtain ⟨i', k1, k2, _⟩ := hh.step.infos id j hj
    rw [hi] at k1
    cases k1
    obtain ⟨i', p', hi', hp', _, rfl⟩ := outcome_some hs
    rw [hp] at hp'
    cases hp'
    rw [hworld] at hp
    simp only [Controller.endedPoll, Map.get_set, if_true] at hp
    cases hp
    have hjt : j.type = .council := k2.symm.trans hty
    unfold Controller.endTotal
    rw [hjt]
    by_cases hend : q.endsAt ≤ (c.env e w).block.time
    · refine ⟨.time q.endsAt, Or.inr rfl, ?_⟩
      simp only [if_pos hend, totalVotes_eq]
      rfl
    · refine ⟨.never, Or.inl rfl, ?_⟩
      simp only [if_neg hend, totalVotes_eq]
      rfl

theorem History.concludes {c : Cfg} (hw : c.Wf) (ht : c.Tame) {w w' : World} {t : List Entry} (hr : Reachable c w)
    (h : History c w w' t) (id : Nat) : Concludes id w w' t :=
  h.inductRoom hw ht (P := fun w w' t => Concludes id w w' t) (fun w => .refl id rfl rfl rfl)
    (fun w l => .refl id rfl rfl rfl) (fun w b => .refl id rfl rfl rfl) (fun _ _ _ _ _ h1 h2 => h1.trans h2)
    (fun _ _ _ _ _ _ hb hk room hr hh => Concludes.one hw hb hk room hr hh id) hr

/-! ## C140 -/

/-- A council proposal that is made and resolved while nothing disturbs the council has the result that the voting rule
gives for what those who chose the options weigh in the council, and for the total weight of the council. (The total is that
at the end of voting. It is the current one but for proposals that are made in the second in which their voting
ends.)

Missing from C140: the result when the council changes, or a weight of a council member among the members of the DAO is
reported, before the resolution; then the result can be another one, see `C140_minority_witness`. -/
theorem C140_result_partial {c : Cfg} (hw : c.Wf) (ht : c.Tame) {w w' : World} {t : List Entry} (hr : Reachable c w)
    (h : History c w w' t) {id : Nat} (hnew : w.ctl.infos.get id = none) (hu : Undisturbed c w t) {i : Info}
    (hi : w'.ctl.infos.get id = some i) (hty : i.type = .council) {st : Gov.Status} (hs : outcome w' id = some st) :
    ∃ p total, Gov.queryPoll w'.gov id = .ok p ∧
      st = Gov.ruleStatus (seated w' id .yes) (seated w' id .no) (seated w' id .abstain) (seated w' id .veto)
        p.quorum p.threshold p.vetoThreshold total ∧
      (total = Multisig.queryTotal w'.council .never ∨
        (w.block.time / 10 ^ 9 = p.endsAt / 10 ^ 9 ∧ total = Multisig.queryTotal w'.council (.time p.endsAt))) := by
  have hb := hr.base hw ht
  have hr' := h.later.reachable hr
  have hb' := hr'.base hw ht
  have hno : w.gov.polls.get id = none := by
    cases hp : w.gov.polls.get id with
    | none => rfl
    | some q =>
      have := hb.ctl.infos id
      rw [Map.has_iff.2 ⟨q, hp⟩] at this
      obtain ⟨j, hj⟩ := Map.has_iff.1 this
      rw [hnew] at hj; cases hj
  have hnov : ∀ u, w.gov.votes.get (Gov.vkey u id) = none := by
    intro u
    cases hv : w.gov.votes.get (Gov.vkey u id) with
    | none => rfl
    | some v =>
      obtain ⟨k1, k2, k3⟩ := hb.ctl.inv.vkeys _ _ hv
      have hid := (Gov.vkey_inj.1 k1).2
      rw [← hid] at k2 k3
      obtain ⟨q, hq⟩ := (hb.ctl.inv.ids id).2 ⟨k2, k3⟩
      rw [hno] at hq; cases hq
  have h0 : outcome w id = none := by
    cases ho : outcome w id with
    | none => rfl
    | some x =>
      obtain ⟨j, _, hj, _⟩ := outcome_some ho
      rw [hnew] at hj; cases hj
  have hcm : ∀ x ∈ t, ∀ m, x.msg ≠ .council m := fun x hx => (hu x hx).1
  obtain ⟨k1, _, _, k4⟩ := h.concludes hw ht hr id hcm
  obtain ⟨_, p, _, hp, _, _⟩ := outcome_some hs
  obtain ⟨a, ha, hst⟩ := k4 st i p h0 hs hi hty hp
  have hamt : ∀ u v, w'.gov.votes.get (Gov.vkey u id) = some v → v.amount = (w'.council.weights.get u).getD 0 := by
    intro u v hv
    obtain ⟨_, b2⟩ := h.sat hw ht hr id u hcm
    obtain ⟨_, b3⟩ := b2 (fun hp x hx => (hu x hx).2 u hp)
    rcases b3 v hv with ⟨_, j1⟩ | ⟨v0, j1, _⟩ | ⟨i2, j1, j2⟩
    · rw [j1, k1]; rfl
    · rw [hnov u] at j1; cases j1
    · rw [hi] at j1; cases j1
      rw [hty] at j2; cases j2
  have hsum : ∀ o, Gov.votedSum w'.gov id o = seated w' id o := by
    intro o
    rw [votedSum_by hb'.ctl.inv w'.council.weights id o (fun u v hv _ => hamt u v hv)]
    unfold seated seats choice Gov.queryPollVoter
    apply sum_congr
    intro u x
    simp
  have hall := seats_all hb'
  have hsmall : Multisig.queryTotal w'.council .never < M128 := by
    have h1 : (Member.multisig w'.council).total .never = _ := hb'.council.total
    exact lt_of_eq_of_lt h1 hb'.council.small
  have hle : seated w' id .yes + seated w' id .no + seated w' id .abstain + seated w' id .veto ≤
      seats w' (fun _ => true) := by
    unfold seated seats
    rw [← Map.sum_add, ← Map.sum_add, ← Map.sum_add]
    apply sum_le
    intro u x
    cases hch : choice w' id u with
    | none => simp [hch]
    | some o => cases o <;> simp [hch]
  have hfit : Gov.votedTotal w'.gov id < M128 := by
    rw [Gov.votedTotal_eq, hsum, hsum, hsum, hsum]
    omega
  refine ⟨p, Multisig.queryTotal w.council a, Controller.queryPoll_ok_iff.2 hp, ?_, ?_⟩
  · rw [hst, Gov.finalStatus_rule_of_inv hb'.ctl.inv hp hfit, hsum, hsum, hsum, hsum]
  · rw [k1]
    rcases ha with rfl | rfl
    · exact Or.inl rfl
    · have hend : w.block.time < p.endsAt := by
        by_contra hle
        push Not at hle
        obtain ⟨q, hq, _⟩ := (h.later.settles hw ht hr).old id p hp hle
        rw [hno] at hq; cases hq
      have hsec : w.block.time / 10 ^ 9 ≤ p.endsAt / 10 ^ 9 := Nat.div_le_div_right (le_of_lt hend)
      rcases Nat.lt_or_eq_of_le hsec with hlt | heq
      · exact Or.inl (bodyTotal_ahead hb (hr.timely hw ht) hlt .council)
      · exact Or.inr ⟨heq, rfl⟩

/-- If such a proposal passes, then more of the weight of the council is for it than against it, the share of "yes" among
"yes", "no" and "veto" is at least the threshold and that of "veto" less than the threshold for a veto, and the
council members who voted have at least the quorum's share of the total weight of the council.

Missing from C140: as for `C140_result_partial`. -/
theorem C140_backed_partial {c : Cfg} (hw : c.Wf) (ht : c.Tame) {w w' : World} {t : List Entry} (hr : Reachable c w)
    (h : History c w w' t) {id : Nat} (hnew : w.ctl.infos.get id = none) (hu : Undisturbed c w t) {i : Info}
    (hi : w'.ctl.infos.get id = some i) (hty : i.type = .council) {o n : Nat}
    (hs : outcome w' id = some (.passed o n)) :
    ∃ p total, Gov.queryPoll w'.gov id = .ok p ∧ 0 < total ∧
      (total = seats w' (fun _ => true) ∨
        (w.block.time / 10 ^ 9 = p.endsAt / 10 ^ 9 ∧ total = Multisig.queryTotal w'.council (.time p.endsAt))) ∧
      seated w' id .no < seated w' id .yes ∧
      p.threshold * (seated w' id .yes + seated w' id .no + seated w' id .veto) ≤ seated w' id .yes * 10 ^ 18 ∧
      seated w' id .veto * 10 ^ 18 <
        (p.vetoThreshold.getD p.threshold) * (seated w' id .yes + seated w' id .no + seated w' id .veto) ∧
      p.quorum * total ≤ seats w' (fun u => (choice w' id u).isSome) * 10 ^ 18 := by
  have hb' := (h.later.reachable hr).base hw ht
  obtain ⟨p, total, hp, hst, htot⟩ := C140_result_partial hw ht hr h hnew hu hi hty hs
  obtain ⟨f1, f2, _⟩ := hb'.ctl.fair id p (Controller.queryPoll_ok_iff.1 hp)
  obtain ⟨k0, k1, _, k3⟩ := passed_needs f1 f2 hst.symm
  obtain ⟨k4, k5⟩ := passed_backs f1 f2 hst.symm
  rw [seats_all hb'] at htot
  refine ⟨p, total, hp, k0, htot, k4, k3, k5, le_trans k1 (Nat.mul_le_mul_right _ ?_)⟩
  unfold seated seats
  rw [← Map.sum_add, ← Map.sum_add, ← Map.sum_add]
  apply sum_le
  intro u x
  cases hch : choice w' id u with
  | none => simp [hch]
  | some o => cases o <;> simp [hch]

/-- The code violates C140: a proposal passes that one member of the council is for and two of the same weight are against,
after coins are staked in the DAO for the first one. -/
theorem C140_minority_witness : ∃ w, Reachable sampleCfg w ∧ (w.ctl.infos.get 1).map (·.type) = some .council ∧
    outcome w 1 = some (.passed 0 100) ∧ seated w 1 .yes = 1 ∧ seated w 1 .no = 2 ∧ ranCount w 1 = 1 :=
  ⟨_, sampleRun_reachable (sampleCouncilVote ++ [stake 40 100, execute 13 1]), by decide +kernel⟩

/-! ### Examples -/

/-- A test for `Undisturbed`, for one message. -/
def Entry.quiet (c : Cfg) (l : List Addr) (x : Entry) : Bool :=
  match x.msg with
  | .council _ => false
  | .mem m =>
    match x.world.mem.exec ⟨c.menv x.ext x.world x.sender, x.ext.proxy⟩ m with
    | .ok r => r.2.all (fun | .notify _ k => k.all (fun ch => decide (ch.user ∉ l)) | _ => true)
    | .error _ => true
  | _ => true

theorem undisturbed_of {c : Cfg} {w : World} {t : List Entry} (h : t.all (·.quiet c w.council.weights.keys) = true) :
    Undisturbed c w t := by
  intro x hx
  have hq := List.all_eq_true.1 h x hx
  unfold Entry.quiet at hq
  refine ⟨fun m hm => ?_, ?_⟩
  · rw [hm] at hq
    cases hq
  · rintro u hu ⟨m, r, l, hm, he, hl, hin⟩
    rw [hm] at hq
    simp only [he] at hq
    have := List.all_eq_true.1 hq _ hl
    simp only at this
    obtain ⟨ch, hch, rfl⟩ := List.mem_map.1 hin
    have := List.all_eq_true.1 this ch hch
    refine (of_decide_eq_true this) ?_
    rw [Map.mem_keys]
    cases hg : w.council.weights.get ch.user with
    | none =>
      have : Multisig.queryWeight w.council ch.user = 0 := by
        show (w.council.weights.get ch.user).getD 0 = 0
        rw [hg]; rfl
      omega
    | some x => exact ⟨x, rfl⟩

/-- Two of the three council members vote for a proposal and one against, while somebody else stakes coins. -/
example : ∃ w' t, History sampleCfg sampleGenesis w' t ∧ Undisturbed sampleCfg sampleGenesis t ∧ t.length = 7 ∧
    sampleGenesis.ctl.infos.get 1 = none ∧ (w'.ctl.infos.get 1).map (·.type) = some .council ∧
    outcome w' 1 = some (.passed 0 2) ∧ seated w' 1 .yes = 2 ∧ seated w' 1 .no = 1 ∧ ranCount w' 1 = 1 := by
  have hs : ((traceAll sampleCfg sampleGenesis [proposeCouncil 40 [.updateMetadata 7], voteCouncil 41 1 .yes,
      stake 10 60, at_ 3, voteCouncil 40 1 .no, voteCouncil 42 1 .yes, at_ 102, execute 13 1]).map (fun r =>
        r.2.all (·.quiet sampleCfg sampleGenesis.council.weights.keys) && decide (r.2.length = 7 ∧
          (r.1.ctl.infos.get 1).map (·.type) = some .council ∧ outcome r.1 1 = some (.passed 0 2) ∧
          seated r.1 1 .yes = 2 ∧ seated r.1 1 .no = 1 ∧ ranCount r.1 1 = 1))) = some true := by decide +kernel
  obtain ⟨⟨w', t⟩, h1, h2⟩ := Option.map_eq_some_iff.1 hs
  simp only [Bool.and_eq_true, decide_eq_true_eq] at h2
  exact ⟨w', t, traceAll_history _ .start h1, undisturbed_of h2.1, h2.2.1, rfl, h2.2.2⟩

end Verif.Dao
