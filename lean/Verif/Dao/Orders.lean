import Verif.Dao.Trace
import Verif.Dao.Period
import Verif.Controller.Props2
import Verif.Staking.Props
import Verif.Nft.Props2
import Verif.Multisig.Props

/-!
# The contracts of a DAO together: what the controller tells the other contracts to do, and the rules of a DAO
-/

set_option linter.unusedSimpArgs false

namespace Verif.Dao
open Verif
open Verif.Controller (Action GovConfig GovChange CouncilConfig CouncilSpec Sub Info Changed)
open Verif.Staking (Duration)

/-! ### Specification -/

/-- A proposed action asks for a message to a contract of the DAO. -/
inductive Says (c : Cfg) : Action → Msg → Prop
  | unlocking {ch : GovChange} {d : Duration} (h : ch.unlocking = some d) :
      Says c (.updateGovConfig ch) (.mem (.staking (.updateUnlocking (some d))))
  | unlockingNft {ch : GovChange} {d : Duration} (h : ch.unlocking = some d) :
      Says c (.updateGovConfig ch) (.mem (.nft (.updateUnlocking (some d))))
  | council (sp : CouncilSpec) : Says c (.updateCouncil (some sp)) (.council (.setMembers (sp.members.map (fun u => (u, 1)))))
  | noCouncil : Says c (.updateCouncil none) (.council (.setMembers []))
  | members (l : List (Addr × Nat)) : Says c (.modifyMultisig l) (.mem (.multisig (.updateMembers l)))
  | minimum (n : Nat) : Says c (.updateMinWeight n) (.dist (.updateMin n))
  | custom {l : List Nat} {n : Nat} {m : Msg} (hn : n ∈ l) (h : c.decode n = some (some m)) : Says c (.executeMsgs l) m

/-- Since event number `k` the actions of a proposal were run, one of which asks for the message. -/
def Ordered (c : Cfg) (k : Nat) (w : World) (m : Msg) : Prop :=
  ∃ id i a, Event.ran id ∈ w.log.drop k ∧ w.ctl.infos.get id = some i ∧ a ∈ i.actions ∧ Says c a m

/-- What the controller may have sent: `ExecuteProposalActions`, or a message that the actions of a proposal ask for. -/
def Spoken (c : Cfg) (k : Nat) (w : World) (m : Msg) : Prop :=
  (∃ id, m = .ctl (.executeActions id) ∧ Event.ran id ∈ w.log.drop k) ∨ Ordered c k w m

/-- The minimum weight for rewards after a message. -/
def minimumAfter (n : Nat) (e : Entry) : Nat :=
  match e.msg with
  | .dist (.updateMin k) => k
  | _ => n

/-- The unlocking period after a message. -/
def periodAfter (d : Option Duration) (e : Entry) : Option Duration :=
  match e.msg with
  | .mem (.staking (.updateUnlocking (some k))) => some k
  | .mem (.nft (.updateUnlocking (some k))) => some k
  | _ => d

/-- The weight that a list of members gives to a user. -/
def named (l : List (Addr × Nat)) (u : Addr) : Option Nat := (l.find? (fun p => p.1 = u)).map (·.2)

/-- The weight of a user in the council after a message: a new list replaces the old one. -/
def seatAfter (u : Addr) (n : Nat) (e : Entry) : Nat :=
  match e.msg with
  | .council (.setMembers l) => (named l u).getD 0
  | .council (.updateMembers l) => (named l u).getD n
  | _ => n

/-- The weight of a member of a multisig DAO after a message: those named get the weight given, the others keep theirs. -/
def shareAfter (u : Addr) (n : Nat) (e : Entry) : Nat :=
  match e.msg with
  | .mem (.multisig (.updateMembers l)) => (named l u).getD n
  | _ => n

/-- The actions that were run by a message. -/
def actionsRun (e : Entry) : List Action :=
  match e.msg with
  | .ctl (.executeActions id) => ((e.world.ctl.infos.get id).map (·.actions)).getD []
  | _ => []

/-- The changes of the configuration among actions, in order. -/
def changes (l : List Action) : List GovChange :=
  l.filterMap (fun a => match a with | .updateGovConfig ch => some ch | _ => none)

/-- The configuration after a list of changes, one after the other. -/
inductive Amended : GovConfig → List GovChange → GovConfig → Prop
  | nil (g : GovConfig) : Amended g [] g
  | cons {g g1 g2 : GovConfig} {ch : GovChange} {l : List GovChange} (h : Changed g ch g1) (t : Amended g1 l g2) :
      Amended g (ch :: l) g2

/-- What the rules for the council are after an action. -/
def councilAfter (r : Option CouncilConfig) : Action → Option CouncilConfig
  | .updateCouncil none => none
  | .updateCouncil (some sp) => some sp.kept
  | _ => r

/-! ### Messages of the controller -/

theorem toItem_says {c : Cfg} {e : Controller.Env} {s s' : Controller.State} {a : Action} {subs : List Sub}
    (h : Controller.Does e s a s' subs) (x : Member) {y : Sub} (hy : y ∈ subs) {b : Addr} {m : Msg}
    (hi : toItem c x y = .call b m) : b = c.self ∧ Says c a m := by
  cases h with
  | msgs _ =>
    rename_i l _
    obtain ⟨n, hn, rfl⟩ := List.mem_map.1 hy
    simp only [toItem] at hi
    split at hi
    · rename_i m' hd
      cases hi
      exact ⟨rfl, .custom hn hd⟩
    · cases hi
  | config => cases hy
  | configMultisig => cases hy
  | configUnlocking _ _ hu _ _ =>
    rw [List.mem_singleton.1 hy] at hi
    cases x <;> cases hi
    · exact ⟨rfl, .unlocking hu⟩
    · exact ⟨rfl, .unlockingNft hu⟩
    · exact ⟨rfl, .unlocking hu⟩
  | noCouncil => rw [List.mem_singleton.1 hy] at hi; cases hi; exact ⟨rfl, .noCouncil⟩
  | council _ => rw [List.mem_singleton.1 hy] at hi; cases hi; exact ⟨rfl, .council _⟩
  | multisig _ _ => rw [List.mem_singleton.1 hy] at hi; cases hi; exact ⟨rfl, .members _⟩
  | minWeight _ => rw [List.mem_singleton.1 hy] at hi; cases hi; exact ⟨rfl, .minimum _⟩
  | _ => rw [List.mem_singleton.1 hy] at hi; cases hi

theorem doesAll_sub {e : Controller.Env} {s s' : Controller.State} {l : List Action} {subs : List Sub}
    (h : Controller.DoesAll e s l s' subs) {y : Sub} (hy : y ∈ subs) :
    ∃ a ∈ l, ∃ t t' l', Controller.Does e t a t' l' ∧ y ∈ l' := by
  induction h with
  | nil => cases hy
  | cons h _ ih =>
    rcases List.mem_append.1 hy with hy | hy
    · exact ⟨_, List.mem_cons_self, _, _, _, h, hy⟩
    · obtain ⟨a, ha, r⟩ := ih hy
      exact ⟨a, List.mem_cons_of_mem _ ha, r⟩

/-- Where a queued message comes from. -/
def Fine (c : Cfg) (k : Nat) (w : World) : Item → Prop
  | .call a m => c.outsider a ∨ (a = c.self ∧ m.tame = true ∧ Ordered c k w m)
  | _ => True

theorem Fine.allowed {c : Cfg} {k : Nat} {w : World} {i : Item} (h : Fine c k w i) : Allowed c i := by
  cases i with
  | call a m =>
    rcases h with h | ⟨h1, h2, _⟩
    · exact Or.inl h
    · exact Or.inr ⟨h1, h2⟩
  | _ => trivial

/-- Nothing is forgotten. -/
structure Onward (w w' : World) : Prop where
  infos : ∀ id i, w.ctl.infos.get id = some i → ∃ i', w'.ctl.infos.get id = some i' ∧ i'.actions = i.actions
  log : ∃ l, w'.log = w.log ++ l

theorem Onward.refl (w : World) : Onward w w := ⟨fun _ i h => ⟨i, h, rfl⟩, [], (List.append_nil _).symm⟩

theorem Onward.since {w w' : World} (h : Onward w w') {k : Nat} {x : Event} (hx : x ∈ w.log.drop k) : x ∈ w'.log.drop k := by
  obtain ⟨l, hl⟩ := h.log
  rw [hl, List.drop_append]
  exact List.mem_append_left _ hx

theorem Onward.length {w w' : World} (h : Onward w w') : w.log.length ≤ w'.log.length := by
  obtain ⟨l, hl⟩ := h.log
  rw [hl, List.length_append]
  omega

theorem Onward.trans {w w1 w2 : World} (h1 : Onward w w1) (h2 : Onward w1 w2) : Onward w w2 := by
  refine ⟨fun id i h => ?_, ?_⟩
  · obtain ⟨i1, a1, a2⟩ := h1.infos id i h
    obtain ⟨i2, b1, b2⟩ := h2.infos id i1 a1
    exact ⟨i2, b1, b2.trans a2⟩
  · obtain ⟨l1, e1⟩ := h1.log
    obtain ⟨l2, e2⟩ := h2.log
    exact ⟨l1 ++ l2, by rw [e2, e1, List.append_assoc]⟩

theorem Ordered.onward {c : Cfg} {k : Nat} {w w' : World} {m : Msg} (h : Ordered c k w m) (ho : Onward w w') : Ordered c k w' m := by
  obtain ⟨id, i, a, h1, h2, h3, h4⟩ := h
  obtain ⟨i', b1, b2⟩ := ho.infos id i h2
  exact ⟨id, i', a, ho.since h1, b1, by rw [b2]; exact h3, h4⟩

theorem Spoken.onward {c : Cfg} {k : Nat} {w w' : World} {m : Msg} (h : Spoken c k w m) (ho : Onward w w') : Spoken c k w' m := by
  rcases h with ⟨id, h1, h2⟩ | h
  · exact Or.inl ⟨id, h1, ho.since h2⟩
  · exact Or.inr (h.onward ho)

theorem Fine.onward {c : Cfg} {k : Nat} {w w' : World} {i : Item} (h : Fine c k w i) (ho : Onward w w') : Fine c k w' i := by
  cases i with
  | call a m =>
    rcases h with h | ⟨h1, h2, h3⟩
    · exact Or.inl h
    · exact Or.inr ⟨h1, h2, h3.onward ho⟩
  | _ => trivial

theorem Handled.onward {c : Cfg} {w w1 : World} {a : Addr} {m : Msg} {subs : List Item}
    (hh : Handled c w a m w1 subs) : Onward w w1 := by
  refine ⟨fun id i hi => ?_, ?_⟩
  · obtain ⟨i', a1, _, _, a2, _⟩ := hh.step.infos id i hi
    exact ⟨i', a1, a2⟩
  · rcases hh.kind with ⟨_, m', r, rfl, hx⟩ | ⟨_, _, h2, _⟩
    · rw [hx.world]
      exact ⟨_, List.append_assoc _ _ _⟩
    · exact ⟨[], by rw [h2, List.append_nil]⟩

theorem ran_since {k : Nat} {l x y : List Event} {e : Event} (hk : k ≤ l.length) (he : e ∈ x) :
    e ∈ (l ++ x ++ y).drop k := by
  rw [List.append_assoc, List.drop_append_of_le_length hk]
  exact List.mem_append_right _ (List.mem_append_left _ he)

/-- The messages that come out of a message are accounted for. -/
theorem Handled.fine {c : Cfg} (hw : c.Wf) {k : Nat} {w w1 : World} {a : Addr} {m : Msg} {subs : List Item}
    (hk : Known c a m) (hl : k ≤ w.log.length) (hh : Handled c w a m w1 subs) : ∀ i ∈ subs, Fine c k w1 i := by
  have hnm : a ≠ c.comps.membership := by
    rcases hk with hk | ⟨rfl, _⟩
    · exact hk.2.1
    · exact fun hh => hw.membership hh.symm
  intro i hi
  have hal := hh.allowed i hi
  rcases hh.kind with ⟨e, m', r, rfl, hx⟩ | ⟨_, _, _, h4⟩
  · have hs := hx.subs
    rw [hs] at hi
    obtain ⟨y, hy, rfl⟩ := List.mem_map.1 hi
    cases hit : toItem c w.mem y with
    | call b mm =>
      rw [hit] at hal
      rcases hal with hal | ⟨hb, htame⟩
      · exact Or.inl hal
      · refine Or.inr ⟨hb, htame, ?_⟩
        have hex : ∃ id, m' = .executeActions id := by
          by_contra hne
          have hw := hx.exec
          have hno : ∀ z ∈ r.2.2, ∀ b mm, toItem c w.mem z ≠ .call b mm := by
            intro z hz b mm hzz
            have hcreate : m'.isCreate = true → False := by
              intro hm
              obtain ⟨_, _, _, h1⟩ := Controller.created_exec hm hw
              obtain ⟨_, _, rfl⟩ := h1 z hz
              cases hzz
            cases m' with
            | createProposal p f => exact hcreate rfl
            | createWithNft p l => exact hcreate rfl
            | createCouncil p => exact hcreate rfl
            | receive f a p => exact hcreate rfl
            | castVote id o =>
              simp only [Controller.exec, bind_ok_iff, pure_ok_iff] at hw
              obtain ⟨r1, h1, rfl⟩ := hw
              cases hz
            | castCouncilVote id o =>
              simp only [Controller.exec, bind_ok_iff, pure_ok_iff] at hw
              obtain ⟨r1, h1, rfl⟩ := hw
              cases hz
            | execute id =>
              simp only [Controller.exec] at hw
              obtain ⟨_, inf, p, _, _, _, _, _, _, _, rfl⟩ := Controller.executeProposal_ok_iff.1 hw
              have hdep : ∀ (id : Nat) (a : Controller.DepositAsset) (dst : Addr), z ∈ Controller.sendDeposit id a dst → False := by
                intro id a dst hz
                unfold Controller.sendDeposit at hz
                obtain ⟨y, _, rfl⟩ := List.mem_map.1 hz
                cases hzz
              have hret : z ∈ Controller.returnDeposit id inf → False := by
                unfold Controller.returnDeposit
                cases inf.deposit with
                | none => intro hz; cases hz
                | some d => exact hdep _ _ _
              simp only at hz
              unfold Controller.outcomeSubs at hz
              split at hz
              · rcases List.mem_cons.1 hz with rfl | hz
                · cases hzz
                · exact hret hz
              · unfold Controller.rejectedDeposit at hz
                split at hz
                · cases hz
                · split at hz
                  · split at hz
                    · exact hdep _ _ _ hz
                    · cases hz
                  · exact hret hz
              · cases hz
            | weightsChanged l =>
              simp only [Controller.exec, bind_ok_iff, pure_ok_iff] at hw
              obtain ⟨r1, h1, rfl⟩ := hw
              rcases Controller.weightsChanged_ok_iff.1 h1 with ⟨_, rfl⟩ | ⟨_, h2, _⟩
              · cases hz
              · exact hnm h2
            | executeActions id => exact hne ⟨id, rfl⟩
            | deployInitial =>
              simp only [Controller.exec, bind_ok_iff, pure_ok_iff] at hw
              obtain ⟨r1, h1, rfl⟩ := hw
              obtain ⟨_, _, rfl⟩ := Controller.deployInitial_ok_iff.1 h1
              obtain ⟨y, _, rfl⟩ := List.mem_map.1 hz
              cases hzz
          exact hno y hy _ _ hit
        obtain ⟨id, rfl⟩ := hex
        obtain ⟨_, _, inf, hinf, hd⟩ := Controller.C91_actions.1 hx.exec
        obtain ⟨act, ha, _, _, _, hdo, hy'⟩ := doesAll_sub hd hy
        obtain ⟨i', a1, _, _, a2, _⟩ := hh.step.infos id inf hinf
        refine ⟨id, i', act, ?_, a1, by rw [a2]; exact ha, (toItem_says hdo w.mem hy' hit).2⟩
        rw [hx.world]
        exact ran_since hl List.mem_cons_self
    | _ => trivial
  · rw [h4 i hi]; trivial

theorem Traced.spoken {c : Cfg} (hw : c.Wf) (ht : c.Tame) {k : Nat} {w w' : World} {l : List Item} {t : List Entry}
    (h : Traced c w l w' t) : (∀ i ∈ l, Fine c k w i) → k ≤ w.log.length → Base c w →
      Base c w' ∧ Onward w w' ∧ ∀ e ∈ t, e.sender = c.self → Spoken c k w' e.msg := by
  induction h with
  | nil w => intro _ _ hb; exact ⟨hb, Onward.refl w, fun e he => (by cases he)⟩
  | @call w w1 w2 w3 a m subs rest t1 t2 e room h h1 h2 ih1 ih2 =>
    intro hl hlen hb
    have hf : Fine c k w (.call a m) := hl _ List.mem_cons_self
    have hk : Known c a m := by
      rcases hf with ha | ⟨ha, hm, _⟩
      · exact Or.inl ha
      · exact Or.inr ⟨ha, Or.inl hm⟩
    have hh := handled hw ht hb hk room h
    obtain ⟨b2, o2, p2⟩ := ih1 (hh.fine hw hk hlen) (le_trans hlen hh.onward.length) hh.base
    have o12 := hh.onward.trans o2
    obtain ⟨b3, o3, p3⟩ := ih2 (fun i hi => (hl i (List.mem_cons_of_mem _ hi)).onward o12) (le_trans hlen o12.length) b2
    refine ⟨b3, o12.trans o3, fun x hx hs => ?_⟩
    rcases List.mem_cons.1 hx with rfl | hx
    · rcases hf with ha | ⟨_, _, ho⟩
      · exact absurd hs ha.1
      · exact Or.inr (ho.onward (o12.trans o3))
    · rcases List.mem_append.1 hx with hx | hx
      · exact (p2 x hx hs).onward o3
      · exact p3 x hx hs
  | @actions w w1 w2 w3 id subs rest t1 t2 e room h h1 h2 ih1 ih2 =>
    intro hl hlen hb
    have hk : Known c c.self (.ctl (.executeActions id)) := Or.inr ⟨rfl, Or.inr ⟨id, rfl⟩⟩
    have hh := handled hw ht hb hk room h
    obtain ⟨b2, o2, p2⟩ := ih1 (hh.fine hw hk hlen) (le_trans hlen hh.onward.length) hh.base
    have o12 := hh.onward.trans o2
    obtain ⟨b3, o3, p3⟩ := ih2 (fun i hi => (hl i (List.mem_cons_of_mem _ hi)).onward o12) (le_trans hlen o12.length) b2
    refine ⟨b3, o12.trans o3, fun x hx hs => ?_⟩
    rcases List.mem_cons.1 hx with rfl | hx
    · refine Or.inl ⟨id, rfl, (o2.trans o3).since ?_⟩
      obtain ⟨r, hx⟩ := handle_ctl h
      have := hx.world
      simp only at this
      rw [this]
      exact ran_since hlen List.mem_cons_self
    · rcases List.mem_append.1 hx with hx | hx
      · exact (p2 x hx hs).onward o3
      · exact p3 x hx hs
  | failed h ih =>
    intro hl hlen hb
    exact ih (fun i hi => hl i (List.mem_cons_of_mem _ hi)) hlen hb
  | @deposit w w1 w2 id t calls rest t1 t2 hc h1 h2 ih1 ih2 =>
    intro hl hlen hb
    have hcalls : ∀ i ∈ calls, Fine c k { w with log := w.log ++ [.paid id t] } i := by
      intro i hi
      obtain ⟨a, m, rfl, ha⟩ := hc i hi
      exact Or.inl ha
    obtain ⟨b1, o1, p1⟩ := ih1 hcalls (by simp only [List.length_append]; omega) ⟨hb.ctl, hb.mem, hb.council⟩
    have o0 : Onward w w1 := Onward.trans (w1 := { w with log := w.log ++ [.paid id t] })
      ⟨fun _ i h => ⟨i, h, rfl⟩, _, rfl⟩ o1
    obtain ⟨b2, o2, p2⟩ := ih2 (fun i hi => (hl i (List.mem_cons_of_mem _ hi)).onward o0) (le_trans hlen o0.length) b1
    refine ⟨b2, o0.trans o2, fun x hx hs => ?_⟩
    rcases List.mem_append.1 hx with hx | hx
    · exact (p1 x hx hs).onward o2
    · exact p2 x hx hs
  | @other w w1 w2 calls rest t1 t2 hc h1 h2 ih1 ih2 =>
    intro hl hlen hb
    have hcalls : ∀ i ∈ calls, Fine c k w i := by
      intro i hi
      obtain ⟨a, m, rfl, ha⟩ := hc i hi
      exact Or.inl ha
    obtain ⟨b1, o1, p1⟩ := ih1 hcalls hlen hb
    obtain ⟨b2, o2, p2⟩ := ih2 (fun i hi => (hl i (List.mem_cons_of_mem _ hi)).onward o1) (le_trans hlen o1.length) b1
    refine ⟨b2, o1.trans o2, fun x hx hs => ?_⟩
    rcases List.mem_append.1 hx with hx | hx
    · exact (p1 x hx hs).onward o2
    · exact p2 x hx hs

theorem History.spoken {c : Cfg} (hw : c.Wf) (ht : c.Tame) {w w' : World} {t : List Entry} (h : History c w w' t)
    (hr : Reachable c w) : Onward w w' ∧ ∀ e ∈ t, e.sender = c.self → Spoken c w.log.length w' e.msg := by
  induction h with
  | start => exact ⟨Onward.refl w, fun e he => (by cases he)⟩
  | @tx w1 w2 a m t t1 h ha hx ih =>
    obtain ⟨_, o1, p1⟩ := hx.spoken hw ht (k := w.log.length) (fun i hi => by rw [List.mem_singleton.1 hi]; exact Or.inl ha) ih.1.length
      ((h.later.reachable hr).base hw ht)
    refine ⟨ih.1.trans o1, fun x hx hs => ?_⟩
    rcases List.mem_append.1 hx with hx | hx
    · exact (ih.2 x hx hs).onward o1
    · exact p1 x hx hs
  | @block w1 b t h _ _ ih =>
    have o1 : Onward w1 { w1 with block := b } := ⟨fun _ i h => ⟨i, h, rfl⟩, [], (List.append_nil _).symm⟩
    exact ⟨ih.1.trans o1, fun x hx hs => (ih.2 x hx hs).onward o1⟩

/-! ### What each message does to the rules -/

/-- Weights after `UpdateMembers` and `SetMembers`. -/
theorem named_eq {l : List (Addr × Nat)} (hd : Multisig.Distinct l) (u : Addr) (m : Members) :
    (Multisig.setAll m l).weight u = (named l u).getD (m.weight u) := by
  unfold Members.weight named
  cases hf : l.find? (fun p => p.1 = u) with
  | none =>
    have : ∀ p ∈ l, p.1 ≠ u := by
      intro p hp
      simpa using List.find?_eq_none.1 hf p hp
    rw [Multisig.setAll_get_notin m l u this]
    rfl
  | some p =>
    have h1 := List.mem_of_find?_eq_some hf
    have h2 : p.1 = u := by simpa using List.find?_some hf
    rw [Multisig.setAll_get_in m l hd u p.2 (by rw [← h2]; exact h1)]
    rfl

theorem multisig_weight {s : Members} (hi : Multisig.Inv s) {e : Env} {m : Multisig.Msg} {r : Members × List Out}
    (h : Multisig.exec s e m = .ok r) (u : Addr) : Multisig.queryWeight r.1 u =
      match m with
      | .setMembers l => (named l u).getD 0
      | .updateMembers l => (named l u).getD (Multisig.queryWeight s u)
      | _ => Multisig.queryWeight s u := by
  cases m with
  | updateMembers l =>
    obtain ⟨_, hd, _, rfl⟩ := (Multisig.updateMembers_ok_iff hi).1 h
    exact named_eq hd u s
  | setMembers l =>
    obtain ⟨_, hd, _, rfl⟩ := Multisig.setMembers_ok_iff.1 h
    exact named_eq hd u { s with weights := Map.empty }
  | addHook a =>
    simp only [Multisig.exec, bind_ok_iff, Members.addHook, ite_ok_iff, pure_ok_iff] at h
    obtain ⟨m, ⟨_, h1⟩, rfl⟩ := h
    cases h1
    rfl
  | removeHook a =>
    simp only [Multisig.exec, bind_ok_iff, Members.removeHook, ite_ok_iff, pure_ok_iff] at h
    obtain ⟨m, ⟨_, h1⟩, rfl⟩ := h
    cases h1
    rfl

theorem dist_min {d : Distributor.State} (hi : Distributor.Inv d) {e : Distributor.Env} {m : Distributor.Msg}
    {x : Distributor.State × List Distributor.Out} (h : Distributor.exec d e m = .ok x) :
    x.1.min = (match m with | .updateMin n => n | _ => d.min) ∧ (∀ n, m = .updateMin n → e.sender = d.admin) := by
  cases m with
  | updateWeights l =>
    simp only [Distributor.exec] at h
    obtain ⟨s', h1, h⟩ := bind_ok_iff.1 h
    cases pure_ok_iff.1 h
    unfold Distributor.updateWeights at h1
    obtain ⟨_, h1⟩ := ite_ok_iff.1 h1
    obtain ⟨_, q, _⟩ := Distributor.updates_ok l hi h1
    exact ⟨q.min, fun n hn => (by cases hn)⟩
  | updateMin n =>
    simp only [Distributor.exec] at h
    obtain ⟨s', h1, h⟩ := bind_ok_iff.1 h
    cases pure_ok_iff.1 h
    obtain ⟨ha, _, hm, _⟩ := Distributor.updateMin_ok hi h1
    exact ⟨hm, fun _ _ => ha⟩
  | distributeNative l =>
    simp only [Distributor.exec] at h
    obtain ⟨s', h1, h⟩ := bind_ok_iff.1 h
    cases pure_ok_iff.1 h
    obtain ⟨_, _, n, h2, rfl⟩ := Distributor.distributeNative_ok_iff.1 h1
    exact ⟨rfl, fun n hn => (by cases hn)⟩
  | claim u l t => exact ⟨(Distributor.claim_effect hi.toCore h).2.2.frame.2.1, fun n hn => (by cases hn)⟩
  | receiveCw20 k n =>
    simp only [Distributor.exec] at h
    obtain ⟨s', h1, h⟩ := bind_ok_iff.1 h
    cases pure_ok_iff.1 h
    obtain ⟨_, _, _, c, h2, rfl⟩ := Distributor.receiveCw20_ok_iff.1 h1
    exact ⟨rfl, fun n hn => (by cases hn)⟩

theorem staking_unlocked {k : Staking.Kind} {s : Staking.State} (hi : Staking.Inv s) {e : Env} {m : Staking.Msg}
    {r : Staking.State × List Out} (h : Staking.exec k s e m = .ok r) :
    r.1.unlocking = (match m with | .updateUnlocking (some d) => d | _ => s.unlocking) ∧
      (∀ p, m = .updateUnlocking p → e.sender = e.controller) := by
  cases m with
  | receive a hk =>
    refine ⟨?_, fun p hp => (by cases hp)⟩
    simp only [Staking.exec] at h
    split at h
    · simp only [Staking.receive, ite_ok_iff] at h
      obtain ⟨_, h⟩ := h
      cases hk with
      | stake u => obtain ⟨_, _, _, rfl⟩ := Staking.stakeFor_ok_iff.1 h; rfl
      | addStakes l => obtain ⟨_, _, _, mm, ch, rfl, _⟩ := Staking.addStakes_ok h; rfl
      | addClaims l =>
        obtain ⟨_, _, h6⟩ := Staking.addTokenClaims_ok h
        exact (Staking.addClaims_loop l h6).2.2.2.1.2.2
      | unknown => cases h
    · cases h
  | stakeDenom f u =>
    refine ⟨?_, fun p hp => (by cases hp)⟩
    simp only [Staking.exec] at h
    split at h
    · unfold Staking.stakeDenom at h
      split at h
      · rw [ite_ok_iff] at h
        obtain ⟨_, _, _, rfl⟩ := Staking.stakeFor_ok_iff.1 h.2; rfl
      · cases h
    · cases h
  | unstake a => obtain ⟨_, _, _, rfl⟩ := Staking.unstake_ok_iff.1 h; exact ⟨rfl, fun p hp => (by cases hp)⟩
  | claim u => obtain ⟨_, _, rfl⟩ := (Staking.claim_ok_iff hi).1 h; exact ⟨rfl, fun p hp => (by cases hp)⟩
  | updateUnlocking p =>
    obtain ⟨h3, rfl⟩ := Staking.updateUnlocking_ok_iff.1 h
    cases p with
    | none => exact ⟨rfl, fun _ _ => h3⟩
    | some d => exact ⟨rfl, fun _ _ => h3⟩
  | addHook a =>
    simp only [Staking.exec, bind_ok_iff, Members.addHook, ite_ok_iff, pure_ok_iff] at h
    obtain ⟨m, ⟨_, h1⟩, rfl⟩ := h
    exact ⟨rfl, fun p hp => (by cases hp)⟩
  | removeHook a =>
    simp only [Staking.exec, bind_ok_iff, Members.removeHook, ite_ok_iff, pure_ok_iff] at h
    obtain ⟨m, ⟨_, h1⟩, rfl⟩ := h
    exact ⟨rfl, fun p hp => (by cases hp)⟩

theorem nft_unlocked {s : Nft.State} (hi : Nft.Inv s) {e : Nft.NEnv} {m : Nft.Msg}
    {r : Nft.State × List Out} (h : Nft.exec s e m = .ok r) :
    r.1.unlocking = (match m with | .updateUnlocking (some d) => d | _ => s.unlocking) ∧
      (∀ p, m = .updateUnlocking p → e.env.sender = e.env.controller) := by
  cases m with
  | receiveNft t hk =>
    refine ⟨?_, fun p hp => (by cases hp)⟩
    obtain ⟨h3, ⟨u, _, h4⟩ | ⟨u, d, _, h4⟩⟩ := Nft.receiveNft_ok_iff.1 h
    · obtain ⟨_, _, _, _, rfl⟩ := Nft.stakeNft_ok_iff.1 h4; rfl
    · obtain ⟨_, rfl⟩ := Nft.addNftClaim_ok_iff.1 h4; rfl
  | unstake l => obtain ⟨_, _, _, _, _, rfl⟩ := Nft.unstake_ok_iff.1 h; exact ⟨rfl, fun p hp => (by cases hp)⟩
  | claim v => obtain ⟨_, _, rfl⟩ := (Nft.claim_ok_iff hi).1 h; exact ⟨rfl, fun p hp => (by cases hp)⟩
  | updateUnlocking p =>
    obtain ⟨h3, rfl⟩ := Nft.updateUnlocking_ok_iff.1 h
    cases p with
    | none => exact ⟨rfl, fun _ _ => h3⟩
    | some d => exact ⟨rfl, fun _ _ => h3⟩
  | addHook a =>
    simp only [Nft.exec, bind_ok_iff, Members.addHook, ite_ok_iff, pure_ok_iff] at h
    obtain ⟨m, ⟨_, h1⟩, rfl⟩ := h
    exact ⟨rfl, fun p hp => (by cases hp)⟩
  | removeHook a =>
    simp only [Nft.exec, bind_ok_iff, Members.removeHook, ite_ok_iff, pure_ok_iff] at h
    obtain ⟨m, ⟨_, h1⟩, rfl⟩ := h
    exact ⟨rfl, fun p hp => (by cases hp)⟩

theorem multisig_sender {s : Members} {e : Env} {m : Multisig.Msg} {r : Members × List Out}
    (h : Multisig.exec s e m = .ok r) : e.sender = e.controller := by
  by_contra hne
  revert h
  cases m <;> simp [Multisig.exec, Multisig.updateMembers, Multisig.setMembers, Members.addHook, Members.removeHook, hne,
    bind, Except.bind]

theorem Amended.append {g g1 g2 : GovConfig} {l l' : List GovChange} (h : Amended g l g1) (h' : Amended g1 l' g2) :
    Amended g (l ++ l') g2 := by
  induction h with
  | nil => exact h'
  | cons hc _ ih => exact .cons hc (ih h')

theorem doesAll_rules {e : Controller.Env} {s s' : Controller.State} {l : List Action} {subs : List Sub}
    (h : Controller.DoesAll e s l s' subs) :
    Amended s.config (changes l) s'.config ∧ s'.council = l.foldl councilAfter s.council := by
  have one : ∀ {s s' : Controller.State} {a : Action} {subs : List Sub}, Controller.Does e s a s' subs →
      Amended s.config (changes [a]) s'.config ∧ s'.council = councilAfter s.council a := by
    intro s s' a subs h
    cases h with
    | config hc _ _ => exact ⟨.cons hc (.nil _), rfl⟩
    | configUnlocking hc _ _ _ _ => exact ⟨.cons hc (.nil _), rfl⟩
    | configMultisig hc _ _ _ _ => exact ⟨.cons hc (.nil _), rfl⟩
    | _ => exact ⟨.nil _, rfl⟩
  induction h with
  | nil => exact ⟨.nil _, rfl⟩
  | @cons s s1 s2 a l subs1 subs2 h _ ih =>
    obtain ⟨h1, h2⟩ := one h
    refine ⟨?_, ?_⟩
    · have : changes (a :: l) = changes [a] ++ changes l := by
        unfold changes
        rw [← List.filterMap_append]; rfl
      rw [this]
      exact h1.append ih.1
    · rw [List.foldl_cons, ← h2]; exact ih.2

theorem deliver_council {c : Cfg} {e : Ext} {a : Addr} : ∀ (outs : List Out) {w : World} {r : World × List Item},
    deliver c e a w outs = .ok r → r.1.council = w.council := by
  intro outs
  induction outs with
  | nil => intro w r h; cases h; rfl
  | cons o t ih =>
    intro w r h
    cases o with
    | pay x y => cases h; rfl
    | sendNft x y => cases h; rfl
    | notify x l =>
      unfold deliver at h
      split at h
      · simp only [bind_ok_iff] at h
        obtain ⟨r1, _, d, _, h2⟩ := h
        exact (ih h2).trans rfl
      · cases h; rfl

/-- Messages on which the rules of a DAO depend. -/
def Msg.ofRules : Msg → Bool
  | .ctl (.executeActions _) => true
  | .dist (.updateMin _) => true
  | .mem (.staking (.updateUnlocking _)) => true
  | .mem (.nft (.updateUnlocking _)) => true
  | .mem (.multisig _) => true
  | .council _ => true
  | _ => false

/-- What one message does to the rules. -/
structure Ruling (c : Cfg) (w w1 : World) (x : Entry) : Prop where
  minimum : w1.dist.min = minimumAfter w.dist.min x
  period : w1.mem.unlocking = periodAfter w.mem.unlocking x
  seats : ∀ u, Multisig.queryWeight w1.council u = seatAfter u (Multisig.queryWeight w.council u) x
  shares : ∀ s, w.mem = .multisig s → ∃ s', w1.mem = .multisig s' ∧
    ∀ u, Multisig.queryWeight s' u = shareAfter u (Multisig.queryWeight s u) x
  config : Amended w.ctl.config (changes (actionsRun x)) w1.ctl.config
  council : w1.ctl.council = (actionsRun x).foldl councilAfter w.ctl.council
  sender : x.msg.ofRules = true → x.sender = c.self

theorem Handled.ruling {c : Cfg} (hw : c.Wf) {e : Ext} {w w1 : World} {a : Addr} {m : Msg} {subs : List Item}
    (hb : Base c w) (hk : Known c a m) (hr : handle c e w a m = .ok (w1, subs)) (hh : Handled c w a m w1 subs)
    (hd : DistOk c w) : Ruling c w w1 ⟨w, e, a, m⟩ := by
  cases m with
  | ctl m =>
    obtain ⟨r, hx⟩ := handle_ctl hr
    have hworld := hx.world
    simp only at hworld
    have hsh : ∀ s, w.mem = .multisig s → ∃ s', w1.mem = .multisig s' ∧
        ∀ u, Multisig.queryWeight s' u = Multisig.queryWeight s u :=
      fun s hs => ⟨s, by rw [hworld]; exact hs, fun _ => rfl⟩
    rcases ctl_ruled hx.exec with ⟨h1, h2⟩ | ⟨id, i, rfl, hi, hinf, hc⟩
    · by_cases hex : ∃ id, m = .executeActions id
      · obtain ⟨id, rfl⟩ := hex
        obtain ⟨hs, _, inf, hinf, hdo⟩ := Controller.C91_actions.1 hx.exec
        have hrun : actionsRun ⟨w, e, a, .ctl (.executeActions id)⟩ = inf.actions := by
          unfold actionsRun; simp only [hinf]; rfl
        obtain ⟨d1, d2⟩ := doesAll_rules hdo
        refine ⟨by rw [hworld]; rfl, by rw [hworld]; rfl, fun _ => by rw [hworld]; rfl, hsh, ?_, ?_, fun _ => hs⟩
        · rw [hrun, hworld]; exact d1
        · rw [hrun, hworld]; exact d2
      · have hrun : actionsRun ⟨w, e, a, .ctl m⟩ = [] := by
          cases m <;> first | rfl | exact absurd ⟨_, rfl⟩ hex
        refine ⟨by rw [hworld]; rfl, by rw [hworld]; rfl, fun _ => by rw [hworld]; rfl, hsh, ?_, ?_, fun hm => ?_⟩
        · rw [hrun, hworld]
          show Amended w.ctl.config [] r.1.config
          rw [h1]; exact .nil _
        · rw [hrun, hworld]; exact h2
        · cases m <;> first | exact absurd ⟨_, rfl⟩ hex | cases hm
    · obtain ⟨hs, _, inf, hinf, hdo⟩ := Controller.C91_actions.1 hx.exec
      have hrun : actionsRun ⟨w, e, a, .ctl (.executeActions id)⟩ = inf.actions := by
        unfold actionsRun; simp only [hinf]; rfl
      obtain ⟨d1, d2⟩ := doesAll_rules hdo
      refine ⟨by rw [hworld]; rfl, by rw [hworld]; rfl, fun _ => by rw [hworld]; rfl, hsh, ?_, ?_, fun _ => hs⟩
      · rw [hrun, hworld]; exact d1
      · rw [hrun, hworld]; exact d2
  | gov m =>
    simp only [handle, bind_ok_iff, pure_ok_iff] at hr
    obtain ⟨g, _, hx⟩ := hr
    cases hx
    exact ⟨rfl, rfl, fun _ => rfl, fun s hs => ⟨s, hs, fun _ => rfl⟩, .nil _, rfl, fun hm => (by cases hm)⟩
  | dist m =>
    simp only [handle, bind_ok_iff, pure_ok_iff] at hr
    obtain ⟨r, h1, h2⟩ := hr
    cases h2
    obtain ⟨d1, d2⟩ := dist_min hd.inv h1
    refine ⟨?_, rfl, fun _ => rfl, fun s hs => ⟨s, hs, fun _ => rfl⟩, .nil _, rfl, fun hm => ?_⟩
    · show r.1.min = _
      rw [d1]
      cases m <;> rfl
    · cases m with
      | updateMin n => exact (d2 n rfl).trans hd.admin
      | _ => cases hm
  | mem m =>
    have hm : a = c.self → m.tame = true := by
      intro ha
      rcases hk with hk | ⟨_, hk | ⟨id, hk⟩⟩
      · exact absurd ha hk.1
      · exact hk
      · cases hk
    have hs := handle_mem hw hb.mem hm hr
    simp only at hs
    have hsame := hs.same
    have hmin : w1.dist.min = w.dist.min := by
      rcases hs.gov with ⟨l, e', _, _, _, d, hd', hd1⟩ | ⟨_, hd', _⟩
      · rw [hd1]; exact (dist_min hd.inv hd').1
      · rw [hd']
    have hmem : ∃ outs, w.mem.exec ⟨c.menv e w a, e.proxy⟩ m = .ok (w1.mem, outs) := by
      simp only [handle, bind_ok_iff] at hr
      obtain ⟨x, h1, h2⟩ := hr
      refine ⟨x.2, ?_⟩
      have : w1.mem = x.1 := deliver_mem _ h2
      rw [this]; exact h1
    obtain ⟨outs, hmem⟩ := hmem
    have hctl : w1.ctl = w.ctl := by rw [hsame]
    have hcou : w1.council = w.council := by rw [hsame]
    have key : w1.mem.unlocking = periodAfter w.mem.unlocking ⟨w, e, a, .mem m⟩ ∧
        (∀ s, w.mem = .multisig s → ∃ s', w1.mem = .multisig s' ∧
          ∀ u, Multisig.queryWeight s' u = shareAfter u (Multisig.queryWeight s u) ⟨w, e, a, .mem m⟩) ∧
        ((Msg.mem m).ofRules = true → a = c.self) := by
      have hgood := hb.mem.good
      generalize w1.mem = x1 at hmem
      cases hx : w.mem with
      | staking k s =>
        rw [hx] at hmem hgood
        cases m with
        | staking m =>
          simp only [Member.exec, bind_ok_iff, pure_ok_iff] at hmem
          obtain ⟨r1, h1, h2⟩ := hmem
          cases h2
          obtain ⟨p1, p2⟩ := staking_unlocked hgood h1
          refine ⟨?_, fun s hs => (by cases hs), fun hm => ?_⟩
          · show some r1.1.unlocking = _
            rw [p1]
            cases m with
            | updateUnlocking p => cases p <;> rfl
            | _ => rfl
          · cases m with
            | updateUnlocking p => exact p2 p rfl
            | _ => cases hm
        | nft m => cases hmem
        | multisig m => cases hmem
      | nft s =>
        rw [hx] at hmem hgood
        cases m with
        | nft m =>
          simp only [Member.exec, bind_ok_iff, pure_ok_iff] at hmem
          obtain ⟨r1, h1, h2⟩ := hmem
          cases h2
          obtain ⟨p1, p2⟩ := nft_unlocked hgood h1
          refine ⟨?_, fun s hs => (by cases hs), fun hm => ?_⟩
          · show some r1.1.unlocking = _
            rw [p1]
            cases m with
            | updateUnlocking p => cases p <;> rfl
            | _ => rfl
          · cases m with
            | updateUnlocking p => exact p2 p rfl
            | _ => cases hm
        | staking m => cases hmem
        | multisig m => cases hmem
      | multisig s =>
        rw [hx] at hmem hgood
        cases m with
        | multisig m =>
          simp only [Member.exec, bind_ok_iff, pure_ok_iff] at hmem
          obtain ⟨r1, h1, h2⟩ := hmem
          cases h2
          have hself : a = c.self := multisig_sender h1
          refine ⟨rfl, fun s' hs => ?_, fun _ => hself⟩
          cases hs
          refine ⟨_, rfl, fun u => ?_⟩
          rw [multisig_weight hgood h1 u]
          cases m with
          | setMembers l => cases hm hself
          | _ => rfl
        | staking m => cases hmem
        | nft m => cases hmem
    refine ⟨hmin, key.1, fun u => by rw [hcou]; rfl, key.2.1, ?_, ?_, key.2.2⟩
    · rw [hctl]; exact .nil _
    · rw [hctl]; rfl
  | council m =>
    have hm : a = c.self → (Msg.council m).tame = true := by
      intro ha
      rcases hk with hk | ⟨_, hk | ⟨id, hk⟩⟩
      · exact absurd ha hk.1
      · exact hk
      · cases hk
    obtain ⟨_, h2, _⟩ := handle_council hb.council hm hr
    simp only at h2
    have hmem : ∃ outs, Multisig.exec w.council (c.menv e w a) m = .ok (w1.council, outs) := by
      simp only [handle, bind_ok_iff] at hr
      obtain ⟨x, h1, h2⟩ := hr
      refine ⟨x.2, ?_⟩
      have : w1.council = x.1 := deliver_council _ h2
      rw [this]; exact h1
    obtain ⟨outs, hmem⟩ := hmem
    refine ⟨by rw [h2]; rfl, by rw [h2]; rfl, fun u => ?_, fun s hs => ⟨s, by rw [h2]; exact hs, fun _ => rfl⟩, ?_, ?_,
      fun _ => multisig_sender hmem⟩
    · rw [multisig_weight (s := w.council) hb.council.good hmem u]
      cases m <;> rfl
    · rw [h2]; exact .nil _
    · rw [h2]; rfl

/-- What a history does to the rules. -/
structure Rulings (c : Cfg) (w w' : World) (t : List Entry) : Prop where
  minimum : w'.dist.min = t.foldl minimumAfter w.dist.min
  period : w'.mem.unlocking = t.foldl periodAfter w.mem.unlocking
  seats : ∀ u, Multisig.queryWeight w'.council u = t.foldl (seatAfter u) (Multisig.queryWeight w.council u)
  shares : ∀ s, w.mem = .multisig s → ∃ s', w'.mem = .multisig s' ∧
    ∀ u, Multisig.queryWeight s' u = t.foldl (shareAfter u) (Multisig.queryWeight s u)
  config : Amended w.ctl.config (changes (t.flatMap actionsRun)) w'.ctl.config
  council : w'.ctl.council = (t.flatMap actionsRun).foldl councilAfter w.ctl.council
  sender : ∀ x ∈ t, x.msg.ofRules = true → x.sender = c.self

theorem Rulings.nil {c : Cfg} {w w' : World} (h1 : w'.dist = w.dist) (h2 : w'.mem = w.mem) (h3 : w'.council = w.council)
    (h4 : w'.ctl = w.ctl) : Rulings c w w' [] := by
  refine ⟨by rw [h1]; rfl, by rw [h2]; rfl, fun u => by rw [h3]; rfl, fun s hs => ⟨s, h2.trans hs, fun _ => rfl⟩, ?_,
    by rw [h4]; rfl, fun x hx => (by cases hx)⟩
  rw [h4]; exact .nil _

theorem Rulings.trans {c : Cfg} {w w1 w2 : World} {t t' : List Entry} (h1 : Rulings c w w1 t) (h2 : Rulings c w1 w2 t') :
    Rulings c w w2 (t ++ t') := by
  refine ⟨?_, ?_, fun u => ?_, fun s hs => ?_, ?_, ?_, fun x hx => ?_⟩
  · rw [List.foldl_append, ← h1.minimum]; exact h2.minimum
  · rw [List.foldl_append, ← h1.period]; exact h2.period
  · rw [List.foldl_append, ← h1.seats]; exact h2.seats u
  · obtain ⟨s1, a1, a2⟩ := h1.shares s hs
    obtain ⟨s2, b1, b2⟩ := h2.shares s1 a1
    exact ⟨s2, b1, fun u => by rw [List.foldl_append, ← a2]; exact b2 u⟩
  · rw [List.flatMap_append]
    unfold changes
    rw [List.filterMap_append]
    exact h1.config.append h2.config
  · rw [List.flatMap_append, List.foldl_append, ← h1.council]; exact h2.council
  · rcases List.mem_append.1 hx with hx | hx
    · exact h1.sender x hx
    · exact h2.sender x hx

theorem History.rulings {c : Cfg} (hw : c.Wf) (ht : c.Tame) {w w' : World} {t : List Entry} (h : History c w w' t)
    (hr : Reachable c w) : Rulings c w w' t := by
  refine (h.induct hw ht (P := fun w w' t => DistOk c w → DistOk c w' ∧ Rulings c w w' t) ?_ ?_ ?_ ?_ ?_ hr
    (hr.dist hw ht)).2
  · exact fun w hd => ⟨hd, .nil rfl rfl rfl rfl⟩
  · exact fun w l hd => ⟨⟨hd.admin, hd.inv⟩, .nil rfl rfl rfl rfl⟩
  · exact fun w b hd => ⟨⟨hd.admin, hd.inv⟩, .nil rfl rfl rfl rfl⟩
  · intro w w1 w2 t t' h1 h2 hd
    obtain ⟨d1, r1⟩ := h1 hd
    obtain ⟨d2, r2⟩ := h2 d1
    exact ⟨d2, r1.trans r2⟩
  · intro w w1 a m subs e hb hk hx hh hd
    have h := hh.ruling hw hb hk hx hd
    refine ⟨(hh.dist hw hb hk hx hd).1, h.minimum, h.period, h.seats, h.shares, ?_, ?_, ?_⟩
    · simpa using h.config
    · simpa using h.council
    · intro x hx
      rw [List.mem_singleton.1 hx]
      exact h.sender

end Verif.Dao
