import Verif.Dao.Orders
import Verif.Dao.Props3

/-!
# The contracts of a DAO together: the rules of a DAO are amended by passed proposals and by nothing else (C130)

The rules: the configuration of general proposals and of the council, the unlocking period, the minimum weight for rewards,
the members of the council, and in a multisig DAO the members.
-/

set_option linter.unusedSimpArgs false

namespace Verif.Dao
open Verif
open Verif.Controller (Action GovConfig GovChange CouncilConfig CouncilSpec Info Changed)
open Verif.Staking (Duration)

/-! ### The rules follow from the messages on record -/

/-- The configuration is the one before, with the changes in the actions that were run, in that order. -/
theorem C130_config {c : Cfg} (hw : c.Wf) (ht : c.Tame) {w w' : World} {t : List Entry} (hr : Reachable c w)
    (h : History c w w' t) : Amended w.ctl.config (changes (t.flatMap actionsRun)) w'.ctl.config :=
  (h.rulings hw ht hr).config

/-- The rules for the council are those set last by the actions that were run. -/
theorem C130_council_config {c : Cfg} (hw : c.Wf) (ht : c.Tame) {w w' : World} {t : List Entry} (hr : Reachable c w)
    (h : History c w w' t) : w'.ctl.council = (t.flatMap actionsRun).foldl councilAfter w.ctl.council :=
  (h.rulings hw ht hr).council

/-- The unlocking period, the minimum weight for rewards, the weights in the council and the weights in a multisig DAO are
those given by the messages on record, in order. -/
theorem C130_settings {c : Cfg} (hw : c.Wf) (ht : c.Tame) {w w' : World} {t : List Entry} (hr : Reachable c w)
    (h : History c w w' t) :
    w'.mem.unlocking = t.foldl periodAfter w.mem.unlocking ∧
    w'.dist.min = t.foldl minimumAfter w.dist.min ∧
    (∀ u, Multisig.queryWeight w'.council u = t.foldl (seatAfter u) (Multisig.queryWeight w.council u)) ∧
    (∀ s, w.mem = .multisig s → ∃ s', w'.mem = .multisig s' ∧
      ∀ u, Multisig.queryWeight s' u = t.foldl (shareAfter u) (Multisig.queryWeight s u)) :=
  have r := h.rulings hw ht hr
  ⟨r.period, r.minimum, r.seats, r.shares⟩

/-! ### These messages come from passed proposals -/

theorem count_since {k : Nat} {l : List Event} {x : Event} (h : x ∈ l.drop k) : (l.take k).count x < l.count x := by
  conv => rhs; rw [← List.take_append_drop k l]
  rw [List.count_append]
  have := List.count_pos_iff.2 h
  omega

/-- Each message on record that bears on the rules was sent by the controller, and it is either the run of the actions of a
proposal that passed, or asked for by one of those actions. The actions were run in this history, and only once. -/
theorem C130_ordered {c : Cfg} (hw : c.Wf) (ht : c.Tame) {w w' : World} {t : List Entry} (hr : Reachable c w)
    (h : History c w w' t) {x : Entry} (hx : x ∈ t) (hm : x.msg.ofRules = true) :
    x.sender = c.self ∧ ∃ id i o n, w'.ctl.infos.get id = some i ∧ outcome w' id = some (.passed o n) ∧
      ranCount w id = 0 ∧ ranCount w' id = 1 ∧
      (x.msg = .ctl (.executeActions id) ∨ ∃ a ∈ i.actions, Says c a x.msg) := by
  have hs := (h.rulings hw ht hr).sender x hx hm
  refine ⟨hs, ?_⟩
  obtain ⟨ho, hsp⟩ := h.spoken hw ht hr
  have hr' := h.later.reachable hr
  have counts : ∀ {id : Nat}, Event.ran id ∈ w'.log.drop w.log.length →
      ranCount w id = 0 ∧ ranCount w' id = 1 ∧ ∃ o n, outcome w' id = some (.passed o n) := by
    intro id hid
    have h1 := count_since hid
    obtain ⟨l, hl⟩ := ho.log
    have h2 : w'.log.take w.log.length = w.log := by rw [hl, List.take_left]
    rw [h2] at h1
    obtain ⟨h3, h4⟩ := C44_at_most_once hw ht hr' id
    have h1 : ranCount w id < ranCount w' id := h1
    exact ⟨by omega, by omega, (C44_dispatched_iff_passed hw ht hr' id).1 (by omega)⟩
  rcases hsp x hx hs with ⟨id, h1, h2⟩ | ⟨id, i, a, h1, h2, h3, h4⟩
  · obtain ⟨c1, c2, o, n, c3⟩ := counts h2
    have hsent : sentCount w' id = 1 := (C44_dispatched_iff_passed hw ht hr' id).2 ⟨o, n, c3⟩
    obtain ⟨i, _, hi, _⟩ := (C44_dispatched_once hr' id).2 hsent
    exact ⟨id, i, o, n, hi, c3, c1, c2, Or.inl h1⟩
  · obtain ⟨c1, c2, o, n, c3⟩ := counts h1
    exact ⟨id, i, o, n, h2, c3, c1, c2, Or.inr ⟨a, h3, h4⟩⟩

theorem amended_nil {g g' : GovConfig} {l : List GovChange} (h : Amended g l g') (hl : l = []) : g' = g := by
  cases h with
  | nil => rfl
  | cons _ _ => cases hl

/-- As long as no proposal has its actions run, the rules stay as they are, whatever else happens. -/
theorem C130_unchanged {c : Cfg} (hw : c.Wf) (ht : c.Tame) {w w' : World} (hr : Reachable c w) (hl : Later c w w')
    (hno : ∀ id, ranCount w' id = ranCount w id) :
    w'.ctl.config = w.ctl.config ∧ w'.ctl.council = w.ctl.council ∧ w'.mem.unlocking = w.mem.unlocking ∧
    w'.dist.min = w.dist.min ∧ (∀ u, Multisig.queryWeight w'.council u = Multisig.queryWeight w.council u) ∧
    (∀ s, w.mem = .multisig s → ∃ s', w'.mem = .multisig s' ∧
      ∀ u, Multisig.queryWeight s' u = Multisig.queryWeight s u) := by
  obtain ⟨t, h⟩ := hl.history
  have none : ∀ x ∈ t, x.msg.ofRules = false := by
    intro x hx
    by_contra hm
    obtain ⟨_, id, _, _, _, _, _, h1, h2, _⟩ := C130_ordered hw ht hr h hx (by simpa using hm)
    have := hno id
    omega
  have fold : ∀ {β : Type} (f : β → Entry → β), (∀ b x, x.msg.ofRules = false → f b x = b) →
      ∀ (l : List Entry) (b : β), (∀ x ∈ l, x.msg.ofRules = false) → l.foldl f b = b := by
    intro β f hf l
    induction l with
    | nil => intro b _; rfl
    | cons x l ih =>
      intro b hl
      rw [List.foldl_cons, hf b x (hl x List.mem_cons_self)]
      exact ih b (fun y hy => hl y (List.mem_cons_of_mem _ hy))
  have hrun : t.flatMap actionsRun = [] := by
    rw [List.flatMap_eq_nil_iff]
    intro x hx
    have := none x hx
    revert this
    unfold Msg.ofRules actionsRun
    split <;> simp_all
  have r := h.rulings hw ht hr
  have hc := r.config
  rw [hrun] at hc
  refine ⟨?_, ?_, ?_, ?_, fun u => ?_, fun s hs => ?_⟩
  · exact amended_nil hc rfl
  · rw [r.council, hrun]; rfl
  · rw [r.period]
    refine fold _ (fun b x hx => ?_) t _ none
    revert hx
    unfold Msg.ofRules periodAfter
    split <;> simp_all
  · rw [r.minimum]
    refine fold _ (fun b x hx => ?_) t _ none
    revert hx
    unfold Msg.ofRules minimumAfter
    split <;> simp_all
  · rw [r.seats]
    refine fold _ (fun b x hx => ?_) t _ none
    revert hx
    unfold Msg.ofRules seatAfter
    split <;> simp_all
  · obtain ⟨s', h1, h2⟩ := r.shares s hs
    refine ⟨s', h1, fun u => ?_⟩
    rw [h2]
    refine fold _ (fun b x hx => ?_) t _ none
    revert hx
    unfold Msg.ofRules shareAfter
    split <;> simp_all

/-! ### Examples -/

theorem sampleDone_later : Later sampleCfg sampleGenesis (sampleRun sampleDone) := by
  cases hx : runAll sampleCfg sampleGenesis sampleDone with
  | none =>
    exfalso
    have : (runAll sampleCfg sampleGenesis sampleDone).isSome = true := by decide +kernel
    rw [hx] at this
    cases this
  | some w' =>
    have : sampleRun sampleDone = w' := by unfold sampleRun; rw [hx]; rfl
    rw [this]
    exact runAll_later _ .refl hx

/-- The history of a proposal that changes the quorum, and the minimum weight for rewards by a custom message: both are on
record. -/
example : ∃ t, History sampleCfg sampleGenesis (sampleRun sampleDone) t ∧ t.foldl minimumAfter 0 = 5 ∧
    changes (t.flatMap actionsRun) ≠ [] ∧ ∃ x ∈ t, x.msg.ofRules = true := by
  obtain ⟨t, h⟩ := sampleDone_later.history
  have h1 := (C130_settings sampleCfg_wf sampleCfg_tame (.init sample_genesis) h).2.1
  have h2 := C130_config sampleCfg_wf sampleCfg_tame (.init sample_genesis) h
  have h3 : (sampleRun sampleDone).dist.min = 5 := by decide +kernel
  have h4 : sampleGenesis.dist.min = 0 := by decide +kernel
  rw [h3, h4] at h1
  have h5 : changes (t.flatMap actionsRun) ≠ [] := by
    intro hn
    have := amended_nil h2 hn
    exact absurd this (by decide +kernel)
  refine ⟨t, h, h1.symm, h5, ?_⟩
  by_contra hno
  apply h5
  have : t.flatMap actionsRun = [] := by
    rw [List.flatMap_eq_nil_iff]
    intro x hx
    have hf : x.msg.ofRules ≠ true := fun hh => hno ⟨x, hx, hh⟩
    revert hf
    unfold Msg.ofRules actionsRun
    split <;> simp_all
  rw [this]
  rfl

/-- Until the proposal is executed, no actions were run. -/
example : (sampleRun sampleVoted).log = [] ∧ ranCount (sampleRun sampleDone) 1 = 1 := by decide +kernel

/-- What the actions of that proposal ask for. -/
example : Says sampleCfg (.executeMsgs [1, 2]) (.dist (.updateMin 5)) := .custom (n := 2) (by decide) (by rfl)

end Verif.Dao
