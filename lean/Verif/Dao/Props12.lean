import Verif.Dao.Props8
import Verif.Dao.Props11

/-!
# The contracts of a DAO together: what a group of members can decide or prevent (C122)
-/

set_option linter.unusedSimpArgs false

namespace Verif.Dao
open Verif
open Verif.Controller (PType Info)

/-! ### Specification -/

/-- `w` is the state after the last block before the end of voting on the general proposal `id`, which is still open, and
`b` is the next block; the last block is not in the second in which voting ends. -/
structure Ending (c : Cfg) (w : World) (id : Nat) (i : Info) (p : Gov.Poll) (b : Block) : Prop where
  reach : Reachable c w
  info : w.ctl.infos.get id = some i
  general : i.type = .general
  poll : Gov.queryPoll w.gov id = .ok p
  unresolved : outcome w id = none
  before : w.block.time / 10 ^ 9 < p.endsAt / 10 ^ 9
  ends : p.endsAt ≤ b.time
  height : w.block.height ≤ b.height

/-- The group `P` has at least the share `d / 10^18` of the weight of all members. -/
def HasShare (w : World) (P : Addr → Bool) (d : Nat) : Prop :=
  d * weighing w (fun _ => true) ≤ weighing w P * 10 ^ 18

/-- Those who are not in `P` have less than the share `d / 10^18` of the weight of all members. -/
def OthersLack (w : World) (P : Addr → Bool) (d : Nat) : Prop :=
  weighing w (fun u => !P u) * 10 ^ 18 < d * weighing w (fun _ => true)

instance (w : World) (P : Addr → Bool) (d : Nat) : Decidable (HasShare w P d) := by unfold HasShare; infer_instance
instance (w : World) (P : Addr → Bool) (d : Nat) : Decidable (OthersLack w P d) := by unfold OthersLack; infer_instance

/-! ### Lemmas -/

theorem rule_pass {y n a v q t W T : Nat} {vt : Option Nat} (hy : W ≤ y) (hT : y + n + a + v ≤ T) (h1 : T < 2 * W)
    (h2 : t * T ≤ W * 10 ^ 18) (h3 : q * T ≤ W * 10 ^ 18) (h4 : (T - W) * 10 ^ 18 < vt.getD t * T) :
    Gov.ruleStatus y n a v q t vt T = .passed 0 y := by
  have hq : Gov.quorumMet (y + n + a + v) T q := by
    right
    refine ⟨by omega, ?_, ?_⟩
    · exact le_trans h3 (Nat.mul_le_mul_right _ (by omega))
    · have e1 : (y + n + a + v) * 10 ^ 18 ≤ T * 10 ^ 18 := Nat.mul_le_mul_right _ hT
      have e2 : T * 10 ^ 18 < T * 2 ^ 128 := Nat.mul_lt_mul_of_pos_left (by decide) (by omega)
      rw [Nat.mul_comm (2 ^ 128)]
      exact lt_of_le_of_lt e1 e2
  have hv : ¬ Gov.reaches v (y + n + v) (vt.getD t) := by
    rintro (h | ⟨h5, h6⟩)
    · rw [h] at h4; omega
    · have e1 : v * T ≤ (y + n + v) * (T - W) := by
        have hvb : v ≤ y + n + v - W := by omega
        have hW : W ≤ y + n + v := by omega
        calc v * T ≤ (y + n + v - W) * T := Nat.mul_le_mul_right _ hvb
          _ = (y + n + v) * T - W * T := Nat.sub_mul _ _ _
          _ ≤ (y + n + v) * T - W * (y + n + v) := Nat.sub_le_sub_left (Nat.mul_le_mul_left _ (by omega)) _
          _ = (y + n + v) * (T - W) := by rw [Nat.mul_sub, Nat.mul_comm W]
      have e2 : vt.getD t * (y + n + v) * T ≤ v * 10 ^ 18 * T := Nat.mul_le_mul_right _ h6
      have e3 : v * 10 ^ 18 * T ≤ (y + n + v) * ((T - W) * 10 ^ 18) := by
        calc v * 10 ^ 18 * T = v * T * 10 ^ 18 := by rw [Nat.mul_right_comm]
          _ ≤ (y + n + v) * (T - W) * 10 ^ 18 := Nat.mul_le_mul_right _ e1
          _ = _ := by rw [Nat.mul_assoc]
      have e4 : (y + n + v) * ((T - W) * 10 ^ 18) < (y + n + v) * (vt.getD t * T) := Nat.mul_lt_mul_of_pos_left h4 h5
      have e5 : (y + n + v) * (vt.getD t * T) = vt.getD t * (y + n + v) * T := by
        rw [← Nat.mul_assoc, Nat.mul_comm (y + n + v)]
      omega
  have hr : Gov.reaches y (y + n + v) t := by
    right
    refine ⟨by omega, ?_⟩
    calc t * (y + n + v) ≤ t * T := Nat.mul_le_mul_left _ (by omega)
      _ ≤ W * 10 ^ 18 := h2
      _ ≤ _ := Nat.mul_le_mul_right _ hy
  unfold Gov.ruleStatus
  simp only
  rw [if_neg (not_not.2 hq), if_neg hv, if_pos ⟨hr, Or.inr (by omega)⟩]

theorem rule_against {y n a v q t W T : Nat} {vt : Option Nat} (hW : W ≤ n + v) (hT : y + n + a + v ≤ T)
    (ht : Controller.Fraction t) (h : (T - W) * 10 ^ 18 < t * T) (o m : Nat) :
    Gov.ruleStatus y n a v q t vt T ≠ .passed o m := by
  intro hp
  have hr : Gov.reaches y (y + n + v) t := by
    unfold Gov.ruleStatus at hp
    simp only at hp
    split at hp
    · cases hp
    · split at hp
      · cases hp
      · split at hp
        · rename_i h3; exact h3.1
        · split at hp
          · cases hp
          · split at hp <;> cases hp
  obtain ⟨ht0, ht1⟩ := ht
  have hWT : W ≤ T := by omega
  obtain ⟨D, rfl⟩ : ∃ D, T = D + W := ⟨T - W, by omega⟩
  rw [Nat.add_sub_cancel] at h
  rcases hr with hr | ⟨_, h2⟩
  · omega
  · have e1 : t * (y + W) ≤ y * 10 ^ 18 := le_trans (Nat.mul_le_mul_left _ (by omega)) h2
    have hy : y ≤ D := by omega
    -- y * (10^18 - t) ≤ D * (10^18 - t) < W * t
    obtain ⟨E, hE⟩ : ∃ E, t + E = 10 ^ 18 := ⟨10 ^ 18 - t, by omega⟩
    rw [← hE, Nat.mul_add] at e1
    rw [← hE, Nat.mul_add] at h
    have e2 : y * E ≤ D * E := Nat.mul_le_mul_right _ hy
    rw [Nat.mul_add y] at e1
    rw [Nat.mul_add t, Nat.mul_comm t D] at h
    rw [Nat.mul_comm t y] at e1
    omega

theorem rule_veto {y n a v q t W T : Nat} {vt : Option Nat} (hW : W ≤ v) (hT : y + n + a + v ≤ T)
    (hq : Controller.Fraction q) (hvt : Controller.Fraction (vt.getD t)) (h : vt.getD t * T ≤ W * 10 ^ 18) :
    Gov.ruleStatus y n a v q t vt T = .rejected .quorumNotReached ∨
      Gov.ruleStatus y n a v q t vt T = .rejected .isVetoOutcome := by
  unfold Gov.ruleStatus
  simp only
  by_cases hm : Gov.quorumMet (y + n + a + v) T q
  · rw [if_neg (not_not.2 hm), if_pos]
    · exact Or.inr rfl
    · right
      have hT0 : 0 < T := by
        rcases hm with hm | hm
        · obtain ⟨hq, _⟩ := hq; omega
        · exact hm.1
      have hp := Nat.mul_pos hvt.1 hT0
      refine ⟨by omega, ?_⟩
      calc vt.getD t * (y + n + v) ≤ vt.getD t * T := Nat.mul_le_mul_left _ (by omega)
        _ ≤ W * 10 ^ 18 := h
        _ ≤ _ := Nat.mul_le_mul_right _ hW
  · rw [if_pos hm]; exact Or.inl rfl

theorem rule_absent {y n a v q t W T : Nat} {vt : Option Nat} (hT : W + (y + n + a + v) ≤ T)
    (h : (T - W) * 10 ^ 18 < q * T) :
    Gov.ruleStatus y n a v q t vt T = .rejected .quorumNotReached := by
  unfold Gov.ruleStatus
  simp only
  rw [if_pos]
  rintro (hm | ⟨_, hm, _⟩)
  · rw [hm] at h; omega
  · have : (y + n + a + v) * 10 ^ 18 ≤ (T - W) * 10 ^ 18 := Nat.mul_le_mul_right _ (by omega)
    omega

theorem weighing_split (w : World) (P : Addr → Bool) :
    weighing w P + weighing w (fun u => !P u) = weighing w (fun _ => true) := by
  unfold weighing
  rw [← sum_add]
  apply sum_congr
  intro u x
  cases hp : P u <;> simp [hp]

theorem weighing_le (w : World) {P Q : Addr → Bool} (h : ∀ u, P u = true → Q u = true) :
    weighing w P ≤ weighing w Q := by
  unfold weighing
  apply sum_le
  intro u x
  cases hp : P u with
  | false => simp
  | true => simp [h u hp]

theorem weighing_all {c : Cfg} (hw : c.Wf) (ht : c.Tame) {w : World} (h : Reachable c w) :
    w.mem.total .never = weighing w (fun _ => true) := by
  rw [(h.base hw ht).mem.total]
  unfold weighing Members.wsum
  apply sum_congr
  intro u x
  simp

/-- What the group weighs and what the voters weigh. -/
theorem turnout_all (w : World) (id : Nat) :
    held w id .yes + held w id .no + held w id .abstain + held w id .veto ≤ weighing w (fun _ => true) := by
  rw [← turnout_eq]
  exact turnout_le w id (fun _ _ => rfl)

theorem Ending.open {c : Cfg} {w : World} {id : Nat} {i : Info} {p : Gov.Poll} {b : Block} (h : Ending c w id i p b) :
    w.block.time < p.endsAt := by
  by_contra hge
  push Not at hge
  have := Nat.div_le_div_right (c := 10 ^ 9) hge
  have := h.before
  omega

/-- The result, from the weights in the last block. -/
theorem Ending.rule {c : Cfg} (hw : c.Wf) (ht : c.Tame) {w : World} {id : Nat} {i : Info} {p : Gov.Poll} {b : Block}
    (h : Ending c w id i p b) {w' : World} (hl : Later c { w with block := b } w') {st : Gov.Status}
    (hs : outcome w' id = some st) :
    st = Gov.ruleStatus (held w id .yes) (held w id .no) (held w id .abstain) (held w id .veto)
        p.quorum p.threshold p.vetoThreshold (weighing w (fun _ => true)) := by
  obtain ⟨total, h1, _, h2⟩ := C116_at_end hw ht h.reach h.info h.general h.poll h.unresolved h.open h.ends h.height hl hs
  rw [h1, h2 h.before, weighing_all hw ht h.reach]

theorem group_against {c : Cfg} (hw : c.Wf) (ht : c.Tame) {w : World} (h : Reachable c w) {id : Nat} {p : Gov.Poll}
    (hp : Gov.queryPoll w.gov id = .ok p) (P : Addr → Bool)
    (hP : ∀ u, P u = true → choice w id u = some .no ∨ choice w id u = some .veto) (hth : OthersLack w P p.threshold) :
    isPassed (Gov.ruleStatus (held w id .yes) (held w id .no) (held w id .abstain) (held w id .veto)
        p.quorum p.threshold p.vetoThreshold (weighing w (fun _ => true))) = false := by
  obtain ⟨f1, f2, _⟩ := C51_poll_terms_valid hw ht h hp
  have hsplit := weighing_split w P
  have hheld : weighing w P ≤ held w id .no + held w id .veto := by
    unfold held weighing
    rw [← sum_add]
    apply sum_le
    intro u x
    cases hu : P u with
    | false => simp
    | true => rcases hP u hu with h1 | h1 <;> simp [h1]
  have hth : (weighing w (fun _ => true) - weighing w P) * 10 ^ 18 < p.threshold * weighing w (fun _ => true) := by
    have e : weighing w (fun _ => true) - weighing w P = weighing w (fun u => !P u) := by omega
    rw [e]
    exact hth
  have := rule_against (q := p.quorum) (vt := p.vetoThreshold) hheld (turnout_all w id) f2 hth
  generalize Gov.ruleStatus (held w id .yes) (held w id .no) (held w id .abstain) (held w id .veto)
        p.quorum p.threshold p.vetoThreshold (weighing w (fun _ => true)) = st at this ⊢
  cases st with
  | passed o m => exact absurd rfl (this o m)
  | inProgress _ => rfl
  | rejected _ => rfl

/-! ## C122 -/

/-- A group that agrees and is large enough gets its proposal passed, whatever the others do: if all in the group chose
"yes", and the group has more than half of the weight, the share that the quorum and the threshold ask for, and the others
lack the share for a veto, then the proposal passes whenever it is executed; and from the end of voting on, anyone who is
not restricted can execute it. -/
theorem C122_group_passes {c : Cfg} (hw : c.Wf) (ht : c.Tame) {w : World} {id : Nat} {i : Info} {p : Gov.Poll} {b : Block}
    (h : Ending c w id i p b) (P : Addr → Bool) (hP : ∀ u, P u = true → choice w id u = some .yes)
    (hhalf : weighing w (fun u => !P u) < weighing w P) (hq : HasShare w P p.quorum) (hth : HasShare w P p.threshold)
    (hv : OthersLack w P (p.vetoThreshold.getD p.threshold)) {w' : World} (hl : Later c { w with block := b } w') :
    (∀ st, outcome w' id = some st → isPassed st = true) ∧
    (outcome w' id = none → w'.gov.pollCount + 1 < 2 ^ 64 → ∀ a, c.outsider a → ∀ e : Ext, e.restricted a = false →
      (∃ r, handle c e w' a (.ctl (.execute id)) = .ok r) ∧
      ∃ w'' st, Exec c w' [.call a (.ctl (.execute id))] w'' ∧ outcome w'' id = some st ∧ isPassed st = true) := by
  have hsplit := weighing_split w P
  have hyes : weighing w P ≤ held w id .yes := weighing_le w (fun u hu => by rw [hP u hu]; rfl)
  have hall := turnout_all w id
  have hpass : ∀ {w'}, Later c { w with block := b } w' → ∀ st, outcome w' id = some st → isPassed st = true := by
    intro w' hl st hs
    rw [h.rule hw ht hl hs, rule_pass hyes hall (by omega) hth hq]
    · rfl
    · have e : weighing w (fun _ => true) - weighing w P = weighing w (fun u => !P u) := by omega
      rw [e]
      exact hv
  refine ⟨hpass hl, fun hn room a ha e he => ?_⟩
  have hr1 : Reachable c { w with block := b } := .block h.reach h.height (by have := h.open; have := h.ends; omega)
  have hr2 := hl.reachable hr1
  obtain ⟨i', p', hi', hp', a1, _, a3, _⟩ := (hl.settles hw ht hr1).closed id i p h.info
    (Controller.queryPoll_ok_iff.1 h.poll) h.ends
  have hend : p'.endsAt = p.endsAt := Gov.terms_endsAt a1
  have hlate : p'.endsAt ≤ w'.block.time := by
    rw [hend]
    exact le_trans h.ends (hl.settles hw ht hr1).clock
  have hel : electorate w' i'.type p'.endsAt ≠ 0 := by
    rw [a3, h.general, hend]
    have h1 : bodyTotal w' .general (.time p.endsAt) = bodyTotal w .general .never :=
      C109_total_at hw ht h.reach h.before (Nat.div_le_div_right h.ends) h.height hl .general
    have h2 : bodyTotal w .general .never = weighing w (fun _ => true) := weighing_all hw ht h.reach
    show bodyTotal w' .general (.time p.endsAt) ≠ 0
    omega
  obtain ⟨h1, w'', st, h2, h3, _⟩ :=
    C120_resolvable hw ht hr2 hi' (Controller.queryPoll_ok_iff.2 hp') hn hlate hel ha e he room
  exact ⟨h1, w'', st, h2, h3, hpass (.tx hl ha h2) st h3⟩

/-- A group that agrees and is large enough prevents a proposal, whatever the others do: if all in the group chose "no" or
"veto" and the others lack the share that the threshold asks for, the proposal never passes. -/
theorem C122_group_prevents {c : Cfg} (hw : c.Wf) (ht : c.Tame) {w : World} {id : Nat} {i : Info} {p : Gov.Poll} {b : Block}
    (h : Ending c w id i p b) (P : Addr → Bool)
    (hP : ∀ u, P u = true → choice w id u = some .no ∨ choice w id u = some .veto) (hth : OthersLack w P p.threshold)
    {w' : World} (hl : Later c { w with block := b } w') {st : Gov.Status} (hs : outcome w' id = some st) :
    isPassed st = false := by
  rw [h.rule hw ht hl hs]
  exact group_against hw ht h.reach h.poll P hP hth

/-- The same before the end of voting: as long as the members of the group stand by their votes and the others lack the
share, the proposal does not pass early either. -/
theorem C122_group_prevents_early {c : Cfg} (hw : c.Wf) (ht : c.Tame) {w w1 : World} (h : Reachable c w) {e : Ext}
    {a : Addr} {id : Nat} {subs : List Item} (hx : handle c e w a (.ctl (.execute id)) = .ok (w1, subs)) {i : Info}
    (hi : w.ctl.infos.get id = some i) (hg : i.type = .general) {p : Gov.Poll} (hp : Gov.queryPoll w.gov id = .ok p)
    (ho : w.block.time < p.endsAt) (P : Addr → Bool)
    (hP : ∀ u, P u = true → choice w id u = some .no ∨ choice w id u = some .veto) (hth : OthersLack w P p.threshold) :
    ∃ st, outcome w1 id = some st ∧ isPassed st = false := by
  refine ⟨_, C116_early hw ht h hx hi hg hp ho, ?_⟩
  rw [weighing_all hw ht h]
  exact group_against hw ht h hp P hP hth

/-- A group that vetoes and has the share that the veto threshold asks for has the proposal rejected, and its deposit goes
to the treasury. -/
theorem C122_group_vetoes {c : Cfg} (hw : c.Wf) (ht : c.Tame) {w : World} {id : Nat} {i : Info} {p : Gov.Poll} {b : Block}
    (h : Ending c w id i p b) (P : Addr → Bool) (hP : ∀ u, P u = true → choice w id u = some .veto)
    (hv : HasShare w P (p.vetoThreshold.getD p.threshold)) {w' : World} (hl : Later c { w with block := b } w')
    {st : Gov.Status} (hs : outcome w' id = some st) : isPassed st = false ∧ forfeits st = true := by
  obtain ⟨f1, f2, f3⟩ := C51_poll_terms_valid hw ht h.reach h.poll
  have hvt : Controller.Fraction (p.vetoThreshold.getD p.threshold) := by
    cases hx : p.vetoThreshold with
    | none => exact f2
    | some v => exact f3 v hx
  have hheld : weighing w P ≤ held w id .veto := weighing_le w (fun u hu => by rw [hP u hu]; rfl)
  rw [h.rule hw ht hl hs]
  rcases rule_veto (y := held w id .yes) (n := held w id .no) (a := held w id .abstain) hheld (turnout_all w id) f1 hvt hv with
    h1 | h1 <;> rw [h1] <;> exact ⟨rfl, rfl⟩

/-- A group that does not vote at all, without which the others lack the share that the quorum asks for, has the proposal
rejected, and its deposit goes to the treasury. -/
theorem C122_group_stays_away {c : Cfg} (hw : c.Wf) (ht : c.Tame) {w : World} {id : Nat} {i : Info} {p : Gov.Poll}
    {b : Block} (h : Ending c w id i p b) (P : Addr → Bool) (hP : ∀ u, P u = true → choice w id u = none)
    (hq : OthersLack w P p.quorum) {w' : World} (hl : Later c { w with block := b } w') {st : Gov.Status}
    (hs : outcome w' id = some st) : st = .rejected .quorumNotReached := by
  have hsplit := weighing_split w P
  have hcast : turnout w id ≤ weighing w (fun u => !P u) := turnout_le w id (fun u hu => by
    cases hp : P u with
    | false => rfl
    | true => exact absurd (hP u hp) hu)
  rw [turnout_eq] at hcast
  rw [h.rule hw ht hl hs]
  apply rule_absent (W := weighing w P)
  · omega
  · have e : weighing w (fun _ => true) - weighing w P = weighing w (fun u => !P u) := by omega
    rw [e]
    exact hq

/-! ### Examples -/

/-- The hypotheses of the theorems hold for a run of the sample, and the terms of the vote satisfy `Q`. -/
def endingB (l : List Step) (b : Block) (Q : Gov.Poll → Bool) : Bool :=
  match (sampleRun l).ctl.infos.get 1, Gov.queryPoll (sampleRun l).gov 1 with
  | some i, .ok p => decide (i.type = .general) && (outcome (sampleRun l) 1).isNone &&
      decide ((sampleRun l).block.time / 10 ^ 9 < p.endsAt / 10 ^ 9) && decide (p.endsAt ≤ b.time) &&
      decide ((sampleRun l).block.height ≤ b.height) && Q p
  | _, _ => false

theorem endingB_ok {l : List Step} {b : Block} {Q : Gov.Poll → Bool} (h : endingB l b Q = true) :
    ∃ i p, Ending sampleCfg (sampleRun l) 1 i p b ∧ Q p = true := by
  unfold endingB at h
  split at h
  · rename_i i p hi hp
    simp only [Bool.and_eq_true, decide_eq_true_eq, Option.isNone_iff_eq_none] at h
    obtain ⟨⟨⟨⟨⟨h1, h2⟩, h3⟩, h4⟩, h5⟩, h6⟩ := h
    exact ⟨i, p, ⟨sampleRun_reachable l, hi, h1, hp, h2, h3, h4, h5⟩, h6⟩
  · cases h

/-- Users 10 and 11 have 60 of 100: with two votes for "yes" they get the proposal passed, although user 13 vetoes. -/
example : let l := [stake 10 30, stake 11 30, stake 13 40, at_ 2, propose 12 [.updateGovConfig sampleChange], at_ 3,
      vote 10 1 .yes, vote 11 1 .yes, vote 13 1 .veto]
    let P : Addr → Bool := fun u => decide (u = 10) || decide (u = 11)
    (∃ i p, Ending sampleCfg (sampleRun l) 1 i p ⟨102, 102 * 10 ^ 9⟩ ∧
      decide (HasShare (sampleRun l) P p.quorum ∧ HasShare (sampleRun l) P p.threshold ∧
        OthersLack (sampleRun l) P (p.vetoThreshold.getD p.threshold)) = true) ∧
    choice (sampleRun l) 1 10 = some .yes ∧ choice (sampleRun l) 1 11 = some .yes ∧
    weighing (sampleRun l) (fun u => !P u) < weighing (sampleRun l) P := by
  refine ⟨endingB_ok (by decide +kernel), ?_, ?_, ?_⟩ <;> decide +kernel

/-- Users 10 and 11 have 60 of 100, and choose "no" and "veto": nobody can get the proposal passed. -/
example : let l := [stake 10 30, stake 11 30, stake 13 40, at_ 2, propose 12 [.updateGovConfig sampleChange], at_ 3,
      vote 10 1 .no, vote 11 1 .veto, vote 13 1 .yes]
    let P : Addr → Bool := fun u => decide (u = 10) || decide (u = 11)
    (∃ i p, Ending sampleCfg (sampleRun l) 1 i p ⟨102, 102 * 10 ^ 9⟩ ∧
      decide (OthersLack (sampleRun l) P p.threshold) = true) ∧
    choice (sampleRun l) 1 10 = some .no ∧ choice (sampleRun l) 1 11 = some .veto := by
  refine ⟨endingB_ok (by decide +kernel), ?_, ?_⟩ <;> decide +kernel

/-- The same proposal cannot be executed early with success: it is executed before the end, and rejected. -/
example : let l := [stake 10 60, stake 13 40, at_ 2, propose 12 [.updateGovConfig sampleChange], at_ 3,
      vote 10 1 .veto, vote 13 1 .yes, at_ 101]
    let P : Addr → Bool := fun u => decide (u = 10)
    (∃ i p, Ending sampleCfg (sampleRun l) 1 i p ⟨102, 102 * 10 ^ 9⟩ ∧
      decide (OthersLack (sampleRun l) P p.threshold) = true) ∧
    (handle sampleCfg sampleExt (sampleRun l) 14 (.ctl (.execute 1))).toOption.isSome = true := by
  exact ⟨endingB_ok (by decide +kernel), by decide +kernel⟩

/-- User 10 has half of the weight and vetoes; the other half says yes. -/
example : let l := [stake 10 50, stake 13 50, at_ 2, propose 12 [.updateGovConfig sampleChange], at_ 3,
      vote 10 1 .veto, vote 13 1 .yes]
    let P : Addr → Bool := fun u => decide (u = 10)
    (∃ i p, Ending sampleCfg (sampleRun l) 1 i p ⟨102, 102 * 10 ^ 9⟩ ∧
      decide (HasShare (sampleRun l) P (p.vetoThreshold.getD p.threshold)) = true) ∧
    choice (sampleRun l) 1 10 = some .veto := by
  exact ⟨endingB_ok (by decide +kernel), by decide +kernel⟩

/-- User 10 has 95 of 100 and stays away; the others do not reach the quorum of 10 %. -/
example : let l := [stake 10 95, stake 13 5, at_ 2, propose 12 [.updateGovConfig sampleChange], at_ 3, vote 13 1 .yes]
    let P : Addr → Bool := fun u => decide (u = 10)
    (∃ i p, Ending sampleCfg (sampleRun l) 1 i p ⟨102, 102 * 10 ^ 9⟩ ∧
      decide (OthersLack (sampleRun l) P p.quorum) = true) ∧
    choice (sampleRun l) 1 10 = none := by
  exact ⟨endingB_ok (by decide +kernel), by decide +kernel⟩

end Verif.Dao
