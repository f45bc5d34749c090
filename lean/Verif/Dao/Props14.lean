import Verif.Dao.Props12

/-!
# The contracts of a DAO together: when the result of an early execution is beyond recall (C127)
-/

set_option linter.unusedSimpArgs false

namespace Verif.Dao
open Verif
open Verif.Controller (PType Info)

/-! ### Specification -/

/-- What the published rule gives if every member makes the given choice (`none` for those who do not vote), with the
weights that the members have in `w`. -/
def ifChosen (w : World) (p : Gov.Poll) (ch : Addr → Option Gov.Outcome) : Gov.Status :=
  Gov.ruleStatus (weighing w (fun u => decide (ch u = some .yes))) (weighing w (fun u => decide (ch u = some .no)))
    (weighing w (fun u => decide (ch u = some .abstain))) (weighing w (fun u => decide (ch u = some .veto)))
    p.quorum p.threshold p.vetoThreshold (weighing w (fun _ => true))

/-- Everybody who has voted stands by it; the others may vote or not. -/
def Completes (w : World) (id : Nat) (ch : Addr → Option Gov.Outcome) : Prop :=
  ∀ u o, choice w id u = some o → ch u = some o

/-- Everybody who has not voted chooses `o`. -/
def restChoose (w : World) (id : Nat) (o : Gov.Outcome) (u : Addr) : Option Gov.Outcome := some ((choice w id u).getD o)

/-! ### Lemmas -/

theorem rule_passed_iff {y n a v q t T : Nat} {vt : Option Nat} :
    isPassed (Gov.ruleStatus y n a v q t vt T) = true ↔
      Gov.quorumMet (y + n + a + v) T q ∧ ¬ Gov.reaches v (y + n + v) (vt.getD t) ∧ Gov.reaches y (y + n + v) t ∧
        (¬ Gov.reaches n (y + n + v) t ∨ n < y) := by
  unfold Gov.ruleStatus
  simp only
  by_cases h1 : Gov.quorumMet (y + n + a + v) T q
  · rw [if_neg (not_not.2 h1)]
    by_cases h2 : Gov.reaches v (y + n + v) (vt.getD t)
    · rw [if_pos h2]; simp [isPassed, h2]
    · rw [if_neg h2]
      by_cases h3 : Gov.reaches y (y + n + v) t ∧ (¬ Gov.reaches n (y + n + v) t ∨ n < y)
      · rw [if_pos h3]; exact ⟨fun _ => ⟨h1, h2, h3⟩, fun _ => rfl⟩
      · rw [if_neg h3]
        constructor
        · intro h
          split at h
          · cases h
          · split at h <;> cases h
        · rintro ⟨_, _, h⟩; exact absurd h h3
  · rw [if_pos h1]; simp [isPassed, h1]

/-- More participation keeps the quorum. -/
theorem quorumMet_mono {x x' T q : Nat} (h : Gov.quorumMet x T q) (hx : x ≤ x') (hT : x' ≤ T) : Gov.quorumMet x' T q := by
  rcases h with h | ⟨h1, h2, _⟩
  · exact Or.inl h
  · refine Or.inr ⟨h1, le_trans h2 (Nat.mul_le_mul_right _ hx), ?_⟩
    have e1 : x' * 10 ^ 18 ≤ T * 10 ^ 18 := Nat.mul_le_mul_right _ hT
    have e2 : T * 10 ^ 18 < T * 2 ^ 128 := Nat.mul_lt_mul_of_pos_left (by decide) h1
    rw [Nat.mul_comm (2 ^ 128)]
    exact lt_of_le_of_lt e1 e2

/-- The share does not fall if the count grows and the base shrinks. -/
theorem reaches_mono {x x' B B' t : Nat} (h : Gov.reaches x B t) (hx : x ≤ x') (hB : B' ≤ B) (hx' : x' ≤ B') :
    Gov.reaches x' B' t := by
  by_cases ht : t = 0
  · exact Or.inl ht
  rcases h with h | ⟨h1, h2⟩
  · exact absurd h ht
  · have hp : 0 < t * B := Nat.mul_pos (by omega) h1
    have h3 : 0 < x := by
      by_contra h0
      have : x = 0 := by omega
      rw [this] at h2; omega
    exact Or.inr ⟨by omega, le_trans (Nat.mul_le_mul_left _ hB) (le_trans h2 (Nat.mul_le_mul_right _ hx))⟩

/-- The share does not fall if the same is added to count and base, and more to the count. -/
theorem reaches_add {x B t r k : Nat} (ht : t ≤ 10 ^ 18) (h : Gov.reaches x B t) (hk : k ≤ r) :
    Gov.reaches (x + r) (B + k) t := by
  rcases h with h | ⟨h1, h2⟩
  · exact Or.inl h
  · refine Or.inr ⟨by omega, ?_⟩
    rw [Nat.mul_add, Nat.add_mul]
    have e1 : t * k ≤ 10 ^ 18 * k := Nat.mul_le_mul_right _ ht
    have e2 : 10 ^ 18 * k ≤ r * 10 ^ 18 := by rw [Nat.mul_comm]; exact Nat.mul_le_mul_right _ hk
    omega

/-- If the outstanding votes cannot turn it by all being against, or all being vetoes, they cannot turn it at all. -/
theorem pass_stands {y n a v q t T R r1 r2 r3 r4 : Nat} {vt : Option Nat} (ht : t ≤ 10 ^ 18) (hvt : vt.getD t ≤ 10 ^ 18)
    (hT : y + n + a + v + R = T) (hr : r1 + r2 + r3 + r4 ≤ R) (h0 : isPassed (Gov.ruleStatus y n a v q t vt T) = true)
    (h1 : isPassed (Gov.ruleStatus y (n + R) a v q t vt T) = true)
    (h2 : isPassed (Gov.ruleStatus y n a (v + R) q t vt T) = true) :
    isPassed (Gov.ruleStatus (y + r1) (n + r2) (a + r3) (v + r4) q t vt T) = true := by
  rw [rule_passed_iff] at h0 h1 h2 ⊢
  obtain ⟨hq, _⟩ := h0
  obtain ⟨_, _, hy, hn⟩ := h1
  obtain ⟨_, hv, _⟩ := h2
  refine ⟨quorumMet_mono hq (by omega) (by omega), fun h => hv ?_, reaches_mono hy (by omega) (by omega) (by omega), ?_⟩
  · have := reaches_add (r := R - r4) (k := R - r1 - r2 - r4) hvt h (by omega)
    rwa [show v + r4 + (R - r4) = v + R by omega,
      show y + r1 + (n + r2) + (v + r4) + (R - r1 - r2 - r4) = y + n + (v + R) by omega] at this
  · rcases hn with hn | hn
    · refine Or.inl (fun h => hn ?_)
      have := reaches_add (r := R - r2) (k := R - r1 - r2 - r4) ht h (by omega)
      rwa [show n + r2 + (R - r2) = n + R by omega,
        show y + r1 + (n + r2) + (v + r4) + (R - r1 - r2 - r4) = y + (n + R) + v by omega] at this
    · exact Or.inr (by omega)

/-- If the outstanding votes can make it pass, they do so by all being in favour. -/
theorem pass_best {y n a v q t T R r1 r2 r3 r4 : Nat} {vt : Option Nat} (ht : t ≤ 10 ^ 18)
    (hT : y + n + a + v + R = T) (hr : r1 + r2 + r3 + r4 ≤ R)
    (h : isPassed (Gov.ruleStatus (y + r1) (n + r2) (a + r3) (v + r4) q t vt T) = true) :
    isPassed (Gov.ruleStatus (y + R) n a v q t vt T) = true := by
  rw [rule_passed_iff] at h ⊢
  obtain ⟨hq, hv, hy, hn⟩ := h
  refine ⟨quorumMet_mono hq (by omega) (by omega),
    fun h => hv (reaches_mono h (by omega) (by omega) (by omega)), ?_, ?_⟩
  · have := reaches_add (r := R - r1) (k := R - r1 - r2 - r4) ht hy (by omega)
    rwa [show y + r1 + (R - r1) = y + R by omega,
      show y + r1 + (n + r2) + (v + r4) + (R - r1 - r2 - r4) = y + R + n + v by omega] at this
  · rcases hn with hn | hn
    · exact Or.inl (fun h => hn (reaches_mono h (by omega) (by omega) (by omega)))
    · exact Or.inr (by omega)

/-- What the members who have not voted and choose `o` weigh. -/
def joining (w : World) (id : Nat) (ch : Addr → Option Gov.Outcome) (o : Gov.Outcome) : Nat :=
  weighing w (fun u => decide (choice w id u = none ∧ ch u = some o))

theorem chosen_split {w : World} {id : Nat} {ch : Addr → Option Gov.Outcome} (h : Completes w id ch) (o : Gov.Outcome) :
    weighing w (fun u => decide (ch u = some o)) = held w id o + joining w id ch o := by
  unfold held joining weighing
  rw [← sum_add]
  apply sum_congr
  intro u x
  cases hc : choice w id u with
  | none => simp [hc]
  | some o' => simp [hc, h u o' hc]

theorem joining_sum (w : World) (id : Nat) (ch : Addr → Option Gov.Outcome) :
    joining w id ch .yes + joining w id ch .no + joining w id ch .abstain + joining w id ch .veto ≤
      weighing w (fun u => decide (choice w id u = none)) := by
  unfold joining weighing
  rw [← sum_add, ← sum_add, ← sum_add]
  apply sum_le
  intro u x
  cases hc : choice w id u with
  | some o => simp [hc]
  | none =>
    cases hch : ch u with
    | none => simp [hc, hch]
    | some o => cases o <;> simp [hc, hch]

theorem outstanding (w : World) (id : Nat) :
    held w id .yes + held w id .no + held w id .abstain + held w id .veto +
      weighing w (fun u => decide (choice w id u = none)) = weighing w (fun _ => true) := by
  unfold held weighing
  rw [← sum_add, ← sum_add, ← sum_add, ← sum_add]
  apply sum_congr
  intro u x
  cases hc : choice w id u with
  | none => simp [hc]
  | some o => cases o <;> simp [hc]

theorem rest_completes (w : World) (id : Nat) (o : Gov.Outcome) : Completes w id (restChoose w id o) := by
  intro u o' h
  unfold restChoose
  rw [h]; rfl

theorem rest_joining (w : World) (id : Nat) (o o' : Gov.Outcome) :
    joining w id (restChoose w id o) o' =
      if o = o' then weighing w (fun u => decide (choice w id u = none)) else 0 := by
  unfold joining weighing restChoose
  by_cases h : o = o'
  · subst h
    rw [if_pos rfl]
    apply sum_congr
    intro u x
    cases hc : choice w id u <;> simp [hc]
  · rw [if_neg h]
    apply sum_zero
    intro u x _
    cases hc : choice w id u <;> simp [hc, h]

theorem ifChosen_eq {w : World} {id : Nat} {ch : Addr → Option Gov.Outcome} (h : Completes w id ch) (p : Gov.Poll) :
    ifChosen w p ch = Gov.ruleStatus (held w id .yes + joining w id ch .yes) (held w id .no + joining w id ch .no)
      (held w id .abstain + joining w id ch .abstain) (held w id .veto + joining w id ch .veto)
      p.quorum p.threshold p.vetoThreshold (weighing w (fun _ => true)) := by
  unfold ifChosen
  simp only [chosen_split h]

/-! ## C127 -/

/-- A general proposal that is executed before the end of voting gets the result that the rule gives for the choices made
so far. If it passes by that, then this result is beyond recall (it would be the same however those who have not voted
would still vote, as long as the others stand by their votes and the weights stay the same) exactly if it would pass both
if all the others voted against it, and if they all vetoed it. -/
theorem C127_early_pass {c : Cfg} (hw : c.Wf) (ht : c.Tame) {w w1 : World} (h : Reachable c w) {e : Ext}
    {a : Addr} {id : Nat} {subs : List Item} (hx : handle c e w a (.ctl (.execute id)) = .ok (w1, subs)) {i : Info}
    (hi : w.ctl.infos.get id = some i) (hg : i.type = .general) {p : Gov.Poll} (hp : Gov.queryPoll w.gov id = .ok p)
    (ho : w.block.time < p.endsAt) {st : Gov.Status} (hs : outcome w1 id = some st) (hpass : isPassed st = true) :
    st = ifChosen w p (choice w id) ∧
    ((∀ ch, Completes w id ch → isPassed (ifChosen w p ch) = true) ↔
      isPassed (ifChosen w p (restChoose w id .no)) = true ∧ isPassed (ifChosen w p (restChoose w id .veto)) = true) := by
  have he := C116_early hw ht h hx hi hg hp ho
  rw [hs, weighing_all hw ht h] at he
  have he := Option.some.inj he
  refine ⟨he, fun hall => ⟨hall _ (rest_completes _ _ _), hall _ (rest_completes _ _ _)⟩, ?_⟩
  rintro ⟨h1, h2⟩ ch hch
  obtain ⟨_, f2, f3⟩ := C51_poll_terms_valid hw ht h hp
  have hvt : p.vetoThreshold.getD p.threshold ≤ 10 ^ 18 := by
    cases hv : p.vetoThreshold with
    | none => exact f2.2
    | some v => exact (f3 v hv).2
  rw [ifChosen_eq (rest_completes _ _ _)] at h1 h2
  simp only [rest_joining, if_true, if_false, reduceCtorEq, Nat.add_zero] at h1 h2
  rw [ifChosen_eq hch]
  rw [he] at hpass
  exact pass_stands f2.2 hvt (outstanding w id) (joining_sum w id ch) hpass h1 h2

/-- If it does not pass by the choices made so far, this is beyond recall exactly if it would not pass either if all the
others voted for it. -/
theorem C127_early_rejection {c : Cfg} (hw : c.Wf) (ht : c.Tame) {w w1 : World} (h : Reachable c w) {e : Ext}
    {a : Addr} {id : Nat} {subs : List Item} (hx : handle c e w a (.ctl (.execute id)) = .ok (w1, subs)) {i : Info}
    (hi : w.ctl.infos.get id = some i) (hg : i.type = .general) {p : Gov.Poll} (hp : Gov.queryPoll w.gov id = .ok p)
    (ho : w.block.time < p.endsAt) {st : Gov.Status} (hs : outcome w1 id = some st) (_ : isPassed st = false) :
    st = ifChosen w p (choice w id) ∧
    ((∀ ch, Completes w id ch → isPassed (ifChosen w p ch) = false) ↔
      isPassed (ifChosen w p (restChoose w id .yes)) = false) := by
  have he := C116_early hw ht h hx hi hg hp ho
  rw [hs, weighing_all hw ht h] at he
  have he := Option.some.inj he
  refine ⟨he, fun hall => hall _ (rest_completes _ _ _), fun h1 ch hch => ?_⟩
  obtain ⟨_, f2, _⟩ := C51_poll_terms_valid hw ht h hp
  by_contra hc
  have hc : isPassed (ifChosen w p ch) = true := by simpa using hc
  rw [ifChosen_eq hch] at hc
  have := pass_best f2.2 (outstanding w id) (joining_sum w id ch) hc
  rw [ifChosen_eq (rest_completes _ _ _)] at h1
  simp only [rest_joining, if_true, if_false, reduceCtorEq, Nat.add_zero] at h1
  rw [this] at h1
  cases h1

/-! ### Examples -/

/-- User 10 with 60 of 200 votes "yes", user 12 with 140 has not voted. -/
def sampleQuick : List Step := [stake 10 60, stake 12 140, at_ 2, propose 12 [], at_ 3, vote 10 1 .yes, at_ 20]

/-- User 10 with 120 of 200 votes "yes", user 12 with 80 has not voted. -/
def sampleSure : List Step := [stake 10 120, stake 12 80, at_ 2, propose 12 [], at_ 3, vote 10 1 .yes, at_ 20]

/-- User 10 with 60 of 200 votes "no", user 12 with 140 has not voted. -/
def sampleRash : List Step := [stake 10 60, stake 12 140, at_ 2, propose 12 [], at_ 3, vote 10 1 .no, at_ 20]

/-- The proposal of a run of the sample can be executed, with a result that passes or not, long before the end. -/
def earlyB (l : List Step) (pass : Bool) (Q : Gov.Poll → Bool) : Bool :=
  match handle sampleCfg sampleExt (sampleRun l) 13 (.ctl (.execute 1)), (sampleRun l).ctl.infos.get 1,
      Gov.queryPoll (sampleRun l).gov 1 with
  | .ok r, some i, .ok p => decide ((outcome r.1 1).map isPassed = some pass) && decide (i.type = .general) &&
      decide ((sampleRun l).block.time < p.endsAt) && Q p
  | _, _, _ => false

/-- An early execution can pass what those who have not voted would turn: here a single vote with 30 % of the weight
decides, and would lose if the others voted no. -/
theorem C127_turned_witness : Reachable sampleCfg (sampleRun sampleQuick) ∧
    earlyB sampleQuick true (fun p => ! isPassed (ifChosen (sampleRun sampleQuick) p (restChoose (sampleRun sampleQuick) 1 .no)))
      = true := by
  exact ⟨sampleRun_reachable _, by decide +kernel⟩

/-- And it can reject what those who have not voted would pass. -/
example : earlyB sampleRash false
    (fun p => isPassed (ifChosen (sampleRun sampleRash) p (restChoose (sampleRun sampleRash) 1 .yes))) = true := by
  decide +kernel

/-- The result is beyond recall with 60 % of the weight in favour. -/
example : earlyB sampleSure true (fun p =>
    isPassed (ifChosen (sampleRun sampleSure) p (restChoose (sampleRun sampleSure) 1 .no)) &&
    isPassed (ifChosen (sampleRun sampleSure) p (restChoose (sampleRun sampleSure) 1 .veto))) = true := by
  decide +kernel

end Verif.Dao
