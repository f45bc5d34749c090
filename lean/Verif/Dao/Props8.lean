import Verif.Dao.Props7

/-!
# The contracts of a DAO together: a vote counts what the members weigh when it ends (C116)
-/

set_option linter.unusedSimpArgs false

namespace Verif.Dao
open Verif
open Verif.Controller (queryProposal Response PType Info)
open Verif.Gov (vkey)

/-! ### Specification -/

/-- What an account chose on a proposal, if it voted. -/
def choice (w : World) (id : Nat) (u : Addr) : Option Gov.Outcome := (Gov.queryPollVoter w.gov id u).map (·.outcome)

/-- What the members with a property weigh together. -/
def weighing (w : World) (P : Addr → Bool) : Nat := w.mem.mem.weights.sum (fun u x => if P u then x else 0)

/-- What the members who chose `o` weigh together. -/
def held (w : World) (id : Nat) (o : Gov.Outcome) : Nat := weighing w (fun u => decide (choice w id u = some o))

/-- What the members who voted weigh together. -/
def turnout (w : World) (id : Nat) : Nat := weighing w (fun u => (choice w id u).isSome)

/-! ### Lemmas -/

theorem sum_zero (W : Map Addr Nat) {f : Addr → Nat → Nat} (h : ∀ u x, W.get u = some x → f u x = 0) : W.sum f = 0 := by
  have h : ∀ e ∈ W.entries, f e.1 e.2 = 0 := fun e he => h _ _ (Map.get_eq_some_iff.2 he)
  unfold Map.sum
  generalize W.entries = l at h
  induction l with
  | nil => rfl
  | cons e t ih =>
    rw [List.map_cons, List.sum_cons, ih (fun e he => h e (List.mem_cons_of_mem _ he)), h e List.mem_cons_self]

theorem sum_pick (W : Map Addr Nat) (a : Addr) :
    W.sum (fun u x => if u = a then x else 0) = (W.get a).getD 0 := by
  have h1 := Map.sum_remove W (fun u x => if u = a then x else 0) a
  have h2 : (W.remove a).sum (fun u x => if u = a then x else 0) = 0 := by
    apply sum_zero
    intro u x hg
    rw [Map.get_remove] at hg
    by_cases hea : a = u
    · rw [if_pos hea] at hg; cases hg
    · exact if_neg (fun h => hea h.symm)
  rw [h2] at h1
  cases hg : W.get a with
  | none => rw [hg] at h1; simp [Map.contrib] at h1; simpa using h1.symm
  | some x => rw [hg] at h1; simp [Map.contrib] at h1; simpa using h1.symm

theorem sum_add (W : Map Addr Nat) (f g : Addr → Nat → Nat) :
    W.sum (fun u x => f u x + g u x) = W.sum f + W.sum g := by
  unfold Map.sum
  induction W.entries with
  | nil => rfl
  | cons e t ih => simp only [List.map_cons, List.sum_cons, ih]; omega

theorem sum_congr (W : Map Addr Nat) {f g : Addr → Nat → Nat} (h : ∀ u x, f u x = g u x) : W.sum f = W.sum g := by
  have : f = g := by funext u x; exact h u x
  rw [this]

theorem sum_le (W : Map Addr Nat) {f g : Addr → Nat → Nat} (h : ∀ u x, f u x ≤ g u x) : W.sum f ≤ W.sum g := by
  unfold Map.sum
  induction W.entries with
  | nil => exact Nat.le_refl _
  | cons e t ih => simp only [List.map_cons, List.sum_cons]; exact Nat.add_le_add (h _ _) ih

/-- What the accounts of a list without repetition weigh. -/
theorem sum_list (W : Map Addr Nat) (l : List Addr) (hn : l.Nodup) :
    (l.map (fun u => (W.get u).getD 0)).sum = W.sum (fun u x => if u ∈ l then x else 0) := by
  induction l with
  | nil =>
    rw [sum_zero]
    · rfl
    · intro u x _; simp
  | cons a t ih =>
    rw [List.nodup_cons] at hn
    rw [List.map_cons, List.sum_cons, ih hn.2, ← sum_pick W a, ← sum_add]
    apply sum_congr
    intro u x
    by_cases h : u = a
    · subst h; simp [hn.1]
    · simp [h]

theorem votedSum_eq (g : Gov.State) (id : Nat) (o : Gov.Outcome) : Gov.votedSum g id o =
    (((votesOn g id).filter (fun v => decide (v.outcome = o))).map (·.amount)).sum := by
  unfold Gov.votedSum votesOn Map.sum Map.values
  generalize g.votes.entries = l
  induction l with
  | nil => rfl
  | cons e t ih =>
    rw [List.map_cons, List.sum_cons, ih, List.map_cons, List.filter_cons]
    by_cases h : e.2.pollId = id <;> by_cases h' : e.2.outcome = o <;> simp [h, h']

theorem votedSum_held {c : Cfg} (hw : c.Wf) (ht : c.Tame) {w : World} (h : Reachable c w) {id : Nat}
    {i : Info} (hi : w.ctl.infos.get id = some i) (hg : i.type = .general) {p : Gov.Poll}
    (hp : Gov.queryPoll w.gov id = .ok p) (hl : p.live) (ho : w.block.time < p.endsAt) (o : Gov.Outcome) :
    Gov.votedSum w.gov id o = held w id o := by
  have hinv := (h.base hw ht).ctl.inv
  rw [votedSum_eq]
  have h1 : ((votesOn w.gov id).filter (fun v => decide (v.outcome = o))).map (·.amount) =
      (((votesOn w.gov id).filter (fun v => decide (v.outcome = o))).map (·.voter)).map
        (fun u => (w.mem.mem.weights.get u).getD 0) := by
    rw [List.map_map]
    apply List.map_congr_left
    intro v hv
    have hv' := (mem_votesOn hinv (List.mem_filter.1 hv).1).1
    have := C54_votes_track_weight hw ht h hi hg hp hl ho (u := v.voter) (v := v) hv'
    rw [Member.weight_eq] at this
    exact this
  have hn : (((votesOn w.gov id).filter (fun v => decide (v.outcome = o))).map (·.voter)).Nodup :=
    (List.filter_sublist.map _).nodup (votesOn_nodup hinv id)
  rw [h1, sum_list _ _ hn]
  unfold held weighing
  apply sum_congr
  intro u x
  have hiff : u ∈ ((votesOn w.gov id).filter (fun v => decide (v.outcome = o))).map (·.voter) ↔ choice w id u = some o := by
    unfold choice Gov.queryPollVoter
    constructor
    · intro hm
      obtain ⟨v, hv, rfl⟩ := List.mem_map.1 hm
      obtain ⟨hv1, hv2⟩ := List.mem_filter.1 hv
      rw [(mem_votesOn hinv hv1).1]
      simpa using hv2
    · intro hc
      cases hv : w.gov.votes.get (vkey u id) with
      | none => rw [hv] at hc; cases hc
      | some v =>
        rw [hv] at hc
        have hc : v.outcome = o := by simpa using hc
        have hk : vkey u id = vkey v.voter v.pollId := (hinv.vkeys _ _ hv).1
        obtain ⟨hk1, hk2⟩ := Prod.mk.injEq .. ▸ (toLex.injective hk)
        refine List.mem_map.2 ⟨v, List.mem_filter.2 ⟨?_, by simpa using hc⟩, hk1.symm⟩
        unfold votesOn Map.values
        refine List.mem_filter.2 ⟨List.mem_map.2 ⟨_, Map.get_eq_some_iff.1 hv, rfl⟩, ?_⟩
        simpa using hk2.symm
  simp [hiff]

theorem turnout_eq (w : World) (id : Nat) :
    turnout w id = held w id .yes + held w id .no + held w id .abstain + held w id .veto := by
  unfold turnout held weighing
  rw [← sum_add, ← sum_add, ← sum_add]
  apply sum_congr
  intro u x
  cases hc : choice w id u with
  | none => simp [hc]
  | some o => cases o <;> simp [hc]

theorem turnout_le (w : World) (id : Nat) {P : Addr → Bool}
    (h : ∀ u, choice w id u ≠ none → P u = true) : turnout w id ≤ weighing w P := by
  unfold turnout weighing
  apply sum_le
  intro u x
  cases hc : choice w id u with
  | none => simp [hc]
  | some o => simp [hc, h u (by rw [hc]; simp)]

/-! ## C116 -/

/-- The votes on a general proposal are always what the members who cast them weigh now, as long as voting is open and
the proposal is not executed. -/
theorem C116_votes_are_weights {c : Cfg} (hw : c.Wf) (ht : c.Tame) {w : World} (h : Reachable c w) {id : Nat}
    {i : Info} (hi : w.ctl.infos.get id = some i) (hg : i.type = .general) {p : Gov.Poll}
    (hp : Gov.queryPoll w.gov id = .ok p) (hn : outcome w id = none) (ho : w.block.time < p.endsAt) (o : Gov.Outcome) :
    p.votesFor o = held w id o := by
  have hp' := Controller.queryPoll_ok_iff.1 hp
  have hno : i.executedAt = none := by
    unfold outcome at hn
    rw [hi, hp'] at hn
    simpa using hn
  rw [C54_tallies_exact hw ht h hi hg hp]
  exact votedSum_held hw ht h hi hg hp (((h.base hw ht).ctl.ended id i p hi hp').1 hno) ho o

/-- User 10 chose "yes" with 60 coins and user 11 "no" with 40; both then change their stakes. -/
def sampleShift : List Step :=
  [stake 10 60, stake 11 40, stake 12 100, at_ 2, propose 12 [], at_ 3, vote 10 1 .yes, vote 11 1 .no, at_ 50, unstake 10 35,
    stake 11 30, at_ 101]

example : (held (sampleRun sampleShift) 1 .yes, held (sampleRun sampleShift) 1 .no, turnout (sampleRun sampleShift) 1,
    (Gov.queryPoll (sampleRun sampleShift).gov 1).toOption.map (fun p => (p.votesFor .yes, p.votesFor .no)),
    outcome (sampleRun sampleShift) 1) = (25, 70, 95, some (25, 70), none) := by decide +kernel

/-- A proposal that is executed before the end of voting gets the result of the published rule, applied to what the
members who chose each option weigh at that moment, and to the total weight at that moment. -/
theorem C116_early {c : Cfg} (hw : c.Wf) (ht : c.Tame) {w w1 : World} (h : Reachable c w) {e : Ext}
    {a : Addr} {id : Nat} {subs : List Item} (hx : handle c e w a (.ctl (.execute id)) = .ok (w1, subs)) {i : Info}
    (hi : w.ctl.infos.get id = some i) (hg : i.type = .general) {p : Gov.Poll} (hp : Gov.queryPoll w.gov id = .ok p)
    (ho : w.block.time < p.endsAt) :
    outcome w1 id = some (Gov.ruleStatus (held w id .yes) (held w id .no) (held w id .abstain) (held w id .veto)
      p.quorum p.threshold p.vetoThreshold (w.mem.total .never)) := by
  obtain ⟨q, hq, h1, _⟩ := C47_dispatched_by_rule hw ht h hx hi (by rw [hg]; intro hh; cases hh)
  rw [hp] at hq; cases hq
  obtain ⟨r, hr⟩ := handle_ctl hx
  have he := hr.exec
  simp only [Controller.exec] at he
  obtain ⟨_, i', p', hi', hp', hne, _⟩ := Controller.executeProposal_ok_iff.1 he
  rw [hi] at hi'; cases hi'
  rw [Controller.queryPoll_ok_iff.1 hp] at hp'; cases hp'
  have hl : p.live := ((h.base hw ht).ctl.ended id i p hi (Controller.queryPoll_ok_iff.1 hp)).1 hne
  rw [votedSum_held hw ht h hi hg hp hl ho, votedSum_held hw ht h hi hg hp hl ho,
    votedSum_held hw ht h hi hg hp hl ho, votedSum_held hw ht h hi hg hp hl ho, if_neg (by omega)] at h1
  rw [h1]
  simp [hg]

/-- The sample proposal can be executed early, at second 20 of 102. -/
example : (handle sampleCfg sampleExt (sampleRun (sampleVoted ++ [at_ 20])) 13 (.ctl (.execute 1))).toOption.bind
      (fun r => outcome r.1 1) = some (.passed 0 60) ∧ held (sampleRun (sampleVoted ++ [at_ 20])) 1 .yes = 60 ∧
    (Gov.queryPoll (sampleRun (sampleVoted ++ [at_ 20])).gov 1).toOption.map (·.endsAt) = some (102 * 10 ^ 9) := by
  refine ⟨?_, ?_, ?_⟩ <;> decide +kernel

/-- A proposal that is executed at or after the end of voting gets the result of the published rule, applied to what the
members who chose each option weighed at the last block before the end, and to the total weight recorded for the second
in which voting ends. That is the total weight at the last block before the end too, if this block is not in the same
second. -/
theorem C116_at_end {c : Cfg} (hw : c.Wf) (ht : c.Tame) {w w' : World} (h : Reachable c w) {id : Nat}
    {i : Info} (hi : w.ctl.infos.get id = some i) (hg : i.type = .general) {p : Gov.Poll}
    (hp : Gov.queryPoll w.gov id = .ok p) (hn : outcome w id = none) (ho : w.block.time < p.endsAt) {b : Block}
    (hb : p.endsAt ≤ b.time) (hh : w.block.height ≤ b.height) (hl : Later c { w with block := b } w') {st : Gov.Status}
    (hs : outcome w' id = some st) :
    ∃ total, st = Gov.ruleStatus (held w id .yes) (held w id .no) (held w id .abstain) (held w id .veto)
        p.quorum p.threshold p.vetoThreshold total ∧ total = w'.mem.total (.time p.endsAt) ∧
      (w.block.time / 10 ^ 9 < p.endsAt / 10 ^ 9 → total = w.mem.total .never) := by
  have hp' := Controller.queryPoll_ok_iff.1 hp
  have hno : i.executedAt = none := by
    unfold outcome at hn
    rw [hi, hp'] at hn
    simpa using hn
  have hlive := ((h.base hw ht).ctl.ended id i p hi hp').1 hno
  have hr1 : Reachable c { w with block := b } := .block h hh (by omega)
  obtain ⟨y, hy⟩ := query_total (hr1.base hw ht) sampleExt (id := id) hp'
  obtain ⟨j, q, hj, hq, _, hyx⟩ := query_cases (hr1.base hw ht) hy
  have hj : w.ctl.infos.get id = some j := hj
  have hq : w.gov.polls.get id = some q := hq
  rw [hi] at hj; cases hj
  rw [hp'] at hq; cases hq
  have hexp : y.expires = p.endsAt := by rw [hyx]
  have hty : y.type = .general := by rw [hyx]; exact hg
  have hys : y.status ≠ .executed := fun hh => (query_status hw ht hr1 hy hi).1 hh hno
  have htot := (C108_total hw ht hr1 hy hys).2 (by rw [hexp]; exact hb)
  rw [hexp, hty] at htot
  have hrule := (C109_outcome hw ht hr1 hl hy (by rw [hexp]; exact hb) hys hs).2 (Or.inl hty) p hp
  refine ⟨y.totalVotes, ?_, ?_, fun hq => ?_⟩
  · rw [← votedSum_held hw ht h hi hg hp hlive ho, ← votedSum_held hw ht h hi hg hp hlive ho,
      ← votedSum_held hw ht h hi hg hp hlive ho, ← votedSum_held hw ht h hi hg hp hlive ho]
    exact hrule
  · rw [htot]
    exact ((hl.settles hw ht hr1).total .general _ (Nat.div_le_div_right hb)).symm
  · rw [htot]
    exact C109_total_at hw ht h hq (Nat.div_le_div_right hb) hh .refl .general

/-- The weights changed the result of the sample vote: 25 against 70, from 60 against 40. What is staked after the end does
not count. -/
example : outcome (sampleRun (sampleShift ++ [at_ 102, stake 10 500, at_ 110, execute 13 1])) 1 =
      some (.rejected .isRejectingOutcome) ∧
    (sampleRun sampleShift).block.time / 10 ^ 9 < (102 * 10 ^ 9) / 10 ^ 9 := by
  refine ⟨?_, ?_⟩ <;> decide +kernel

theorem passed_needs {y n a v q t : Nat} {vt : Option Nat} {total o m : Nat} (hq : Controller.Fraction q)
    (ht : Controller.Fraction t) (h : Gov.ruleStatus y n a v q t vt total = .passed o m) :
    0 < total ∧ q * total ≤ (y + n + a + v) * 10 ^ 18 ∧ 0 < y ∧ t * (y + n + v) ≤ y * 10 ^ 18 := by
  unfold Gov.ruleStatus at h
  simp only at h
  split at h
  · cases h
  · rename_i h1
    split at h
    · cases h
    · split at h
      · rename_i h3
        have h1 : Gov.quorumMet (y + n + a + v) total q := not_not.1 h1
        obtain ⟨hq, _⟩ := hq
        obtain ⟨ht, _⟩ := ht
        rcases h1 with h1 | ⟨h1, h2, _⟩
        · omega
        · rcases h3.1 with h4 | ⟨h4, h5⟩
          · omega
          · refine ⟨h1, h2, ?_, h5⟩
            rcases Nat.eq_zero_or_pos y with hy | hy
            · subst hy
              have := Nat.mul_pos ht h4
              omega
            · exact hy
      · split at h
        · cases h
        · split at h <;> cases h

/-- Nothing passes against the quorum and the threshold: a general proposal that passes before the end of voting is
supported, among the members who chose "yes", "no" or "veto", by members whose share of the weight is at least the
threshold, and any group of accounts that includes all that voted has at least the quorum's share of the total weight. -/
theorem C116_passed_early {c : Cfg} (hw : c.Wf) (ht : c.Tame) {w w1 : World} (h : Reachable c w) {e : Ext}
    {a : Addr} {id : Nat} {subs : List Item} (hx : handle c e w a (.ctl (.execute id)) = .ok (w1, subs)) {i : Info}
    (hi : w.ctl.infos.get id = some i) (hg : i.type = .general) {p : Gov.Poll} (hp : Gov.queryPoll w.gov id = .ok p)
    (ho : w.block.time < p.endsAt) {o n : Nat} (hs : outcome w1 id = some (.passed o n)) :
    0 < held w id .yes ∧
    p.threshold * (held w id .yes + held w id .no + held w id .veto) ≤ held w id .yes * 10 ^ 18 ∧
    ∀ P : Addr → Bool, (∀ u, choice w id u ≠ none → P u = true) →
      p.quorum * w.mem.total .never ≤ weighing w P * 10 ^ 18 := by
  have h1 := C116_early hw ht h hx hi hg hp ho
  rw [hs] at h1
  obtain ⟨f1, f2, _⟩ := C51_poll_terms_valid hw ht h hp
  obtain ⟨_, k1, k2, k3⟩ := passed_needs f1 f2 (Option.some.inj h1).symm
  refine ⟨k2, k3, fun P hP => ?_⟩
  have := turnout_le w id hP
  rw [turnout_eq] at this
  exact le_trans k1 (Nat.mul_le_mul_right _ this)

/-- The same for a general proposal that passes at or after the end of voting, with the weights of the last block before
the end, if that is not in the second in which voting ends (see `C110_quorum_witness` for what can happen otherwise). -/
theorem C116_passed_at_end {c : Cfg} (hw : c.Wf) (ht : c.Tame) {w w' : World} (h : Reachable c w) {id : Nat}
    {i : Info} (hi : w.ctl.infos.get id = some i) (hg : i.type = .general) {p : Gov.Poll}
    (hp : Gov.queryPoll w.gov id = .ok p) (hn : outcome w id = none)
    (ho : w.block.time / 10 ^ 9 < p.endsAt / 10 ^ 9) {b : Block} (hb : p.endsAt ≤ b.time)
    (hh : w.block.height ≤ b.height) (hl : Later c { w with block := b } w') {o n : Nat}
    (hs : outcome w' id = some (.passed o n)) :
    0 < held w id .yes ∧
    p.threshold * (held w id .yes + held w id .no + held w id .veto) ≤ held w id .yes * 10 ^ 18 ∧
    ∀ P : Addr → Bool, (∀ u, choice w id u ≠ none → P u = true) →
      p.quorum * w.mem.total .never ≤ weighing w P * 10 ^ 18 := by
  have hopen : w.block.time < p.endsAt := by
    by_contra hge
    push Not at hge
    have := Nat.div_le_div_right (c := 10 ^ 9) hge
    omega
  obtain ⟨total, h1, _, h2⟩ := C116_at_end hw ht h hi hg hp hn hopen hb hh hl hs
  rw [h2 ho] at h1
  obtain ⟨f1, f2, _⟩ := C51_poll_terms_valid hw ht h hp
  obtain ⟨_, k1, k2, k3⟩ := passed_needs f1 f2 h1.symm
  refine ⟨k2, k3, fun P hP => ?_⟩
  have := turnout_le w id hP
  rw [turnout_eq] at this
  exact le_trans k1 (Nat.mul_le_mul_right _ this)

/-- A proposal that passes at the end with 60 of 200 coins; and one on which less than a tenth of the coins vote, which
does not pass. -/
example : outcome (sampleRun ([stake 10 60, stake 12 140, at_ 2, propose 12 [], at_ 3, vote 10 1 .yes, at_ 101] ++
      [at_ 102, execute 13 1])) 1 = some (.passed 0 60) ∧
    outcome (sampleRun ([stake 10 60, stake 12 600, at_ 2, propose 12 [], at_ 3, vote 10 1 .yes, at_ 101] ++
      [at_ 102, execute 13 1])) 1 = some (.rejected .quorumNotReached) ∧
    weighing (sampleRun [stake 10 60, stake 12 600]) (fun u => decide (u = 10)) = 60 := by
  refine ⟨?_, ?_, ?_⟩ <;> decide +kernel

end Verif.Dao
