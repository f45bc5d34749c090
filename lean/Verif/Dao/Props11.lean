import Verif.Dao.Props7

/-!
# The contracts of a DAO together: which proposals can be resolved after voting (C120)
-/

set_option linter.unusedSimpArgs false

namespace Verif.Dao
open Verif

/-! ### Specification -/

/-- The total weight of those who vote on a kind of proposals, at a time, as their contract reports it. -/
def electorate (w : World) (k : Controller.PType) (t : Nat) : Nat :=
  match k with
  | .general => w.mem.total (.time t)
  | .council => Multisig.queryTotal w.council (.time t)

/-! ## C120 -/

/-- When voting on a proposal is over, anyone who is not restricted can have it resolved, if anybody could vote when voting
ended: `ExecuteProposal` is accepted, and it can be brought to an end in which the proposal is resolved and its deposit
paid. -/
theorem C120_resolvable {c : Cfg} (hw : c.Wf) (ht : c.Tame) {w : World} (h : Reachable c w) {id : Nat}
    {i : Controller.Info} {p : Gov.Poll} (hi : w.ctl.infos.get id = some i) (hp : Gov.queryPoll w.gov id = .ok p)
    (ho : outcome w id = none) (he : p.endsAt ≤ w.block.time) (hn : electorate w i.type p.endsAt ≠ 0) {a : Addr}
    (ha : c.outsider a) (e : Ext) (hr : e.restricted a = false) (room : w.gov.pollCount + 1 < 2 ^ 64) :
    (∃ r, handle c e w a (.ctl (.execute id)) = .ok r) ∧
    ∃ w' st, Exec c w [.call a (.ctl (.execute id))] w' ∧ outcome w' id = some st ∧
      paidOut w' id = owed c.comps.treasury i st := by
  have hb := h.base hw ht
  have hp := Controller.queryPoll_ok_iff.1 hp
  have hno : i.executedAt = none := by
    unfold outcome at ho
    rw [hi, hp] at ho
    cases hx : i.executedAt <;> simp_all
  have hacc : ∃ r, handle c e w a (.ctl (.execute id)) = .ok r := by
    have hc := (Controller.executeProposal_ok_iff (e := c.env e w) (u := a) (s := w.ctl) (g := w.gov) (id := id)
      (r := (_, _, _))).2 ⟨hr, i, p, hi, hp, hno, ?_, ?_, hb.ctl.gov.admin.symm, Or.inl he, rfl⟩
    · exact ⟨_, bind_ok_iff.2 ⟨_, hc, rfl⟩⟩
    · unfold Controller.Info.pastEarliest
      cases hx : i.earliest with
      | none => rfl
      | some t =>
        have h1 : t ≤ (c.env e w).block.time := le_trans (hb.ctl.early id i p t hi hp hx) he
        simpa using h1
    · unfold Controller.endTotal
      rw [if_pos (show p.endsAt ≤ (c.env e w).block.time from he), totalVotes_eq]
      cases hk : i.type <;> rw [hk] at hn <;> exact hn
  refine ⟨hacc, ?_⟩
  obtain ⟨r, hr⟩ := hacc
  obtain ⟨w', hx, _⟩ := C58_never_blocked hw ht h hr room
  obtain ⟨i', st, hi', h1, h2⟩ := C58_always_resolved hw ht h ha hx
  rw [hi] at hi'; cases hi'
  exact ⟨w', st, hx, h1, h2⟩

/-- If nobody could vote when voting ended, the proposal is never resolved, and nothing of its deposit is ever paid to
anyone. -/
theorem C120_never {c : Cfg} (hw : c.Wf) (ht : c.Tame) {w w' : World} (h : Reachable c w) {id : Nat}
    {i : Controller.Info} {p : Gov.Poll} (hi : w.ctl.infos.get id = some i) (hp : Gov.queryPoll w.gov id = .ok p)
    (ho : outcome w id = none) (he : p.endsAt ≤ w.block.time) (hn : electorate w i.type p.endsAt = 0)
    (hl : Later c w w') : outcome w' id = none ∧ paidOut w' id = [] := by
  have hp := Controller.queryPoll_ok_iff.1 hp
  have hno : i.executedAt = none := by
    unfold outcome at ho
    rw [hi, hp] at ho
    cases hx : i.executedAt <;> simp_all
  have hbt : bodyTotal w i.type (.time p.endsAt) = 0 := by
    cases hk : i.type <;> rw [hk] at hn <;> exact hn
  obtain ⟨i', p', hi', hp', _, _, _, a6⟩ := (hl.settles hw ht h).closed id i p hi hp he
  have hout : outcome w' id = none := by
    unfold outcome
    rw [hi', hp']
    rcases a6 with ⟨a6, _⟩ | ⟨_, ⟨b, _, _, a7⟩, _⟩
    · simp [a6, hno]
    · exact absurd hbt a7
  exact ⟨hout, C45_not_before_resolution hw ht (hl.reachable h) hout⟩

/-- So a proposal that is still open after voting can be resolved exactly if somebody could vote when voting ended. -/
theorem C120_iff {c : Cfg} (hw : c.Wf) (ht : c.Tame) {w : World} (h : Reachable c w) {id : Nat} {i : Controller.Info}
    {p : Gov.Poll} (hi : w.ctl.infos.get id = some i) (hp : Gov.queryPoll w.gov id = .ok p) (ho : outcome w id = none)
    (he : p.endsAt ≤ w.block.time) (room : w.gov.pollCount + 1 < 2 ^ 64) :
    (∃ w', Later c w w' ∧ outcome w' id ≠ none) ↔ electorate w i.type p.endsAt ≠ 0 := by
  constructor
  · rintro ⟨w', hl, h1⟩ hn
    exact h1 (C120_never hw ht h hi hp ho he hn hl).1
  · intro hn
    obtain ⟨a, hout⟩ : ∃ a, c.outsider a := by
      have key : ∀ x y z : Nat, ∃ a : Nat, a ≠ x ∧ a ≠ y ∧ a ≠ z := fun x y z => ⟨x + y + z + 1, by omega, by omega, by omega⟩
      exact key _ _ _
    obtain ⟨_, w', st, hx, h1, _⟩ := C120_resolvable hw ht h hi hp ho he hn hout
      { sampleExt with restricted := fun _ => false } rfl room
    exact ⟨w', .tx .refl hout hx, by rw [h1]; simp⟩

/-! ### Examples -/

/-- User 10 unstakes everything before the end of voting. The deposit of 30 coins of user 12 is stuck. -/
example : let w := sampleRun [stake 10 50, propose 12 [.updateGovConfig sampleChange], vote 10 1 .yes, unstake 10 50, at_ 200]
    Reachable sampleCfg w ∧ outcome w 1 = none ∧ (Gov.queryPoll w.gov 1).toOption.map (fun p => decide (p.endsAt ≤ w.block.time) &&
      decide (electorate w .general p.endsAt = 0)) = some true ∧
    (w.ctl.infos.get 1).map (fun i => i.deposit.isSome) = some true := by
  refine ⟨sampleRun_reachable _, ?_, ?_, ?_⟩ <;> decide +kernel

/-- User 11 stays, and so anyone can have the proposal resolved; user 12 gets the deposit back. -/
example : let w := sampleRun [stake 10 50, stake 11 1, propose 12 [.updateGovConfig sampleChange], vote 10 1 .yes, vote 11 1 .no,
      unstake 10 50, at_ 200]
    outcome w 1 = none ∧ (Gov.queryPoll w.gov 1).toOption.map (fun p => decide (p.endsAt ≤ w.block.time) &&
      decide (electorate w .general p.endsAt ≠ 0)) = some true := by
  refine ⟨?_, ?_⟩ <;> decide +kernel

end Verif.Dao
