import Verif.Dao.Lemmas6
import Verif.Dao.Sample

/-!
# The contracts of a DAO together: C44, C45 and C47 whatever the custom messages of proposals are

Unlike the theorems of `Verif/Dao/Props.lean`, these assume neither `Tame` nor `Wf`.
-/

set_option linter.unusedSimpArgs false

namespace Verif.Dao
open Verif

theorem executed_iff {w : World} {id : Nat} {i : Controller.Info} (hi : w.ctl.infos.get id = some i) :
    executed w id = i.executedAt.isSome := by
  unfold executed isExec; rw [hi]

/-- The actions of a proposal are dispatched at most once, and not before it is recorded as executed. -/
theorem C44_dispatched_once {c : Cfg} {w : World} (h : Reachable c w) (id : Nat) :
    sentCount w id ≤ 1 ∧
      (sentCount w id = 1 → ∃ i t, w.ctl.infos.get id = some i ∧ i.executedAt = some t) := by
  obtain ⟨_, h1 | ⟨hx, i, st, hi, _, _, h5⟩⟩ := h.once id
  · obtain ⟨_, _, h3⟩ := h1
    rw [h3]
    exact ⟨by omega, fun hh => by omega⟩
  · refine ⟨by rw [h5]; split <;> omega, fun _ => ?_⟩
    rw [executed_iff hi] at hx
    cases he : i.executedAt with
    | none => rw [he] at hx; cases hx
    | some t => exact ⟨i, t, hi, he⟩

/-- Nothing is dispatched for an executed proposal any more. -/
theorem C44_never_dispatched_again {c : Cfg} {w w' : World} (h : Reachable c w) {id : Nat} {i : Controller.Info} {t : Block}
    (hi : w.ctl.infos.get id = some i) (ht : i.executedAt = some t) (hl : Later c w w') :
    sentCount w' id = sentCount w id := by
  have hx : executed w id = true := by rw [executed_iff hi, ht]; rfl
  suffices H : Reachable c w' ∧ executed w' id = true ∧ sentCount w' id = sentCount w id from H.2.2
  induction hl with
  | refl => exact ⟨h, hx, rfl⟩
  | @tx w1 w2 a m _ ha he ih =>
    obtain ⟨r1, r2, r3⟩ := ih
    obtain ⟨b1, _, b3⟩ := (he.track id (r1.once id).1).done r2
    exact ⟨.tx r1 ha he, b1, b3.trans r3⟩
  | @block w1 b _ hh ht ih => exact ⟨.block ih.1 hh ht, ih.2⟩

/-- Nothing of a deposit is transferred before the proposal is executed. -/
theorem C45_kept_until_executed {c : Cfg} {w : World} (h : Reachable c w) {id : Nat} {i : Controller.Info}
    (hi : w.ctl.infos.get id = some i) (hn : i.executedAt = none) : paidOut w id = [] := by
  obtain ⟨_, ⟨_, h2, _⟩ | ⟨hx, _⟩⟩ := h.once id
  · exact h2
  · rw [executed_iff hi, hn] at hx; cases hx

/-- Once it is executed, the whole deposit was transferred once, to the treasury or to the depositor; to the depositor
if the actions were dispatched. -/
theorem C45_transferred_once {c : Cfg} {w : World} (h : Reachable c w) {id : Nat} {i : Controller.Info} {t : Block}
    {d : Controller.Deposit} (hi : w.ctl.infos.get id = some i) (hx : i.executedAt = some t) (hd : i.deposit = some d) :
    (paidOut w id = entire d.depositor d.asset) ∨
      (paidOut w id = entire c.comps.treasury d.asset ∧ sentCount w id = 0) := by
  obtain ⟨_, ⟨h1, _⟩ | ⟨_, i', st, hi', hni, h4, h5⟩⟩ := h.once id
  · rw [executed_iff hi, hx] at h1; cases h1
  · rw [hi] at hi'; cases hi'
    unfold owed at h4
    rw [hd] at h4
    simp only at h4
    cases hf : forfeits st with
    | false => left; rw [h4, hf]; rfl
    | true =>
      right
      rw [hf] at h4
      refine ⟨h4, ?_⟩
      rw [h5]
      cases st with
      | inProgress _ => cases hf
      | passed _ _ => cases hf
      | rejected _ => rfl

/-- That remains so in all that follows. -/
theorem C45_never_again {c : Cfg} {w w' : World} (h : Reachable c w) {id : Nat} {i : Controller.Info} {t : Block}
    (hi : w.ctl.infos.get id = some i) (ht : i.executedAt = some t) (hl : Later c w w') :
    paidOut w' id = paidOut w id := by
  have hx : executed w id = true := by rw [executed_iff hi, ht]; rfl
  suffices H : Reachable c w' ∧ executed w' id = true ∧ paidOut w' id = paidOut w id from H.2.2
  induction hl with
  | refl => exact ⟨h, hx, rfl⟩
  | @tx w1 w2 a m _ ha he ih =>
    obtain ⟨r1, r2, r3⟩ := ih
    obtain ⟨b1, b2, _⟩ := (he.track id (r1.once id).1).done r2
    exact ⟨.tx r1 ha he, b1, by rw [b2, r3]; exact List.append_nil _⟩
  | @block w1 b _ hh ht ih => exact ⟨.block ih.1 hh ht, ih.2⟩

/-! ### What does need the assumption on custom messages -/

/-- The sample DAO with one more custom message: the controller tells itself to run the actions of proposal 1. -/
def forgeCfg : Cfg :=
  { sampleCfg with decode := fun n => if n = 9 then some (some (.ctl (.executeActions 1))) else sampleCfg.decode n }

/-- The world after a run. -/
def forgeRun (l : List Step) : World := (runAll forgeCfg sampleGenesis l).getD sampleGenesis

theorem forge_genesis : Genesis forgeCfg sampleGenesis :=
  ⟨sample_genesis.ctl, sample_genesis.gov, sample_genesis.dist, sample_genesis.mem, sample_genesis.council,
    sample_genesis.log⟩

theorem forgeRun_reachable (l : List Step) : Reachable forgeCfg (forgeRun l) := by
  unfold forgeRun
  cases h : runAll forgeCfg sampleGenesis l with
  | none => exact .init forge_genesis
  | some w => exact runAll_reachable l (.init forge_genesis) h

/-- Proposal 1 is rejected. Proposal 2 passes, with the custom message. -/
def forgeLost : List Step :=
  [stake 10 60, stake 11 40, at_ 2, propose 12 [.updateGovConfig sampleChange], at_ 3, vote 10 1 .no, at_ 200,
   execute 13 1, propose 12 [.executeMsgs [9]], vote 10 2 .yes, at_ 400, execute 13 2]

/-- The restriction of C44 to actions run through the dispatch is needed: a passed proposal can carry a message by which
the controller runs the actions of a rejected one. (`ExecuteProposalActions` looks at the sender only.) -/
theorem C44_forged_witness :
    outcome (forgeRun forgeLost) 1 = some (.rejected .isRejectingOutcome) ∧ sentCount (forgeRun forgeLost) 1 = 0 ∧
    ranCount (forgeRun forgeLost) 1 = 1 ∧ (forgeRun forgeLost).ctl.config.quorum = ONE / 5 := by decide +kernel

/-- The same DAO meets the hypotheses of the theorems above. -/
example : ∃ i, (forgeRun forgeLost).ctl.infos.get 2 = some i ∧ i.executedAt = some ⟨400, 400 * 10 ^ 9⟩ ∧
    i.deposit = some ⟨12, .denom 20 30⟩ ∧ sentCount (forgeRun forgeLost) 2 = 1 ∧
    paidOut (forgeRun forgeLost) 2 = [.asset (.native 20) 30 12] ∧
    paidOut (forgeRun forgeLost) 1 = [.asset (.native 20) 30 12] :=
  ⟨⟨.general, some ⟨400, 400 * 10 ^ 9⟩, some (210 * 10 ^ 9), some ⟨12, .denom 20 30⟩, [.executeMsgs [9]]⟩, by decide +kernel⟩

end Verif.Dao
