import Verif.Dao.Period
import Verif.Dao.Sample

/-!
# The contracts of a DAO together: the vote duration and the unlocking period, property C60
-/

namespace Verif.Dao
open Verif
open Verif.Controller (Action)

/-! ## C60 -/

/-- Whatever happens in a DAO whose vote duration is at most its unlocking period, both stay like that: the vote duration
is what it was, and at most the unlocking period, if that is in seconds. Proposals may set the unlocking period, if they
leave the vote duration alone. (Custom messages of proposals set the unlocking period neither directly, nor by messages
that the contracts of the DAO expect from one another.)
Missing from C60: proposals that change the vote duration, see `C60_reached_witness`. -/
theorem C60_history_partial {c : Cfg} (hw : c.Wf) (ht : c.Tame) (hn : c.NoPeriod) {w w' : World} (h : Reachable c w)
    (hl : Later c w w') (hk : KeepsAll w') (h0 : Covers w) :
    w'.ctl.config.voteDuration = w.ctl.config.voteDuration ∧ Covers w' :=
  hl.kept hw ht hn h hk h0

/-- A change of rules: vote duration and unlocking period. -/
def periods (v : Option Nat) (u : Option Staking.Duration) : Controller.GovChange := ⟨none, none, none, v, u, none, none⟩

/-- A proposal to change the rules, which is passed and executed. -/
def samplePeriods (ch : Controller.GovChange) : List Step :=
  [stake 10 60, at_ 2, propose 12 [.updateGovConfig ch], at_ 3, vote 10 1 .yes, at_ 20, execute 13 1]

theorem sampleCfg_noPeriod : sampleCfg.NoPeriod := by
  intro n m h
  unfold sampleCfg at h
  simp only at h
  split at h
  · cases h
  · split at h
    · cases h
    · split at h
      · cases h; rfl
      · cases h

theorem keepsAll_of {w : World} (h : w.ctl.infos.entries.all (fun x => x.2.actions.all (fun a =>
    match a with | .updateGovConfig ch => ch.voteDuration.isNone | _ => true)) = true) : KeepsAll w := by
  intro id i hi ch hch
  have := List.all_eq_true.1 (List.all_eq_true.1 h _ (Map.get_eq_some_iff.1 hi)) _ hch
  simpa using this

/-- A proposal sets the unlocking period from 1000 to 150 seconds; votes take 100 seconds before and after. -/
example : Later sampleCfg sampleGenesis (sampleRun (samplePeriods (periods none (some (.time 150))))) ∧
    KeepsAll (sampleRun (samplePeriods (periods none (some (.time 150))))) ∧ Covers sampleGenesis ∧
    (sampleRun (samplePeriods (periods none (some (.time 150))))).mem.unlocking = some (.time 150) := by
  have hr : runAll sampleCfg sampleGenesis (samplePeriods (periods none (some (.time 150)))) =
      some (sampleRun (samplePeriods (periods none (some (.time 150))))) := by
    unfold sampleRun
    generalize hx : runAll sampleCfg sampleGenesis (samplePeriods (periods none (some (.time 150)))) = x
    cases x with
    | some w => rfl
    | none =>
      have : (runAll sampleCfg sampleGenesis (samplePeriods (periods none (some (.time 150))))).isSome = true := by
        decide +kernel
      rw [hx] at this
      cases this
  refine ⟨runAll_later _ .refl hr, keepsAll_of (by decide +kernel), ?_, by decide +kernel⟩
  intro p hp
  cases hp
  exact show (100 : Nat) ≤ 1000 by decide

/-- A DAO gets to a vote duration of 5000 seconds with an unlocking period of 1000 seconds, by a proposal that changes only
the vote duration. -/
theorem C60_reached_witness : ∃ (c : Cfg) (w : World), c.Wf ∧ c.Tame ∧ c.NoPeriod ∧ Reachable c w ∧ ¬ Covers w := by
  refine ⟨sampleCfg, sampleRun (samplePeriods (periods (some 5000) none)), sampleCfg_wf, sampleCfg_tame,
    sampleCfg_noPeriod, sampleRun_reachable _, fun h => ?_⟩
  have h1 : (sampleRun (samplePeriods (periods (some 5000) none))).mem.unlocking = some (.time 1000) := by decide +kernel
  have h2 : (sampleRun (samplePeriods (periods (some 5000) none))).ctl.config.voteDuration = 5000 := by decide +kernel
  have h3 := h _ h1
  rw [h2] at h3
  exact absurd (show (5000 : Nat) ≤ 1000 from h3) (by decide)

end Verif.Dao
