import Verif.Dao.Sim

/-!
# A sample DAO, for the examples next to the property theorems

A denom DAO: users 10 and 11 stake coins, proposals need a deposit of 30, users 40, 41 and 42 are the council.
-/

namespace Verif.Dao
open Verif

/-- Addresses of the sample; the only custom messages are 1 (to another contract), 2 (the controller sets the
minimum weight of the distributor) and 3 (the controller unstakes). -/
def sampleCfg : Cfg :=
  { self := 1, creator := 2, enterprise := 3, comps := ⟨4, 5, 6, 7, 8, 9⟩,
    decode := fun n => if n = 1 then some none else if n = 2 then some (some (.dist (.updateMin 5)))
      else if n = 3 then some (some (.mem (.staking (.unstake 7)))) else none }

theorem sampleCfg_wf : sampleCfg.Wf := ⟨by decide, by decide, by decide⟩

theorem sampleCfg_tame : sampleCfg.Tame := by
  intro n m h
  unfold sampleCfg at h
  simp only at h
  split at h
  · cases h
  · split at h
    · cases h; rfl
    · split at h
      · cases h; rfl
      · cases h

/-- The other contracts of the sample; user 66 is restricted. -/
def sampleExt : Ext :=
  { restricted := fun u => decide (u = 66), version := (1, 0, 0), owner := fun _ => none, proxy := none,
    treasury := ⟨Map.empty, Map.empty, Map.empty⟩, global := [] }

/-- Quorum 10 %, threshold 50 %, votes of 100 seconds, deposits of 30 coins, early execution. -/
def sampleConfig : Controller.GovConfig := ⟨ONE / 10, ONE / 2, none, 100, some 30, true⟩

/-- The council members of the sample. -/
def sampleCouncil : Members := (Multisig.init ⟨1, 10 ^ 9⟩ (some [(40, 1), (41, 1), (42, 1)]) [1] [] []).toOption.getD Members.empty

/-- The new controller of the sample. -/
def sampleCtl : Controller.State :=
  { creating := none, executing := none, voting := none, enterprise := 3, config := sampleConfig,
    council := some ⟨[.upgradeDao, .updateMetadata], ONE / 2, ONE / 2⟩, created := 10 ^ 9, treasuries := some [],
    infos := Map.empty }

/-- The new distributor of the sample. -/
def sampleDist : Distributor.State := (Distributor.init 1 none []).toOption.getD
  ⟨0, 0, Map.empty, Map.empty, 0, Distributor.Ledger.empty, Distributor.Ledger.empty⟩

/-- The new DAO. -/
def sampleGenesis : World :=
  { ctl := sampleCtl, gov := Gov.init 1, dist := sampleDist,
    mem := .staking .denom (Staking.init ⟨1, 10 ^ 9⟩ 20 (.time 1000) [1] [] []),
    council := sampleCouncil, block := ⟨1, 10 ^ 9⟩, log := [] }

theorem sample_genesis : Genesis sampleCfg sampleGenesis :=
  ⟨⟨sampleConfig, some ⟨[40, 41, 42], ONE / 2, ONE / 2, some [.upgradeDao, .updateMetadata]⟩, [], by decide +kernel⟩, rfl,
    ⟨none, [], by decide +kernel⟩, ⟨20, .time 1000, rfl⟩, ⟨[(40, 1), (41, 1), (42, 1)], by decide +kernel⟩, rfl⟩

/-- A change of the quorum to 20 %. -/
def sampleChange : Controller.GovChange := ⟨some (ONE / 5), none, none, none, none, none, none⟩

/-- Stake coins. -/
def stake (u : Addr) (n : Nat) : Step := .tx sampleExt u (.mem (.staking (.stakeDenom [⟨20, n⟩] none)))

/-- Unstake coins. -/
def unstake (u : Addr) (n : Nat) : Step := .tx sampleExt u (.mem (.staking (.unstake n)))

/-- Create a general proposal with a deposit of 30 coins. -/
def propose (u : Addr) (l : List Controller.Action) : Step :=
  .tx sampleExt u (.ctl (.createProposal ⟨0, 0, l, none⟩ [(20, 30)]))

/-- Create a council proposal. -/
def proposeCouncil (u : Addr) (l : List Controller.Action) : Step :=
  .tx sampleExt u (.ctl (.createCouncil ⟨0, 0, l, none⟩))

/-- Vote. -/
def vote (u : Addr) (id : Nat) (o : Gov.Outcome) : Step := .tx sampleExt u (.ctl (.castVote id o))

/-- Vote on a council proposal. -/
def voteCouncil (u : Addr) (id : Nat) (o : Gov.Outcome) : Step := .tx sampleExt u (.ctl (.castCouncilVote id o))

/-- Execute a proposal. -/
def execute (u : Addr) (id : Nat) : Step := .tx sampleExt u (.ctl (.execute id))

/-- A block at a time in seconds. -/
def at_ (t : Nat) : Step := .block ⟨t, t * 10 ^ 9⟩

/-- The world after a run of the sample. -/
def sampleRun (l : List Step) : World := (runAll sampleCfg sampleGenesis l).getD sampleGenesis

theorem sampleRun_reachable (l : List Step) : Reachable sampleCfg (sampleRun l) := by
  unfold sampleRun
  cases h : runAll sampleCfg sampleGenesis l with
  | none => exact .init sample_genesis
  | some w => exact runAll_reachable l (.init sample_genesis) h

/-- Votes on a proposal that changes the quorum and sends custom messages. -/
def sampleVoted : List Step :=
  [stake 10 60, stake 11 40, at_ 2, propose 12 [.updateGovConfig sampleChange, .executeMsgs [1, 2]], at_ 3,
   vote 10 1 .yes, at_ 5, vote 11 1 .no]

/-- That proposal is executed early. -/
def sampleDone : List Step := sampleVoted ++ [at_ 20, execute 13 1]

/-- A proposal that is rejected for lack of quorum, and executed after the end of voting. -/
def sampleLost : List Step :=
  [stake 10 95, stake 11 5, at_ 2, propose 12 [.updateGovConfig sampleChange], at_ 3, vote 11 1 .yes, at_ 200,
   execute 13 1]

end Verif.Dao
