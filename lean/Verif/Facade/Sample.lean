import Verif.Facade.Spec
import Verif.Dao.Sample

/-!
# Facades: a sample chain

The contracts of the sample DAO of `Verif.Dao.Sample`, in the state of any world, at the addresses they have there; the
enterprise contract is at address 3.
-/

namespace Verif.Facade
open Verif
open Verif.Dao (Member)

/-- The type that the enterprise contract of the sample has. -/
def sampleType : Member → Enterprise.DaoType
  | .staking .token _ => .token
  | .staking .denom _ => .denom
  | .nft _ => .nft
  | .multisig _ => .multisig

/-- The contracts of the sample. -/
def sampleParts (m : Member) (council : Members) (k : Ctl) : Parts :=
  { main := { created := 10 ^ 9, factory := 70, versioning := 71, metadata := ⟨1, none, 0, none, none, none, none⟩,
              version := Versioning.ver 1 0 2, daoType := sampleType m, finalized := true,
              comps := some ⟨8, 1, 4, 9, 5, 6, 7, none⟩ },
    at_ := ⟨8, 1, 4, 9, 5, 6, 7, none⟩,
    ctl := k, member := m, proxy := none, council := council,
    treasury := ⟨1, ⟨Map.empty, Map.empty, Map.empty⟩, Map.empty⟩,
    migration := { dao := .multisig, stakes := Map.empty, nftStakes := Map.empty, claims := Map.empty,
                   members := Map.empty, migrated := Map.empty, stage := .completed, membership := none },
    outposts := ⟨3, Map.empty, Map.empty, Map.empty, 0⟩ }

/-- The chain of the sample: nothing is at any other address. -/
def sampleChain (p : Parts) : Chain := fun a =>
  if a = 3 then some (.enterprise p.main)
  else if a = 1 then some (.controller p.ctl)
  else if a = 6 then some (.membership 3 p.member p.proxy)
  else if a = 7 then some (.membership 3 (.multisig p.council) none)
  else if a = 4 then some (.treasury p.treasury p.migration)
  else if a = 9 then some (.outposts p.outposts)
  else none

/-- The sample DAO after a run. -/
def sampleSeen (w : Dao.World) : Parts :=
  sampleParts w.mem w.council ⟨Dao.sampleCfg.env Dao.sampleExt w, w.ctl, w.gov⟩

theorem sample_isDao (w : Dao.World) (h : w.ctl.enterprise = 3) : IsDao (sampleChain (sampleSeen w)) 3 (sampleSeen w) where
  main := rfl
  comps := rfl
  ctl := rfl
  member := rfl
  council := rfl
  treasury := rfl
  outposts := rfl
  owner := h
  admin := rfl
  self := rfl
  envMembership := rfl
  envCouncil := rfl
  envTreasury := rfl
  envType := rfl
  envToken := rfl
  envDenom := rfl
  envNft := rfl
  kind := by
    show daoType (sampleType w.mem) = w.mem.daoType
    cases w.mem with
    | staking k s => cases k <;> rfl
    | nft s => rfl
    | multisig s => rfl

theorem sample_seen (w : Dao.World) : (sampleSeen w).Seen Dao.sampleCfg Dao.sampleExt w := ⟨rfl, rfl, rfl⟩

end Verif.Facade
