import Verif.Nft.Model

/-!
# Migration of NFT staking contracts from before version 1.2.0 (packages/nft-staking-impl/src/migrate.rs)

Until version 1.2.0 the configuration was stored under another key and in another format. Here the configuration is a
part of the storage that may be missing.
-/

namespace Verif.Nft
open Verif
open Verif.Staking (Duration)

/-- `OldConfig`, migrate.rs 8-12. -/
structure OldConfig where
  nft : Addr
  unlocking : Duration
  deriving DecidableEq

/-- `Config`, config.rs 8-12. -/
structure Config where
  nft : NftAddr
  unlocking : Duration
  deriving DecidableEq

/-- Storage: the items `config` (`OLD_CONFIG`, migrate.rs 14) and `config_v1_2_0` (`CONFIG`, config.rs 20), and the rest. -/
structure Stored where
  old : Option OldConfig
  config : Option Config
  mem : Members
  stakes : Map Nat Addr
  claims : Map Nat Claim
  nextClaim : Nat

/-- The storage of a contract with a configuration, in the form of `State`. -/
def Stored.withConfig (s : Stored) (c : Config) : State :=
  { mem := s.mem, stakes := s.stakes, claims := s.claims, nextClaim := s.nextClaim, nft := c.nft, unlocking := c.unlocking }

/-- The storage after a message. -/
def Stored.after (s : Stored) (t : State) : Stored :=
  { s with
    config := some ⟨t.nft, t.unlocking⟩
    mem := t.mem
    stakes := t.stakes
    claims := t.claims
    nextClaim := t.nextClaim }

/-- `migrate` of the contract, contracts/nft-staking-membership/src/contract.rs 84-88: only the version is recorded, which
is not modelled. -/
def Stored.migrate (s : Stored) : Stored := s

/-- `migrate` of the package, migrate.rs 16-30. It is called nowhere. -/
def Stored.convert (s : Stored) : Except Err Stored :=
  match s.old with
  | none => .error .notFound
  | some o => .ok { s with config := some ⟨.cw721 o.nft, o.unlocking⟩ }

/-- `execute`, contracts/nft-staking-membership/src/contract.rs 37-55. Without a configuration the messages that load it
fail (execute.rs 27, 179, 196, 209); those about hooks do not load it. -/
def Stored.exec (s : Stored) (e : NEnv) (m : Msg) : Except Err (Stored × List Out) :=
  match s.config with
  | some c => do
    let r ← Nft.exec (s.withConfig c) e m
    return (s.after r.1, r.2)
  | none =>
    match m with
    | .addHook h => do
      let x ← s.mem.addHook e.env h
      return ({ s with mem := x }, [])
    | .removeHook h => do
      let x ← s.mem.removeHook e.env h
      return ({ s with mem := x }, [])
    | _ => .error .notFound

/-- A message takes effect when it and its sub-messages succeed; otherwise everything is reverted. -/
def Stored.step (s : Stored) (c : Call) : Stored × List Out :=
  match s.exec c.env c.msg with
  | .ok r => if c.delivered then r else (s, [])
  | .error _ => (s, [])

/-- State after a history, and all that was sent. -/
def Stored.run (s : Stored) : List Call → Stored × List Out
  | [] => (s, [])
  | c :: t =>
    let r := Stored.run (s.step c).1 t
    (r.1, (s.step c).2 ++ r.2)

end Verif.Nft
