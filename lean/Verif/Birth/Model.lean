import Verif.Factory.Model
import Verif.Dao.Model
import Verif.Outposts.Model
import Verif.Facade.Model

/-!
# The contracts of the chain while the factory creates a DAO

`Factory` tells which messages a creation sends, and with which addresses the instantiations are answered. Here the
messages are carried out: every instantiation runs the `instantiate` function of the contract meant and puts the result at
an address that was free; the enterprise contract is finalized; the controller sends off its initial cross-chain treasuries.

The code ids of a version are taken to be those of the contracts they are named after.
-/

namespace Verif.Birth
open Verif
open Verif.Factory (Inst Sub Trace NftContract)
open Verif.Dao (Member)

/-- States of the contracts. Contracts from outside of this repository (tokens, collections), the factory itself, and
attestations are `other`. A membership contract knows its enterprise contract. -/
inductive Contract
  | enterprise (s : Enterprise.State)
  | controller (s : Controller.State)
  | governance (s : Gov.State)
  | outposts (s : Outposts.State)
  | treasury (s : Treasury.State)
  | distributor (s : Distributor.State)
  | membership (enterprise : Addr) (m : Member)
  | other

/-- What is at an address. -/
abbrev Chain := Addr → Option Contract

/-- The chain with a contract put at an address. -/
def Chain.put (c : Chain) (a : Addr) (k : Contract) : Chain := fun x => if x = a then some k else c x

/-- The meaning of the numbers that stand for metadata and assets in the model of the factory. -/
structure Reading where
  metadata : Nat → Enterprise.Metadata
  asset : Nat → AssetInfo

/-- The controller has its own copy of the type of DAOs. -/
def kind : Enterprise.DaoType → Controller.DaoType
  | .denom => .denom
  | .token => .token
  | .nft => .nft
  | .multisig => .multisig

/-- The membership contract for NFTs keeps the contract, or the proxy, which answers for the class. -/
def nftAddr : NftContract → Nft.NftAddr
  | .cw721 c => .cw721 c
  | .ics721 p _ => .ics721 p

/-- The `instantiate` function of each contract, with the message given by the factory: enterprise/src/contract.rs 55-85,
enterprise-governance-controller/src/contract.rs 115-153, enterprise-governance/src/contract.rs 25-43,
enterprise-outposts/src/contract.rs 48-62, enterprise-treasury/src/contract.rs 63-87, funds-distributor/src/contract.rs
25-47, multisig-membership-impl/src/instantiate.rs 12-32, denom-staking-impl/src/instantiate.rs 10-27,
token-staking-impl/src/instantiate.rs 10-35, nft-staking-impl/src/instantiate.rs 11-44. -/
inductive Starts (r : Reading) (b : Block) : Inst → Contract → Prop
  | enterprise (md : Nat) (f v : Addr) (t : Enterprise.DaoType) (ver : Versioning.Version) :
      Starts r b (.enterprise md f v t ver) (.enterprise (Enterprise.init none b.time f v (r.metadata md) ver t))
  | controller {ent : Addr} {t : Enterprise.DaoType} {g : Controller.GovConfig} {co : Option Controller.CouncilSpec}
      {tr : Option (List Nat)} {s : Controller.State}
      (h : Controller.init b ent (kind t) g co [] (tr.getD []) = .ok s) :
      Starts r b (.controller ent t g co tr) (.controller s)
  | governance (a : Addr) : Starts r b (.governance a) (.governance (Gov.init a))
  | outposts (ent : Addr) : Starts r b (.outposts ent) (.outposts (Outposts.init ent))
  | treasury {a : Addr} {assets nfts : List Nat} {s : Treasury.State}
      (h : Treasury.init a (assets.map r.asset) nfts = .ok s) : Starts r b (.treasury a assets nfts) (.treasury s)
  | multisig {ent : Addr} {l : List (Addr × Nat)} {hooks : List Addr} {s : Members}
      (h : Multisig.init b (some l) hooks [] [] = .ok s) :
      Starts r b (.multisig ent l hooks) (.membership ent (.multisig s))
  | denom (ent : Addr) (d : Nat) (u : Staking.Duration) (hooks : List Addr) :
      Starts r b (.denom ent d u hooks) (.membership ent (.staking .denom (Staking.init b d u hooks [] [])))
  | token (ent t : Addr) (u : Staking.Duration) (hooks : List Addr) :
      Starts r b (.token ent t u hooks) (.membership ent (.staking .token (Staking.init b t u hooks [] [])))
  | nft (ent : Addr) (c : NftContract) (u : Staking.Duration) (hooks : List Addr) :
      Starts r b (.nft ent c u hooks) (.membership ent (.nft (Nft.init b (nftAddr c) u hooks [] [])))
  | distributor {a ent : Addr} {w : List (Addr × Nat)} {n : Option Nat} {s : Distributor.State}
      (h : Distributor.init a n w = .ok s) : Starts r b (.distributor a ent w n) (.distributor s)
  | cw20 (l : List (Addr × Nat)) (m : Addr × Option Nat) (k : Addr) (x : Nat) : Starts r b (.cw20 l m k x) .other
  | cw721 (m : Addr) (x : Nat) : Starts r b (.cw721 m x) .other
  | attestation (n : Nat) : Starts r b (.attestation n) .other

/-- The messages of a transaction of the factory at `f`, carried out in block `b`. -/
inductive Plays (r : Reading) (b : Block) (f : Addr) : Chain → Trace → Chain → Prop
  | nil (c : Chain) : Plays r b f c [] c
  /-- instantiation, at an address that was free -/
  | inst {c c' : Chain} {id code : Nat} {admin : Option Addr} {m : Inst} {a : Addr} {k : Contract} {t : Trace}
      (free : c a = none) (h : Starts r b m k) (ht : Plays r b f (c.put a k) t c') :
      Plays r b f c ((.inst id admin code m, some a) :: t) c'
  /-- the admin for migrations changes: no state changes -/
  | updateAdmin {c c' : Chain} {a n : Addr} {t : Trace} (ht : Plays r b f c t c') :
      Plays r b f c ((.updateAdmin a n, none) :: t) c'
  /-- the factory calls itself; what it sends follows -/
  | finalizeSelf {c c' : Chain} {t : Trace} (ht : Plays r b f c t c') : Plays r b f c ((.finalizeSelf, none) :: t) c'
  /-- the enterprise contract, whose creator is the factory, gets to know the parts -/
  | finalize {c c' : Chain} {ent : Addr} {k : Enterprise.Components} {s s' : Enterprise.State} {t : Trace}
      (e : Enterprise.Env) (he : e.creator = f) (hs : c ent = some (.enterprise s))
      (h : Enterprise.finalize e s f k = .ok s') (ht : Plays r b f (c.put ent (.enterprise s')) t c') :
      Plays r b f c ((.finalize ent k, none) :: t) c'
  /-- coins are sent: no state changes -/
  | fund {c c' : Chain} {a : Addr} {n : Nat} {t : Trace} (ht : Plays r b f c t c') :
      Plays r b f c ((.fund a n, none) :: t) c'
  /-- the controller, whose creator is the factory, sends its initial cross-chain treasuries to the outposts contract that
  its enterprise contract names, which does something with them -/
  | deployInitial {c c' : Chain} {ctl : Addr} {s s' : Controller.State} {x : Enterprise.State}
      {k : Enterprise.Components} {o o' : Outposts.State} {subs : List Controller.Sub} {t : Trace}
      (e : Controller.Env) (he : e.creator = f ∧ e.block = b) (hs : c ctl = some (.controller s))
      (h : Controller.deployInitial e f s = .ok (s', subs)) (hx : c s.enterprise = some (.enterprise x))
      (hk : x.comps = some k) (ho : c k.outposts = some (.outposts o)) (ho' : o'.enterprise = o.enterprise)
      (ht : Plays r b f ((c.put ctl (.controller s')).put k.outposts (.outposts o')) t c') :
      Plays r b f c ((.deployInitial ctl, none) :: t) c'

/-! ## What is claimed -/

/-- The addresses of a DAO, in the form of the model of its contracts; `decode` is the meaning of custom messages. -/
def cfgOf (f ent : Addr) (k : Enterprise.Components) (decode : Nat → Option (Option Dao.Msg)) : Dao.Cfg :=
  { self := k.controller, creator := f, enterprise := ent,
    comps := ⟨k.treasury, k.distributor, k.membership, k.council, k.governance, k.outposts⟩, decode }

/-- The voting contracts of the DAO with these parts are on the chain, in these states. -/
structure Holds (c : Chain) (ent : Addr) (k : Enterprise.Components) (w : Dao.World) : Prop where
  ctl : c k.controller = some (.controller w.ctl)
  gov : c k.governance = some (.governance w.gov)
  dist : c k.distributor = some (.distributor w.dist)
  mem : c k.membership = some (.membership ent w.mem)
  council : c k.council = some (.membership ent (.multisig w.council))

/-- What facades see of a contract. The controller asks the contracts of its DAO, which are in the state `w`, and others,
which answer as `x` says; a membership contract of NFTs asks its proxy; `g` is the state of the migration of a treasury. -/
def view (d : Dao.Cfg) (x : Dao.Ext) (w : Dao.World) (g : Migration.State) : Contract → Option Facade.Contract
  | .enterprise s => some (.enterprise s)
  | .controller s => some (.controller ⟨d.env x w, s, w.gov⟩)
  | .outposts s => some (.outposts s)
  | .treasury s => some (.treasury s g)
  | .membership e m =>
    match m with
    | .nft s => some (.membership e (.nft s) x.proxy)
    | m => some (.membership e m none)
  | _ => none

/-- The chain as facades see it. -/
def seen (d : Dao.Cfg) (x : Dao.Ext) (w : Dao.World) (g : Migration.State) (c : Chain) : Facade.Chain :=
  fun a => (c a).bind (view d x w g)

end Verif.Birth
