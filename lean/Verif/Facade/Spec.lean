import Verif.Facade.V1

/-!
# Facades: what is claimed
-/

namespace Verif.Facade
open Verif
open Verif.Dao (Member)

/-- The contracts of one DAO, as found on the chain. -/
structure Parts where
  main : Enterprise.State
  at_ : Enterprise.Components
  ctl : Ctl
  member : Member
  /-- answer of the ICS721 proxy to the membership contract -/
  proxy : Option Addr
  council : Members
  treasury : Treasury.State
  migration : Migration.State
  outposts : Outposts.State

/-- The DAO with the enterprise contract at `e` consists of these contracts, which know each other, as the factory wires
them. -/
structure IsDao (c : Chain) (e : Addr) (p : Parts) : Prop where
  main : c e = some (.enterprise p.main)
  comps : p.main.comps = some p.at_
  ctl : c p.at_.controller = some (.controller p.ctl)
  member : c p.at_.membership = some (.membership e p.member p.proxy)
  council : c p.at_.council = some (.membership e (.multisig p.council) none)
  treasury : c p.at_.treasury = some (.treasury p.treasury p.migration)
  outposts : c p.at_.outposts = some (.outposts p.outposts)
  /-- the controller belongs to the enterprise contract -/
  owner : p.ctl.s.enterprise = e
  /-- the treasury belongs to the controller -/
  admin : p.treasury.admin = p.at_.controller
  /-- the controller got the same addresses and answers -/
  self : p.ctl.env.self = p.at_.controller
  envMembership : p.ctl.env.comps.membership = p.at_.membership
  envCouncil : p.ctl.env.comps.council = p.at_.council
  envTreasury : p.ctl.env.comps.treasury = p.at_.treasury
  envType : p.ctl.env.daoType = p.member.daoType
  envToken : p.ctl.env.token = p.member.token
  envDenom : p.ctl.env.denom = p.member.denom
  envNft : p.ctl.env.nft = p.member.nftAddr p.proxy
  /-- the membership contract is of the kind that the type of the DAO tells -/
  kind : daoType p.main.daoType = p.member.daoType

/-- The contracts are in the state that a history of the DAO led to. -/
structure Parts.Seen (p : Parts) (c : Dao.Cfg) (e : Dao.Ext) (w : Dao.World) : Prop where
  member : p.member = w.mem
  council : p.council = w.council
  ctl : p.ctl = ⟨c.env e w, w.ctl, w.gov⟩

/-- The address leads to a facade and a DAO: a legacy DAO leads to itself; a treasury leads to the enterprise contract
that its admin names, which is a controller or a multisig membership contract; an enterprise contract leads to itself once
its components are known. -/
inductive Leads (s : Config) (c : Chain) (a : Addr) : Target → Prop
  | legacy {d : Legacy} (h : c a = some (.legacy d)) : Leads s c a ⟨s.v1, a⟩
  | treasury {t : Treasury.State} {m : Migration.State} {k : Ctl} (h : c a = some (.treasury t m))
      (hk : c t.admin = some (.controller k)) : Leads s c a ⟨s.v2, k.s.enterprise⟩
  | multisig {t : Treasury.State} {m : Migration.State} {e : Addr} {x : Members} {p : Option Addr}
      (h : c a = some (.treasury t m)) (hk : c t.admin = some (.membership e (.multisig x) p)) : Leads s c a ⟨s.v2, e⟩
  | enterprise {x : Enterprise.State} {k : Enterprise.Components} (h : c a = some (.enterprise x))
      (hk : x.comps = some k) : Leads s c a ⟨s.v2, a⟩

/-- Actions that a legacy DAO knows: those meant for its own treasury, without treasuries on other chains. -/
def Local : Controller.Action → Prop
  | .updateAssetWhitelist r _ _ => r = none
  | .updateNftWhitelist r _ _ => r = none
  | .requestFunding r _ _ => r = none
  | .executeTreasuryMsgs r _ => r = none
  | .deployTreasury _ => False
  | _ => True

/-- A message of the controller that the outposts contract passes on to another chain. -/
def viaOutposts : Controller.Sub → Bool
  | .treasury (some _) _ => true
  | .deploy _ => true
  | _ => false

end Verif.Facade
