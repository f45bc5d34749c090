import Verif.Birth.Lemmas
import Verif.Custody.Spending
import Verif.Custody.Deposits
import Verif.Facade.Spec
import Verif.Treasury.Lemmas
import Verif.Dao.Sample

/-!
# The contracts of a created DAO: property C107
-/

set_option linter.unusedSimpArgs false

namespace Verif.Birth
open Verif
open Verif.Factory (Inst Sub Trace NftContract CreateDao Membered Made creation)
open Verif.Dao (Member)

/-! ### Helper lemmas -/

theorem created {e : Factory.Env} {s s' : Factory.State} {sender : Addr} {msg : Factory.Msg} {t : Trace}
    (h : Factory.Tx e s sender msg s' t) {m : CreateDao} {version : Option Versioning.Version}
    (hm : msg.creates = some (m, version)) {r : Reading} {b : Block} {c c' : Chain} (hp : Plays r b e.self c t c') :
    ∃ v d w c1 x y z q u x' o, Factory.finalizations t = [(d.enterprise, d.comps)] ∧
      Placed r b e.self s m v d w c c1 x y z q u ∧ Ended r b e.self s m v d w c c' x y z q u x' o ∧
        Begins e (fun a => c a = none) m.membership y ∧ ∃ l seg,
          Membered e s m v d.enterprise d.comps.controller d.comps.treasury l d.comps.membership seg w := by
  obtain ⟨v, d, seg, w, _, hmem, _, rfl, _⟩ := h.create hm
  obtain ⟨c1, x, y, z, q, u, h1, hbeg, h2⟩ := creation_plays hmem hp
  obtain ⟨x', o, h3⟩ := final_plays h1 h2
  exact ⟨v, d, w, c1, x, y, z, q, u, x', o, (Factory.creation_reads hmem).2.1, h1, h3, hbeg, _, _, hmem⟩

/-- Contracts that answer nothing in particular. -/
def noExt : Dao.Ext :=
  { restricted := fun _ => false, version := (0, 0, 0), owner := fun _ => none, proxy := none,
    treasury := ⟨Map.empty, Map.empty, Map.empty⟩, global := [] }

theorem exec_others (c : Dao.Cfg) (w : Dao.World) (n : List Dao.Item) (h : ∀ i ∈ n, i = .other) : Dao.Exec c w n w := by
  induction n with
  | nil => exact .nil w
  | cons i t ih =>
    rw [h i List.mem_cons_self]
    exact .other (calls := []) (fun i hi => (by cases hi)) (.nil w) (ih (fun j hj => h j (List.mem_cons_of_mem _ hj)))

theorem multisig_hooks {b : Block} {l : List (Addr × Nat)} {hooks : List Addr} {z : Members}
    (h : Multisig.init b (some l) hooks [] [] = .ok z) : z.hooks = hooks.foldl (fun a h => a.set h ()) Map.empty := by
  obtain ⟨_, hs⟩ := (Multisig.init_ok h).1 l rfl
  rw [hs]
  show hooks.foldl (fun a h => a.set h ()) (Multisig.setAll _ l).hooks = _
  rw [(Multisig.setAll_frame _ l).2.2]
  rfl

theorem distributor_admin {a : Addr} {n : Option Nat} {l : List (Addr × Nat)} {u : Distributor.State}
    (h : Distributor.init a n l = .ok u) : u.admin = a := by
  have key : ∀ (l : List (Addr × Nat)) (s s' : Distributor.State), l.foldlM Distributor.initOne s = .ok s' →
      s'.admin = s.admin := by
    intro l
    induction l with
    | nil => intro s s' h; rw [foldlM_nil_ok_iff] at h; rw [h]
    | cons p t ih =>
      intro s s' h
      rw [foldlM_cons_ok_iff] at h
      obtain ⟨s1, h1, h2⟩ := h
      rw [ih s1 s' h2]
      unfold Distributor.initOne at h1
      rw [ite_ok_iff] at h1
      simp only [bind_ok_iff, pure_ok_iff] at h1
      obtain ⟨_, tot, _, rfl⟩ := h1
      rfl
  exact key _ _ _ h

/-! ## C107 -/

/-- A DAO created by the factory is, on the chain, in a state that its model reaches from a new DAO: all theorems about
reachable states of a DAO apply to the DAOs that the factory creates, from their first moment on. (The factory is on the
chain; instantiations get free addresses.) -/
theorem C107_genesis {e : Factory.Env} {s s' : Factory.State} {sender : Addr} {msg : Factory.Msg} {t : Trace}
    (h : Factory.Tx e s sender msg s' t) {m : CreateDao} {version : Option Versioning.Version}
    (hm : msg.creates = some (m, version)) {r : Reading} {b : Block} {c c' : Chain} (hp : Plays r b e.self c t c')
    (hf : c e.self ≠ none) (decode : Nat → Option (Option Dao.Msg)) :
    ∃ ent k w w0, Factory.finalizations t = [(ent, k)] ∧ Holds c' ent k w ∧ w.block = b ∧
      (cfgOf e.self ent k decode).Wf ∧ Dao.Genesis (cfgOf e.self ent k decode) w0 ∧
      Dao.Reachable (cfgOf e.self ent k decode) w ∧
      w = { w0 with ctl := { w0.ctl with treasuries := w.ctl.treasuries } } := by
  obtain ⟨v, d, wl, c1, x, y, z, q, u, x', o, hfin, pl, en, _⟩ := created h hm hp
  obtain ⟨n1, n2, n3, n4, n5, n6, n7, n8⟩ := pl.new
  have hgen : Dao.Genesis (cfgOf e.self d.enterprise d.comps decode)
      ⟨x, Gov.init d.comps.controller, u, y, z, b, []⟩ :=
    ⟨⟨m.gov, m.council, m.treasuries.getD [], by rw [pl.memType]; exact pl.ctlInit⟩, rfl, ⟨_, _, pl.distInit⟩,
      fresh_of pl.memFresh _ rfl, ⟨_, pl.councilInit⟩, rfl⟩
  have hwf : (cfgOf e.self d.enterprise d.comps decode).Wf :=
    ⟨ne_of pl.mem pl.ctl (by simp), ne_of pl.council pl.ctl (by simp), pl.both⟩
  have hout : (cfgOf e.self d.enterprise d.comps decode).outsider e.self :=
    ⟨fun h => hf (h ▸ n2), fun h => hf (h ▸ n7), fun h => hf (h ▸ n4)⟩
  refine ⟨d.enterprise, d.comps, ⟨x', Gov.init d.comps.controller, u, y, z, b, []⟩,
    ⟨x, Gov.init d.comps.controller, u, y, z, b, []⟩, hfin, ⟨en.ctl, en.gov, en.dist, en.mem, en.council⟩, rfl, hwf, hgen,
    ?_, ?_⟩
  · rcases en.ctl' with hx | hx
    · rw [hx]; exact .init hgen
    · rw [hx]
      refine .tx (a := e.self) (m := .ctl .deployInitial) (.init hgen) hout ?_
      obtain ⟨_, _, hxi⟩ := Controller.init_ok pl.ctlInit
      have hc : x.created = b.time := by rw [hxi]
      refine .call (w1 := ⟨{ x with treasuries := none }, Gov.init d.comps.controller, u, y, z, b, []⟩)
        (subs := (x.treasuries.getD []).map (fun _ => Dao.Item.other)) noExt (show 0 + 1 < 2 ^ 64 by decide) ?_ (exec_others _ _ _ ?_) (.nil _)
      · have h1 := Controller.deployInitial_ok_iff (e := (cfgOf e.self d.enterprise d.comps decode).env noExt
          ⟨x, Gov.init d.comps.controller, u, y, z, b, []⟩) (u := e.self) (s := x).2 ⟨hc, rfl, rfl⟩
        simp only [Dao.handle, Controller.exec, h1, bind, Except.bind, pure, Except.pure, List.map_map]
        refine congrArg Except.ok (Prod.ext ?_ ?_)
        · simp only [Dao.ranOf, List.append_nil, List.nil_append]
          refine congrArg _ ?_
          rw [List.filterMap_map]
          exact List.filterMap_eq_nil_iff.2 (fun _ _ => rfl)
        · rfl
      · intro i hi
        obtain ⟨_, _, rfl⟩ := List.mem_map.1 hi
        rfl
  · rcases en.ctl' with hx | hx
    · rw [hx]
    · rw [hx]

/-- The contracts know each other: the enterprise contract knows all parts and is finalized; the controller, the membership
contracts and the outposts contract belong to it; governance, the distributor and the treasury obey the controller; both
membership contracts report to the controller, and to nobody else. -/
theorem C107_parts {e : Factory.Env} {s s' : Factory.State} {sender : Addr} {msg : Factory.Msg} {t : Trace}
    (h : Factory.Tx e s sender msg s' t) {m : CreateDao} {version : Option Versioning.Version}
    (hm : msg.creates = some (m, version)) {r : Reading} {b : Block} {c c' : Chain} (hp : Plays r b e.self c t c') :
    ∃ ent k w x q o, Factory.finalizations t = [(ent, k)] ∧ Holds c' ent k w ∧
      (c' ent = some (.enterprise x) ∧ x.comps = some k ∧ x.finalized = true ∧ x.factory = e.self) ∧
      (c' k.treasury = some (.treasury q) ∧ q.admin = k.controller) ∧
      (c' k.outposts = some (.outposts o) ∧ o.enterprise = ent) ∧
      w.ctl.enterprise = ent ∧ w.gov.admin = k.controller ∧ w.dist.admin = k.controller ∧
      w.mem.mem.hooks.keys = [k.controller] ∧ w.council.hooks.keys = [k.controller] := by
  obtain ⟨v, d, wl, c1, x, y, z, q, u, x', o, hfin, pl, en, _⟩ := created h hm hp
  refine ⟨d.enterprise, d.comps, ⟨x', Gov.init d.comps.controller, u, y, z, b, []⟩, _, q, o, hfin,
    ⟨en.ctl, en.gov, en.dist, en.mem, en.council⟩, ⟨en.ent, rfl, rfl, rfl⟩, ⟨en.tre, ?_⟩, ⟨en.out, en.out'⟩, ?_, rfl, ?_, ?_,
    ?_⟩
  · have ht := pl.treInit
    unfold Treasury.init at ht
    simp only [bind_ok_iff, pure_ok_iff] at ht
    obtain ⟨_, _, ht⟩ := ht
    rw [← ht]
  · obtain ⟨_, _, hxi⟩ := Controller.init_ok pl.ctlInit
    rcases en.ctl' with hx | hx <;> rw [hx, hxi]
  · exact distributor_admin pl.distInit
  · have hy := pl.memFresh
    cases y with
    | staking k s => obtain ⟨a, u, rfl⟩ := hy; rfl
    | nft s => obtain ⟨a, u, rfl⟩ := hy; rfl
    | multisig s => obtain ⟨l, hl⟩ := hy; show s.hooks.keys = _; rw [multisig_hooks hl]; rfl
  · show z.hooks.keys = _; rw [multisig_hooks pl.councilInit]; rfl

/-- The DAO is the one that was asked for: type, metadata, voting rules (which are valid), council (one vote for each of the
members named, and for nobody else), treasury whitelists. -/
theorem C107_asked {e : Factory.Env} {s s' : Factory.State} {sender : Addr} {msg : Factory.Msg} {t : Trace}
    (h : Factory.Tx e s sender msg s' t) {m : CreateDao} {version : Option Versioning.Version}
    (hm : msg.creates = some (m, version)) {r : Reading} {b : Block} {c c' : Chain} (hp : Plays r b e.self c t c') :
    ∃ ent k w x q, Factory.finalizations t = [(ent, k)] ∧ Holds c' ent k w ∧ c' ent = some (.enterprise x) ∧
      c' k.treasury = some (.treasury q) ∧
      x.daoType = Factory.kindOf m.membership ∧ w.mem.daoType = kind (Factory.kindOf m.membership) ∧
      x.metadata = r.metadata m.metadata ∧ x.created = b.time ∧
      w.ctl.config = m.gov ∧ Controller.ValidConfig w.mem.daoType m.gov ∧
      w.ctl.council = m.council.map (·.config) ∧
      (∀ a, Multisig.queryWeight w.council a = if a ∈ (m.council.map (·.members)).getD [] then 1 else 0) ∧
      (∀ a, q.assets.Has a ↔ a ∈ (m.assets.getD []).map r.asset) ∧
      ∀ a, q.nfts.has a = true ↔ a ∈ m.nfts.getD [] := by
  obtain ⟨v, d, wl, c1, x, y, z, q, u, x', o, hfin, pl, en, _⟩ := created h hm hp
  obtain ⟨hv, _, hxi⟩ := Controller.init_ok pl.ctlInit
  rw [Factory.kindOf_eq]
  refine ⟨d.enterprise, d.comps, ⟨x', Gov.init d.comps.controller, u, y, z, b, []⟩, _, q, hfin,
    ⟨en.ctl, en.gov, en.dist, en.mem, en.council⟩, en.ent, en.tre, rfl, pl.memType, rfl, rfl, ?_, ?_, ?_, ?_, ?_, ?_⟩
  · rcases en.ctl' with hx | hx <;> rw [hx, hxi]
  · rw [show (Dao.World.mk x' (Gov.init d.comps.controller) u y z b []).mem = y from rfl, pl.memType]; exact hv
  · rcases en.ctl' with hx | hx <;> rw [hx, hxi]
  · intro a
    obtain ⟨hd, hs⟩ := (Multisig.init_ok pl.councilInit).1 _ rfl
    show Members.weight z a = _
    rw [hs]
    show (((Multisig.setAll (Members.empty.saveCheckpoints [] []) (Factory.councilWeights m)).weights.get a)).getD 0 = _
    split
    · rename_i ha
      rw [Multisig.setAll_get_in _ _ hd a 1 (List.mem_map.2 ⟨a, ha, rfl⟩)]
      rfl
    · rename_i ha
      rw [Multisig.setAll_get_notin _ _ a (fun p hp hn => ha ?_)]
      · rfl
      · obtain ⟨x, hx, rfl⟩ := List.mem_map.1 hp
        rw [← hn]; exact hx
  · intro a
    have ht := pl.treInit
    unfold Treasury.init at ht
    simp only [bind_ok_iff, pure_ok_iff] at ht
    obtain ⟨w1, h1, ht⟩ := ht
    rw [← ht]
    show w1.Has a ↔ _
    rw [(Treasury.addAssets_ok _ h1).2 a]
    constructor
    · rintro (h | h)
      · exact h
      · cases a <;> exact absurd h (by simp [Treasury.Whitelist.Has, Map.has])
    · exact .inl
  · intro a
    have ht := pl.treInit
    unfold Treasury.init at ht
    simp only [bind_ok_iff, pure_ok_iff] at ht
    obtain ⟨w1, h1, ht⟩ := ht
    rw [← ht]
    show (List.foldl _ _ _ : Map Addr Unit).has a = true ↔ _
    rw [Treasury.sets_has]
    simp [Map.has]

/-- The membership contract is the one that was asked for: its asset, its unlocking period, its members. -/
theorem C107_members {e : Factory.Env} {s s' : Factory.State} {sender : Addr} {msg : Factory.Msg} {t : Trace}
    (h : Factory.Tx e s sender msg s' t) {m : CreateDao} {version : Option Versioning.Version}
    (hm : msg.creates = some (m, version)) {r : Reading} {b : Block} {c c' : Chain} (hp : Plays r b e.self c t c') :
    ∃ ent k w, Factory.finalizations t = [(ent, k)] ∧ Holds c' ent k w ∧
      Begins e (fun a => c a = none) m.membership w.mem := by
  obtain ⟨v, d, wl, c1, x, y, z, q, u, x', o, hfin, pl, en, hbeg, _⟩ := created h hm hp
  exact ⟨d.enterprise, d.comps, ⟨x', Gov.init d.comps.controller, u, y, z, b, []⟩, hfin,
    ⟨en.ctl, en.gov, en.dist, en.mem, en.council⟩, hbeg⟩

/-- Nothing else changes: every contract that was on the chain before, of any other DAO or not, is what it was. -/
theorem C107_others {e : Factory.Env} {s s' : Factory.State} {sender : Addr} {msg : Factory.Msg} {t : Trace}
    (h : Factory.Tx e s sender msg s' t) {m : CreateDao} {version : Option Versioning.Version}
    (hm : msg.creates = some (m, version)) {r : Reading} {b : Block} {c c' : Chain} (hp : Plays r b e.self c t c')
    {a : Addr} (ha : c a ≠ none) : c' a = c a := by
  obtain ⟨v, d, wl, c1, x, y, z, q, u, x', o, hfin, pl, en, _⟩ := created h hm hp
  exact en.old a ha

/-- The treasury of a created DAO and its deposits start as `C106` and `C105` take them to start: the parties are different
contracts, the controller has no proposals, and it administers the treasury. -/
theorem C107_custody {e : Factory.Env} {s s' : Factory.State} {sender : Addr} {msg : Factory.Msg} {t : Trace}
    (h : Factory.Tx e s sender msg s' t) {m : CreateDao} {version : Option Versioning.Version}
    (hm : msg.creates = some (m, version)) {r : Reading} {b : Block} {c c' : Chain} (hp : Plays r b e.self c t c') :
    ∃ ent k w q, Factory.finalizations t = [(ent, k)] ∧ Holds c' ent k w ∧ c' k.treasury = some (.treasury q) ∧
      (Custody.Spending.Parties.mk k.controller
        ⟨k.treasury, k.distributor, k.membership, k.council, k.governance, k.outposts⟩ w.mem.daoType).Wf ∧
      (∀ led now, Custody.Spending.Start (.mk k.controller
        ⟨k.treasury, k.distributor, k.membership, k.council, k.governance, k.outposts⟩ w.mem.daoType)
        { st := w.ctl, gov := w.gov, tre := q, dis := w.dist, led := led, now := now }) ∧
      ∀ led nfts ops, (∀ a, (led a : Ledger).supply < 2 ^ 128) →
        (∀ c t x, (nfts c : Map Nat Custody.Deposits.Token).get t = some x → x.owner ≠ k.controller) →
        (∀ c o, ops c k.controller o = false) →
        Custody.Deposits.Start k.controller { st := w.ctl, gov := w.gov, led := led, nfts := nfts, ops := ops, due := [] } := by
  obtain ⟨v, d, wl, c1, x, y, z, q, u, x', o, hfin, pl, en, _⟩ := created h hm hp
  have hx : x' = { x with treasuries := x'.treasuries } := by rcases en.ctl' with hx | hx <;> rw [hx]
  have hini : Controller.init b d.enterprise y.daoType m.gov m.council [] (m.treasuries.getD []) = .ok x := by
    rw [pl.memType]; exact pl.ctlInit
  refine ⟨d.enterprise, d.comps, ⟨x', Gov.init d.comps.controller, u, y, z, b, []⟩, q, hfin,
    ⟨en.ctl, en.gov, en.dist, en.mem, en.council⟩, en.tre, ⟨ne_of en.tre en.ctl (by simp), ne_of en.dist en.tre (by simp)⟩,
    fun led now => ⟨⟨_, _, _, _, _, x, _, hini, hx⟩, rfl, _, _, pl.treInit⟩,
    fun led nfts ops h1 h2 h3 => ⟨⟨_, _, _, _, _, _, x, _, pl.ctlInit, hx⟩, h1, h2, h3, rfl⟩⟩

/-- Facades find the DAO: what they see of the chain is a DAO with all its parts, in the state of its contracts. -/
theorem C107_facade {e : Factory.Env} {s s' : Factory.State} {sender : Addr} {msg : Factory.Msg} {t : Trace}
    (h : Factory.Tx e s sender msg s' t) {m : CreateDao} {version : Option Versioning.Version}
    (hm : msg.creates = some (m, version)) {r : Reading} {b : Block} {c c' : Chain} (hp : Plays r b e.self c t c')
    (decode : Nat → Option (Option Dao.Msg)) :
    ∃ ent k w, Factory.finalizations t = [(ent, k)] ∧ Holds c' ent k w ∧ ∀ (x : Dao.Ext) (g : Migration.State),
      ∃ p, Facade.IsDao (seen (cfgOf e.self ent k decode) x w g c') ent p ∧ p.Seen (cfgOf e.self ent k decode) x w ∧
        p.at_ = k := by
  obtain ⟨v, d, wl, c1, x, y, z, q, u, x', o, hfin, pl, en, _⟩ := created h hm hp
  refine ⟨d.enterprise, d.comps, ⟨x', Gov.init d.comps.controller, u, y, z, b, []⟩, hfin,
    ⟨en.ctl, en.gov, en.dist, en.mem, en.council⟩, fun ext g => ?_⟩
  have hq : q.admin = d.comps.controller := by
    have ht := pl.treInit
    unfold Treasury.init at ht
    simp only [bind_ok_iff, pure_ok_iff] at ht
    obtain ⟨_, _, ht⟩ := ht
    rw [← ht]
  have hx : x'.enterprise = d.enterprise := by
    obtain ⟨_, _, hxi⟩ := Controller.init_ok pl.ctlInit
    rcases en.ctl' with hx | hx <;> rw [hx, hxi]
  have hk : Facade.daoType (Factory.daoType m.membership) = y.daoType := by
    rw [pl.memType]; cases Factory.daoType m.membership <;> rfl
  have key : ∃ px, (y.nftAddr ext.proxy = y.nftAddr px) ∧
      view (cfgOf e.self d.enterprise d.comps decode) ext ⟨x', Gov.init d.comps.controller, u, y, z, b, []⟩ g
        (.membership d.enterprise y) = some (.membership d.enterprise y px) := by
    cases y with
    | staking k s => exact ⟨none, rfl, rfl⟩
    | nft s => exact ⟨ext.proxy, rfl, rfl⟩
    | multisig s => exact ⟨none, rfl, rfl⟩
  obtain ⟨px, hpx, hview⟩ := key
  refine ⟨⟨{ Enterprise.init none b.time e.self s.config.versioning (r.metadata m.metadata) v.version
    (Factory.daoType m.membership) with comps := some d.comps, finalized := true }, d.comps, ⟨(cfgOf e.self d.enterprise d.comps decode).env ext
    ⟨x', Gov.init d.comps.controller, u, y, z, b, []⟩, x', Gov.init d.comps.controller⟩, y, px, z, q, g, o⟩, ?_,
    ⟨rfl, rfl, rfl⟩, rfl⟩
  exact
    { main := by unfold seen; rw [en.ent]; rfl
      comps := rfl
      ctl := by unfold seen; rw [en.ctl]; rfl
      member := by unfold seen; rw [en.mem]; exact hview
      council := by unfold seen; rw [en.council]; rfl
      treasury := by unfold seen; rw [en.tre]; rfl
      outposts := by unfold seen; rw [en.out]; rfl
      owner := hx
      admin := hq
      self := rfl
      envMembership := rfl
      envCouncil := rfl
      envTreasury := rfl
      envType := rfl
      envToken := rfl
      envDenom := rfl
      envNft := hpx
      kind := hk }

/-! ## C60 -/

/-- In a DAO created by the factory the vote duration is at most the unlocking period, if that is in seconds; and from
then on, whatever happens, the vote duration stays what it is and at most the unlocking period, as long as no proposal that
changes the vote duration is made (and custom messages of proposals do not set the unlocking period directly).
Missing from C60: proposals that change the vote duration, see `Controller.C60_vote_duration_witness`. -/
theorem C60_created_partial {e : Factory.Env} {s s' : Factory.State} {sender : Addr} {msg : Factory.Msg} {t : Trace}
    (h : Factory.Tx e s sender msg s' t) {m : CreateDao} {version : Option Versioning.Version}
    (hm : msg.creates = some (m, version)) {r : Reading} {b : Block} {c c' : Chain} (hp : Plays r b e.self c t c')
    (hf : c e.self ≠ none) (decode : Nat → Option (Option Dao.Msg)) :
    ∃ ent k w, Factory.finalizations t = [(ent, k)] ∧ Holds c' ent k w ∧ Dao.Covers w ∧
      ((cfgOf e.self ent k decode).Tame → (cfgOf e.self ent k decode).NoPeriod → ∀ w',
        Dao.Later (cfgOf e.self ent k decode) w w' → Dao.KeepsAll w' →
          w'.ctl.config.voteDuration = m.gov.voteDuration ∧ Dao.Covers w') := by
  obtain ⟨ent, k, w, w0, h1, h2, _, h4, _, h6, _⟩ := C107_genesis h hm hp hf decode
  obtain ⟨v, d, wl, c1, x, y, z, q, u, x', o, hfin, pl, en, hbeg, l, seg, hmem⟩ := created h hm hp
  rw [hfin] at h1
  cases h1
  have hctl : w.ctl = x' := by have := h2.ctl; rw [en.ctl] at this; cases this; rfl
  have hy : w.mem = y := by have := h2.mem; rw [en.mem] at this; cases this; rfl
  have hcfg : w.ctl.config = m.gov := by
    obtain ⟨_, _, hxi⟩ := Controller.init_ok pl.ctlInit
    rw [hctl]
    rcases en.ctl' with hx | hx <;> rw [hx, hxi]
  have hval : ∀ p, Factory.validateUnlocking m.gov p = .ok () → Dao.Within m.gov.voteDuration p := by
    intro p hp
    cases p with
    | time n =>
      simp only [Factory.validateUnlocking] at hp
      by_cases hlt : n < m.gov.voteDuration
      · rw [if_pos hlt] at hp; cases hp
      · exact Nat.not_lt.1 hlt
    | height n => trivial
  have hcov : Dao.Covers w := by
    intro p hp
    rw [hcfg]
    rw [hy] at hp
    cases hmem with
    | newDenom _ _ hm hu | importCw20 _ _ hm hu | newCw20 _ _ _ _ _ _ hm hu | importCw721 _ _ hm hu | newCw721 _ _ _ hm hu
    | newIcs721 _ _ _ hm hu =>
      rw [hm] at hbeg
      refine hval p ?_
      cases y with
      | staking kd s => cases kd <;> first | exact hbeg.elim | (cases hp; rw [hbeg.2.1]; exact hu)
      | nft s => first | exact hbeg.elim | (cases hp; rw [hbeg.2.1]; exact hu)
      | multisig s => exact hbeg.elim
    | importCw3 _ hm | newMultisig _ hm =>
      rw [hm] at hbeg
      cases y with
      | staking kd s => cases kd <;> exact hbeg.elim
      | nft s => exact hbeg.elim
      | multisig s => cases hp
  refine ⟨_, _, w, hfin, h2, hcov, fun ht hn w' hl hk => ?_⟩
  have := hl.kept h4 ht hn h6 hk hcov
  rw [hcfg] at this
  exact this

/-! ### The sample creation -/

/-- Metadata and assets of the sample. -/
def smpReading : Reading := ⟨fun n => ⟨n, none, n, none, none, none, none⟩, fun n => .native n⟩

/-- Only the factory is on the chain. -/
def smpChain : Chain := fun a => if a = 5 then some .other else none

theorem smp_plays : ∃ c', Plays smpReading ⟨10, 20⟩ 5 smpChain Factory.sampleTrace c' := by
  unfold Factory.sampleTrace
  exact ⟨_, .inst rfl (.enterprise _ _ _ _ _) (.updateAdmin (.inst rfl (.controller rfl) (.inst rfl (.governance _)
    (.inst rfl (.multisig rfl) (.inst rfl (.outposts _) (.inst rfl (.treasury rfl) (.inst rfl (.denom _ _ _ _)
    (.inst rfl (.distributor rfl) (.inst rfl (.attestation _) (.finalizeSelf (.finalize ⟨101, 5, fun _ => none, 0⟩ rfl rfl rfl
    (.fund (.deployInitial (o' := Outposts.init 101) (Dao.Cfg.env (cfgOf 5 101 ⟨103, 102, 106, 105, 108, 107, 104, some 109⟩
      (fun _ => none)) noExt { Dao.sampleGenesis with block := ⟨10, 20⟩ }) ⟨rfl, rfl⟩ rfl rfl rfl rfl rfl rfl (.nil _))))))))))))))⟩

/-- The hypotheses of the theorems hold for the sample creation: a denom DAO with a council of one, an attestation, and one
cross-chain treasury. -/
example : ∃ s' c', Factory.Tx Factory.sampleEnv Factory.sampleInit 3 (.createDao Factory.sampleDenom) s' Factory.sampleTrace ∧
    Plays smpReading ⟨10, 20⟩ Factory.sampleEnv.self smpChain Factory.sampleTrace c' ∧
    smpChain Factory.sampleEnv.self ≠ none := by
  obtain ⟨c', h⟩ := smp_plays
  exact ⟨_, c', Factory.sample_tx, h, by simp [smpChain, Factory.sampleEnv]⟩

end Verif.Birth
