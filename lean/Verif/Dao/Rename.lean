import Verif.Controller.Rename
import Verif.Staking.Props5
import Verif.Nft.Props5
import Verif.Multisig.Props3
import Verif.Dao.Props35
import Verif.Dao.Trace

/-!
# The contracts of a DAO together, with other names for the users
-/

set_option linter.unusedSimpArgs false

namespace Verif.Dao
open Verif
open Verif.Controller (DaoType Version Components Transfer Sub)
open Verif.Staking (Duration At)

/-! ## The renamed DAO -/

/-- A message to the membership contract with other names for the users. -/
def MemberMsg.ren (π : Renaming) : MemberMsg → MemberMsg
  | .staking m => .staking (m.ren π)
  | .nft m => .nft (m.ren π)
  | .multisig m => .multisig (m.ren π)

/-- A message with other names for the users. -/
def Msg.ren (π : Renaming) : Msg → Msg
  | .ctl m => .ctl (m.ren π)
  | .gov m => .gov (m.ren π)
  | .dist m => .dist (m.ren π)
  | .mem m => .mem (m.ren π)
  | .council m => .council (m.ren π)

/-- A queued message with other names for the users. -/
def Item.ren (π : Renaming) : Item → Item
  | .call a m => .call (π a) (m.ren π)
  | .actions id => .actions id
  | .deposit id t => .deposit id (t.ren π)
  | .other => .other

/-- The membership contract with other names for the users. -/
def Member.ren (π : Renaming) : Member → Member
  | .staking k s => .staking k (s.ren π)
  | .nft s => .nft (s.ren π)
  | .multisig s => .multisig (s.ren π)

/-- An event with other names for the users. -/
def Event.ren (π : Renaming) : Event → Event
  | .sent id => .sent id
  | .ran id => .ran id
  | .paid id t => .paid id (t.ren π)

/-- The contracts of a DAO with other names for the users. -/
def World.ren (π : Renaming) (w : World) : World :=
  { ctl := w.ctl.ren π, gov := w.gov.ren π, dist := w.dist.ren π, mem := w.mem.ren π, council := w.council.ren π,
    block := w.block, log := w.log.map (Event.ren π) }

/-- The answers of the other contracts with other names for the users. -/
def Ext.ren (π : Renaming) (e : Ext) : Ext :=
  { e with
    restricted := fun u => e.restricted (π.symm u)
    owner := fun n => (e.owner n).map (fun x => (π x.1, x.2.map π)) }

/-- The same DAO, with other names for the users in the custom messages of proposals. -/
def Cfg.ren (π : Renaming) (c : Cfg) : Cfg :=
  { c with decode := fun n => (c.decode n).map (Option.map (Msg.ren π)) }

/-- A message that was handled, with other names for the users. -/
def Entry.ren (π : Renaming) (x : Entry) : Entry := ⟨x.world.ren π, x.ext.ren π, π x.sender, x.msg.ren π⟩

/-- The contracts of the DAO keep their names. -/
structure Fixes (π : Renaming) (c : Cfg) : Prop where
  self : π c.self = c.self
  creator : π c.creator = c.creator
  comps : c.comps.ren π = c.comps

/-- Messages that a token or NFT contract sends along with tokens. -/
def Msg.fromToken : Msg → Bool
  | .ctl (.receive _ _ _) => true
  | .dist (.receiveCw20 _ _) => true
  | .mem (.staking (.receive _ _)) => true
  | .mem (.nft (.receiveNft _ _)) => true
  | _ => false

/-! ## Lemmas -/

theorem ren_unlocking (π : Renaming) (d : Duration) (x : Member) :
    (x.ren π).unlockingMsg d = (x.unlockingMsg d).ren π := by
  cases x <;> rfl

theorem ren_daoType (π : Renaming) (x : Member) : (x.ren π).daoType = x.daoType := by
  rcases x with ⟨k, s⟩ | s | s
  · cases k <;> rfl
  · rfl
  · rfl

theorem ren_memWeight (π : Renaming) (x : Member) (u : Addr) : (x.ren π).weight (π u) = x.weight u := by
  rcases x with ⟨k, s⟩ | s | s
  · exact Members.ren_weight π s.mem u
  · exact Members.ren_weight π s.mem u
  · exact Members.ren_weight π s u

theorem ren_memTotal (π : Renaming) (x : Member) (a : At) : (x.ren π).total a = x.total a := by
  rcases x with ⟨k, s⟩ | s | s <;> cases a <;> rfl

theorem ren_token (π : Renaming) (x : Member) : (x.ren π).token = x.token := by
  rcases x with ⟨k, s⟩ | s | s
  · cases k <;> rfl
  · rfl
  · rfl

theorem ren_denom (π : Renaming) (x : Member) : (x.ren π).denom = x.denom := by
  rcases x with ⟨k, s⟩ | s | s
  · cases k <;> rfl
  · rfl
  · rfl

theorem ren_nftAddr (π : Renaming) (p : Option Addr) (x : Member) : (x.ren π).nftAddr p = x.nftAddr p := by
  cases x <;> rfl

theorem ren_env {π : Renaming} {c : Cfg} (hf : Fixes π c) (e : Ext) (w : World) :
    (c.ren π).env (e.ren π) (w.ren π) = (c.env e w).ren π := by
  have h1 : (w.ren π).mem.weight = fun u => w.mem.weight (π.symm u) := by
    funext u
    have := ren_memWeight π w.mem (π.symm u)
    rwa [Equiv.apply_symm_apply] at this
  have h2 : Multisig.queryWeight (w.ren π).council = fun u => Multisig.queryWeight w.council (π.symm u) := by
    funext u
    have := Members.ren_weight π w.council (π.symm u)
    rwa [Equiv.apply_symm_apply] at this
  have h3 : (w.ren π).mem.total = w.mem.total := funext fun a => ren_memTotal π w.mem a
  have h4 : Multisig.queryTotal (w.ren π).council = Multisig.queryTotal w.council := by
    funext a
    cases a <;> rfl
  have h5 : (fun n => ((c.ren π).decode n).isSome) = fun n => (c.decode n).isSome := by
    funext n
    show ((c.decode n).map _).isSome = _
    rw [Option.isSome_map]
  unfold Cfg.env Controller.Env.ren
  dsimp only
  rw [h1, h2, h3, h4, h5, hf.self, hf.creator, hf.comps, show (w.ren π).mem = w.mem.ren π from rfl, ren_daoType, ren_token,
    ren_denom, ren_nftAddr]
  rfl

theorem ren_menv {π : Renaming} {c : Cfg} (hf : Fixes π c) (e : Ext) (w : World) (a : Addr) :
    (c.ren π).menv (e.ren π) (w.ren π) (π a) = (c.menv e w a).ren π := by
  unfold Cfg.menv Env.ren
  dsimp only
  rw [hf.self]
  rfl

theorem ren_toItem {π : Renaming} {c : Cfg} (hf : Fixes π c) (x : Member) (s : Sub) :
    toItem (c.ren π) (x.ren π) (s.ren π) = (toItem c x s).ren π := by
  have hs : (c.ren π).self = π c.self := hf.self.symm
  cases s with
  | council l => exact congrArg (fun a => Item.call a _) hs
  | unlocking d =>
    show Item.call (c.ren π).self (.mem ((x.ren π).unlockingMsg d)) = .call (π c.self) (.mem ((x.unlockingMsg d).ren π))
    rw [hs, ren_unlocking]
  | members l => exact congrArg (fun a => Item.call a _) hs
  | distributor m => exact congrArg (fun a => Item.call a _) hs
  | custom n =>
    show (match (c.decode n).map (Option.map (Msg.ren π)) with | some (some m) => Item.call (c.ren π).self m | _ => .other) =
      Item.ren π (match c.decode n with | some (some m) => .call c.self m | _ => .other)
    cases c.decode n with
    | none => rfl
    | some d =>
      cases d with
      | none => rfl
      | some m => exact congrArg (fun a => Item.call a _) hs
  | _ => rfl

theorem ren_outItem {π : Renaming} {c : Cfg} {a : Addr} (ha : π a = a) (o : Out) :
    outItem (c.ren π) a (o.ren π) = (outItem c a o).ren π := by
  cases o with
  | notify h l =>
    show (if h = c.self then Item.call a _ else _) = Item.ren π (if h = c.self then _ else _)
    split
    · exact congrArg (fun a => Item.call a _) ha.symm
    · rfl
  | _ => rfl

/-- What is known of the distributor. -/
def DistGood (d : Distributor.State) : Prop := Distributor.Inv d ∧ d.total < M128

theorem distGood_exec {d : Distributor.State} (hd : DistGood d) {e : Distributor.Env} {m : Distributor.Msg}
    {x : Distributor.State × List Distributor.Out} (h : Distributor.exec d e m = .ok x) : DistGood x.1 := by
  have h1 := (Distributor.step_inv hd.1 ⟨e, m, true⟩).1
  have h2 := Distributor.step_small hd.2 ⟨e, m, true⟩
  have h3 : Distributor.step d ⟨e, m, true⟩ = x := by
    unfold Distributor.step
    dsimp only
    rw [h]
    rfl
  rw [h3] at h1 h2
  exact ⟨h1, h2⟩

/-- Both succeed, with results that correspond, or both fail. -/
def SameOk {α β : Type} (f : α → β) (X' : Except Err β) (X : Except Err α) : Prop := ∀ y, X' = .ok y ↔ X.map f = .ok y

theorem SameOk.of_eq {α β : Type} {f : α → β} {X' : Except Err β} {X : Except Err α} (h : X' = X.map f) : SameOk f X' X :=
  fun _ => by rw [h]

theorem SameOk.bind {α α' β β' : Type} {f : α → α'} {g : β → β'} {X : Except Err α} {X' : Except Err α'}
    {k : α → Except Err β} {k' : α' → Except Err β'} (hX : SameOk f X' X) (hk : ∀ a, X = .ok a → SameOk g (k' (f a)) (k a)) :
    SameOk g (X' >>= k') (X >>= k) := by
  intro y
  cases X with
  | error e =>
    constructor
    · intro h
      obtain ⟨z, hz, _⟩ := bind_ok_iff.1 h
      exact absurd ((hX z).1 hz) (by intro h; cases h)
    · intro h; cases h
  | ok a =>
    have h1 : X' = .ok (f a) := (hX _).2 rfl
    rw [h1]
    exact hk a rfl y

theorem SameOk.ok {α β : Type} {f : α → β} {X' : Except Err β} {X : Except Err α} (h : SameOk f X' X) {x : α}
    (hx : X = .ok x) : X' = .ok (f x) := (h _).2 (by rw [hx]; rfl)

theorem SameOk.iff {α β : Type} {f : α → β} {X' : Except Err β} {X : Except Err α} (h : SameOk f X' X) :
    (∃ y, X' = .ok y) ↔ ∃ x, X = .ok x := by
  constructor
  · rintro ⟨y, hy⟩
    have := (h y).1 hy
    cases X with
    | error e => cases this
    | ok x => exact ⟨x, rfl⟩
  · rintro ⟨x, hx⟩
    exact ⟨_, h.ok hx⟩

theorem ren_dist {π : Renaming} {d : Distributor.State} (hd : DistGood d) {e : Ext} {a : Addr} {m : Distributor.Msg}
    (hk : ∀ k n, m = .receiveCw20 k n → π a = a) :
    SameOk (Distributor.resRen π) (Distributor.exec (d.ren π) ((e.ren π).denv (π a)) (m.ren π))
      (Distributor.exec d (e.denv a) m) :=
  Distributor.ren_exec π hd.1 hd.2 ⟨e.denv a, m, true⟩ hk

theorem ren_updateDist {π : Renaming} {c : Cfg} (hf : Fixes π c) (e : Ext) : ∀ (l : List Sub) {d : Distributor.State},
    DistGood d → SameOk (Distributor.State.ren π)
      (updateDist (c.ren π) (e.ren π) (d.ren π) (l.map (Sub.ren π))) (updateDist c e d l)
  | [], d, hd => .of_eq rfl
  | s :: t, d, hd => by
    cases s with
    | distributor m =>
      have h1 := ren_dist (π := π) hd (e := e) (a := c.self) (m := m) (fun _ _ _ => hf.self)
      rw [hf.self] at h1
      exact h1.bind fun r hr => ren_updateDist hf e t (distGood_exec hd hr)
    | _ => exact .of_eq rfl

theorem updateDist_good {c : Cfg} {e : Ext} : ∀ (l : List Sub) {d d' : Distributor.State}, DistGood d →
    updateDist c e d l = .ok d' → DistGood d'
  | [], d, d', hd, h => by
    cases h
    exact hd
  | s :: t, d, d', hd, h => by
    cases s with
    | distributor m =>
      simp only [updateDist, bind_ok_iff] at h
      obtain ⟨r, h1, h2⟩ := h
      exact updateDist_good t (distGood_exec hd h1) h2
    | _ => cases h

/-- The result of a message with other names. -/
def resRen (π : Renaming) (r : World × List Item) : World × List Item := (r.1.ren π, r.2.map (Item.ren π))

theorem ren_deliver {π : Renaming} {c : Cfg} (hf : Fixes π c) (e : Ext) {a : Addr} (ha : π a = a) :
    ∀ (l : List Out) {w : World}, DistGood w.dist →
    SameOk (resRen π) (deliver (c.ren π) (e.ren π) a (w.ren π) (l.map (Out.ren π))) (deliver c e a w l)
  | [], w, hd => .of_eq rfl
  | o :: t, w, hd => by
    have hmap : ∀ l : List Out, (l.map (Out.ren π)).map (outItem (c.ren π) a) = (l.map (outItem c a)).map (Item.ren π) := by
      intro l
      rw [List.map_map, List.map_map]
      exact List.map_congr_left fun o _ => ren_outItem ha o
    cases o with
    | notify hk cs =>
      rw [List.map_cons]
      show SameOk (resRen π) (if hk = c.self then _ else _) (if hk = c.self then _ else _)
      by_cases hs : hk = c.self
      · rw [if_pos hs, if_pos hs]
        have h6 := Controller.ren_weightsChanged π (c.env e w) a w.gov cs
        rw [ha, ← ren_env hf] at h6
        refine SameOk.bind (.of_eq h6) fun r hr => ?_
        refine SameOk.bind (ren_updateDist hf e r.2 hd) fun d hd' => ?_
        exact ren_deliver hf e ha t (w := { w with gov := r.1, dist := d }) (updateDist_good r.2 hd hd')
      · rw [if_neg hs, if_neg hs]
        refine .of_eq ?_
        rw [hmap]
        rfl
    | pay u n => exact .of_eq (congrArg (fun l => Except.ok (w.ren π, l)) (hmap (.pay u n :: t)))
    | sendNft u n => exact .of_eq (congrArg (fun l => Except.ok (w.ren π, l)) (hmap (.sendNft u n :: t)))

theorem deliver_good {c : Cfg} {e : Ext} {a : Addr} : ∀ (l : List Out) {w w' : World} {subs : List Item},
    DistGood w.dist → deliver c e a w l = .ok (w', subs) → DistGood w'.dist
  | [], w, w', subs, hd, h => by
    cases h
    exact hd
  | o :: t, w, w', subs, hd, h => by
    cases o with
    | notify hk cs =>
      unfold deliver at h
      by_cases hs : hk = c.self
      · rw [if_pos hs] at h
        simp only [bind_ok_iff] at h
        obtain ⟨r, h1, d, h2, h3⟩ := h
        exact deliver_good t (w := { w with gov := r.1, dist := d }) (updateDist_good r.2 hd h2) h3
      · rw [if_neg hs] at h
        cases h
        exact hd
    | pay u n =>
      cases h
      exact hd
    | sendNft u n =>
      cases h
      exact hd

theorem ren_member {π : Renaming} (x : Member) (e : Env) (p : Option Addr) (m : MemberMsg)
    (hk : (Msg.mem m).fromToken → π e.sender = e.sender) :
    (x.ren π).exec ⟨e.ren π, p⟩ (m.ren π) = (x.exec ⟨e, p⟩ m).map (fun r => (r.1.ren π, r.2.map (Out.ren π))) := by
  rcases x with ⟨k, s⟩ | s | s <;> rcases m with m | m | m <;> try rfl
  · have := Staking.ren_exec π k s ⟨e, m, true⟩ (fun a y hm => hk (by dsimp only at hm; subst hm; rfl))
    exact Controller.bind_ren this fun r => rfl
  · have := Nft.ren_exec π s ⟨⟨e, p⟩, m, true⟩ (fun a y hm => hk (by dsimp only at hm; subst hm; rfl))
    exact Controller.bind_ren this fun r => rfl
  · exact Controller.bind_ren (Multisig.ren_exec π s e m) fun r => rfl

theorem ren_ranOf (π : Renaming) (m : Controller.Msg) : ranOf (m.ren π) = (ranOf m).map (Event.ren π) := by
  cases m <;> rfl

theorem ren_events (π : Renaming) (l : List Sub) :
    (l.map (Sub.ren π)).filterMap eventOf = (l.filterMap eventOf).map (Event.ren π) := by
  rw [List.filterMap_map, List.map_filterMap]
  refine List.filterMap_congr fun s _ => ?_
  cases s <;> rfl

theorem ren_handle {π : Renaming} {c : Cfg} (hf : Fixes π c) (e : Ext) {w : World} (hd : DistGood w.dist) {a : Addr}
    {m : Msg} (hk : m.fromToken → π a = a) :
    SameOk (resRen π) (handle (c.ren π) (e.ren π) (w.ren π) (π a) (m.ren π)) (handle c e w a m) := by
  cases m with
  | ctl m =>
    have := Controller.ren_exec π (c.env e w) a w.ctl w.gov m (fun u n p hm => hk (by subst hm; rfl))
    rw [← ren_env hf] at this
    refine SameOk.bind (.of_eq this) fun r _ => .of_eq (congrArg Except.ok (Prod.ext ?_ ?_))
    · show World.mk _ _ _ _ _ _ (w.log.map (Event.ren π) ++ ranOf (m.ren π) ++ (r.2.2.map (Sub.ren π)).filterMap eventOf) =
        World.mk _ _ _ _ _ _ ((w.log ++ ranOf m ++ r.2.2.filterMap eventOf).map (Event.ren π))
      rw [ren_ranOf, ren_events, List.map_append, List.map_append]
      rfl
    · show (r.2.2.map (Sub.ren π)).map (toItem (c.ren π) (w.mem.ren π)) = (r.2.2.map (toItem c w.mem)).map (Item.ren π)
      rw [List.map_map, List.map_map]
      exact List.map_congr_left fun s _ => ren_toItem hf w.mem s
  | gov m => exact SameOk.bind (.of_eq (Controller.ren_govExec π w.gov w.block.time a m)) fun g _ => .of_eq rfl
  | dist m =>
    refine SameOk.bind (ren_dist hd (fun k n hm => hk (by subst hm; rfl))) fun r _ =>
      .of_eq (congrArg (fun l => Except.ok (_, l)) ?_)
    show (r.2.map (Distributor.Out.ren π)).map (fun _ => Item.other) = (r.2.map (fun _ => Item.other)).map (Item.ren π)
    rw [List.map_map, List.map_map]
    rfl
  | mem m =>
    have h3 := ren_member w.mem (c.menv e w a) e.proxy m hk
    rw [← ren_menv hf] at h3
    exact SameOk.bind (.of_eq h3) fun r _ =>
      ren_deliver hf e (congrArg Components.membership hf.comps) r.2 (w := { w with mem := r.1 }) hd
  | council m =>
    have h3 := Multisig.ren_exec π w.council (c.menv e w a) m
    rw [← ren_menv hf] at h3
    exact SameOk.bind (.of_eq h3) fun r _ =>
      ren_deliver hf e (congrArg Components.council hf.comps) r.2 (w := { w with council := r.1 }) hd

theorem handle_good {c : Cfg} {e : Ext} {w w' : World} (hd : DistGood w.dist) {a : Addr} {m : Msg} {subs : List Item}
    (h : handle c e w a m = .ok (w', subs)) : DistGood w'.dist := by
  cases m with
  | ctl m =>
    simp only [handle, bind_ok_iff, pure_ok_iff] at h
    obtain ⟨r, h1, h2⟩ := h
    cases h2
    exact hd
  | gov m =>
    simp only [handle, bind_ok_iff, pure_ok_iff] at h
    obtain ⟨r, h1, h2⟩ := h
    cases h2
    exact hd
  | dist m =>
    simp only [handle, bind_ok_iff, pure_ok_iff] at h
    obtain ⟨r, h1, h2⟩ := h
    cases h2
    exact distGood_exec hd h1
  | mem m =>
    simp only [handle, bind_ok_iff] at h
    obtain ⟨r, h1, h2⟩ := h
    exact deliver_good r.2 (w := { w with mem := r.1 }) hd h2
  | council m =>
    simp only [handle, bind_ok_iff] at h
    obtain ⟨r, h1, h2⟩ := h
    exact deliver_good r.2 (w := { w with council := r.1 }) hd h2

theorem ren_outsider {π : Renaming} {c : Cfg} (hf : Fixes π c) {a : Addr} (ha : c.outsider a) : (c.ren π).outsider (π a) := by
  have h1 : π c.comps.membership = c.comps.membership := congrArg Components.membership hf.comps
  have h2 : π c.comps.council = c.comps.council := congrArg Components.council hf.comps
  refine ⟨fun h => ha.1 (π.injective (h.trans hf.self.symm)), fun h => ha.2.1 (π.injective (h.trans h1.symm)),
    fun h => ha.2.2 (π.injective (h.trans h2.symm))⟩

theorem ren_calls {π : Renaming} {c : Cfg} (hf : Fixes π c) {l : List Item} (h : Calls c l) :
    Calls (c.ren π) (l.map (Item.ren π)) := by
  intro i hi
  obtain ⟨j, hj, rfl⟩ := List.mem_map.1 hi
  obtain ⟨a, m, rfl, ha⟩ := h j hj
  exact ⟨π a, m.ren π, rfl, ren_outsider hf ha⟩

/-- The senders of tokens in a history keep their names. -/
def TokensKept (π : Renaming) (t : List Entry) : Prop := ∀ x ∈ t, x.msg.fromToken → π x.sender = x.sender

theorem Traced.ren {π : Renaming} {c : Cfg} (hf : Fixes π c) {w w' : World} {l : List Item} {t : List Entry}
    (h : Traced c w l w' t) : TokensKept π t → DistGood w.dist →
    Traced (c.ren π) (w.ren π) (l.map (Item.ren π)) (w'.ren π) (t.map (Entry.ren π)) ∧ DistGood w'.dist := by
  induction h with
  | nil w => intro _ hd; exact ⟨.nil _, hd⟩
  | @call w w1 w2 w3 a m subs rest t1 t2 e room h h1 h2 ih1 ih2 =>
    intro hk hd
    have g1 := (ren_handle hf e hd (hk _ List.mem_cons_self)).ok h
    have d1 := handle_good hd h
    obtain ⟨g2, d2⟩ := ih1 (fun x hx => hk x (List.mem_cons_of_mem _ (List.mem_append_left _ hx))) d1
    obtain ⟨g3, d3⟩ := ih2 (fun x hx => hk x (List.mem_cons_of_mem _ (List.mem_append_right _ hx))) d2
    rw [List.map_cons, List.map_cons, List.map_append]
    exact ⟨.call (e.ren π) room g1 g2 g3, d3⟩
  | @actions w w1 w2 w3 id subs rest t1 t2 e room h h1 h2 ih1 ih2 =>
    intro hk hd
    have g1 := (ren_handle hf e hd (hk _ List.mem_cons_self)).ok h
    have d1 := handle_good hd h
    obtain ⟨g2, d2⟩ := ih1 (fun x hx => hk x (List.mem_cons_of_mem _ (List.mem_append_left _ hx))) d1
    obtain ⟨g3, d3⟩ := ih2 (fun x hx => hk x (List.mem_cons_of_mem _ (List.mem_append_right _ hx))) d2
    rw [List.map_cons, List.map_cons, List.map_append]
    dsimp only at g1
    rw [hf.self] at g1
    have := Traced.actions (c := c.ren π) (w := w.ren π) (id := id) (e.ren π) room g1 g2 g3
    refine ⟨?_, d3⟩
    rw [show Entry.ren π ⟨w, e, c.self, .ctl (.executeActions id)⟩ =
      ⟨w.ren π, e.ren π, (c.ren π).self, .ctl (.executeActions id)⟩ from
        congrArg (fun a => Entry.mk _ _ a _) hf.self]
    exact this
  | failed h ih =>
    intro hk hd
    obtain ⟨g, d⟩ := ih hk hd
    exact ⟨.failed g, d⟩
  | @deposit w w1 w2 id t calls rest t1 t2 hc h1 h2 ih1 ih2 =>
    intro hk hd
    obtain ⟨g1, d1⟩ := ih1 (fun x hx => hk x (List.mem_append_left _ hx)) hd
    obtain ⟨g2, d2⟩ := ih2 (fun x hx => hk x (List.mem_append_right _ hx)) d1
    rw [List.map_cons, List.map_append]
    refine ⟨.deposit (ren_calls hf hc) ?_ g2, d2⟩
    have : ({ w with log := w.log ++ [.paid id t] } : World).ren π =
        { w.ren π with log := (w.ren π).log ++ [.paid id (t.ren π)] } := by
      unfold World.ren
      dsimp only
      rw [List.map_append]
      rfl
    rwa [this] at g1
  | @other w w1 w2 calls rest t1 t2 hc h1 h2 ih1 ih2 =>
    intro hk hd
    obtain ⟨g1, d1⟩ := ih1 (fun x hx => hk x (List.mem_append_left _ hx)) hd
    obtain ⟨g2, d2⟩ := ih2 (fun x hx => hk x (List.mem_append_right _ hx)) d1
    rw [List.map_cons, List.map_append]
    exact ⟨.other (ren_calls hf hc) g1 g2, d2⟩

theorem History.ren {π : Renaming} {c : Cfg} (hf : Fixes π c) {w w' : World} {t : List Entry}
    (h : History c w w' t) : TokensKept π t → DistGood w.dist →
    History (c.ren π) (w.ren π) (w'.ren π) (t.map (Entry.ren π)) ∧ DistGood w'.dist := by
  induction h with
  | start => intro _ hd; exact ⟨.start, hd⟩
  | @tx w1 w2 a m t t1 h ha hx ih =>
    intro hk hd
    obtain ⟨g1, d1⟩ := ih (fun x hx => hk x (List.mem_append_left _ hx)) hd
    obtain ⟨g2, d2⟩ := hx.ren hf (fun x hx => hk x (List.mem_append_right _ hx)) d1
    rw [List.map_append]
    exact ⟨.tx g1 (ren_outsider hf ha) g2, d2⟩
  | block h hh ht ih =>
    intro hk hd
    obtain ⟨g1, d1⟩ := ih hk hd
    exact ⟨.block (b := _) g1 hh ht, d1⟩

theorem Genesis.ren {π : Renaming} {c : Cfg} (hf : Fixes π c) {w : World} (h : Genesis c w) :
    Genesis (c.ren π) (w.ren π) ∧ DistGood w.dist := by
  obtain ⟨⟨cfg, spec, tr, h1⟩, h2, ⟨m, l, h3⟩, h4, ⟨l', h5⟩, h6⟩ := h
  refine ⟨⟨⟨cfg, spec.map (Controller.CouncilSpec.ren π), tr, ?_⟩, ?_, ⟨m, Distributor.listRen π l, ?_⟩, ?_,
    ⟨Multisig.listRen π l', ?_⟩, ?_⟩, (Distributor.init_inv h3).1, Distributor.init_small h3⟩
  · rw [show (w.ren π).mem = w.mem.ren π from rfl, ren_daoType]
    exact (Controller.ren_init π _ _ _ _ _ _).trans (congrArg (Except.map (Controller.State.ren π)) h1)
  · show w.gov.ren π = Gov.init c.self
    rw [h2, Gov.ren_init, hf.self]
  · have := Distributor.ren_init π c.self m l
    rw [h3, hf.self] at this
    exact this
  · show (w.mem.ren π).fresh _ _
    rcases hm : w.mem with ⟨k, s⟩ | s | s <;> rw [hm] at h4
    · obtain ⟨as, u, rfl⟩ := h4
      exact ⟨as, u, rfl⟩
    · obtain ⟨as, u, rfl⟩ := h4
      exact ⟨as, u, rfl⟩
    · obtain ⟨l, hl⟩ := h4
      refine ⟨Multisig.listRen π l, ?_⟩
      exact (Multisig.ren_init π _ (some l) _ _ _).trans (congrArg (Except.map (Members.ren π)) hl)
  · exact (Multisig.ren_init π _ (some l') _ _ _).trans (congrArg (Except.map (Members.ren π)) h5)
  · show w.log.map _ = []
    rw [h6]
    rfl

end Verif.Dao
