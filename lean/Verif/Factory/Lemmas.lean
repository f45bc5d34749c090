import Verif.Factory.Model
import Verif.Base.Except

/-!
# What a creation does, message by message
-/

set_option linter.unusedSimpArgs false

namespace Verif.Factory
open Verif
open Verif.Staking (Duration)
open Verif.Versioning (Version Info)
open Verif.Enterprise (DaoType Components)
open Verif.Controller (GovConfig CouncilSpec)

theorem need_ok_iff {α : Type} {o : Option α} {x : Err} {a : α} : need o x = .ok a ↔ o = some a := by
  cases o <;> simp [need]

theorem Exec.nil_inv {e : Env} {s s' : State} {t : Trace} (h : Exec e s [] s' t) : s' = s ∧ t = [] := by
  cases h; exact ⟨rfl, rfl⟩

theorem Exec.inst_inv {e : Env} {s s' : State} {id : Nat} {admin : Option Addr} {code : Nat} {m : Inst}
    {rest : List Sub} {t : Trace} (h : Exec e s (.inst id admin code m :: rest) s' t) :
    ∃ addr s1 subs s2 t1 t2, reply e s id addr = .ok (s1, subs) ∧ Exec e s1 subs s2 t1 ∧ Exec e s2 rest s' t2 ∧
      t = (.inst id admin code m, some addr) :: (t1 ++ t2) := by
  cases h with
  | inst addr hr h1 h2 => exact ⟨addr, _, _, _, _, _, hr, h1, h2, rfl⟩

theorem Exec.own_inv {e : Env} {s s' : State} {rest : List Sub} {t : Trace}
    (h : Exec e s (.finalizeSelf :: rest) s' t) :
    ∃ s1 subs s2 t1 t2, finalizeDao e s e.self = .ok (s1, subs) ∧ Exec e s1 subs s2 t1 ∧ Exec e s2 rest s' t2 ∧
      t = (.finalizeSelf, none) :: (t1 ++ t2) := by
  cases h with
  | own hr h1 h2 => exact ⟨_, _, _, _, _, hr, h1, h2, rfl⟩

theorem Exec.updateAdmin_inv {e : Env} {s s' : State} {a b : Addr} {rest : List Sub} {t : Trace}
    (h : Exec e s (.updateAdmin a b :: rest) s' t) :
    ∃ t', Exec e s rest s' t' ∧ t = (.updateAdmin a b, none) :: t' := by
  cases h with
  | updateAdmin h => exact ⟨_, h, rfl⟩

theorem Exec.finalize_inv {e : Env} {s s' : State} {a : Addr} {c : Components} {rest : List Sub} {t : Trace}
    (h : Exec e s (.finalize a c :: rest) s' t) : ∃ t', Exec e s rest s' t' ∧ t = (.finalize a c, none) :: t' := by
  cases h with
  | finalize h => exact ⟨_, h, rfl⟩

theorem replyStore_ok_iff {s : State} {f : Being → Being} {r : State × List Sub} :
    replyStore s f = .ok r ↔ ∃ b, s.being = some b ∧ r = ({ s with being := some (f b) }, []) := by
  unfold replyStore
  simp only [bind_ok_iff, need_ok_iff, pure_ok_iff]
  constructor
  · rintro ⟨b, h1, h2⟩; exact ⟨b, h1, h2.symm⟩
  · rintro ⟨b, h1, h2⟩; exact ⟨b, h1, h2.symm⟩

/-- An instantiation whose reply only stores an address. -/
theorem Exec.store_inv {e : Env} {s s' : State} {id : Nat} {admin : Option Addr} {code : Nat} {m : Inst}
    {rest : List Sub} {t : Trace} {f : Addr → Being → Being}
    (hf : ∀ addr, reply e s id addr = replyStore s (f addr)) {b : Being} (hb : s.being = some b)
    (h : Exec e s (.inst id admin code m :: rest) s' t) :
    ∃ addr t2, Exec e { s with being := some (f addr b) } rest s' t2 ∧
      t = (.inst id admin code m, some addr) :: t2 := by
  obtain ⟨addr, s1, subs, s2, t1, t2, hr, h1, h2, rfl⟩ := h.inst_inv
  rw [hf] at hr
  obtain ⟨b', hb', hr'⟩ := replyStore_ok_iff.1 hr
  rw [hb] at hb'
  cases hb'
  cases hr'
  obtain ⟨rfl, rfl⟩ := h1.nil_inv
  exact ⟨addr, t2, h2, rfl⟩

theorem finalizeDao_ok {e : Env} {s : State} {sender : Addr} {r : State × List Sub} (h : finalizeDao e s sender = .ok r) :
    sender = e.self := by
  unfold finalizeDao at h
  by_cases hs : sender = e.self
  · exact hs
  · rw [if_pos hs] at h; cases h

/-! ### Membership -/

/-- The membership contract of a new DAO and what was done to get it: the messages with addresses, and the list of
weights that the funds distributor starts with. `l` are the weights of the council. -/
inductive Membered (e : Env) (s : State) (m : CreateDao) (v : Info) (ent ctl tre : Addr) (l : List (Addr × Nat)) :
    Addr → Trace → List (Addr × Nat) → Prop
  | newDenom {mem : Addr} (d : Nat) (u : Duration) (hm : m.membership = .newDenom d u)
      (hu : validateUnlocking m.gov u = .ok ()) : Membered e s m v ent ctl tre l mem
        [(.inst 4 (some ent) v.denomStaking (.denom ent d u [ctl]), some mem)] l
  | importCw20 {mem : Addr} (c : Addr) (u : Duration) (hm : m.membership = .importCw20 c u)
      (hu : validateUnlocking m.gov u = .ok ()) (supply : Nat) (hs : e.supply c = some supply)
      (h0 : supply = 0 → ∃ a, e.minter c = some (some a)) : Membered e s m v ent ctl tre l mem
        [(.inst 4 (some ent) v.tokenStaking (.token ent c u [ctl]), some mem)] l
  | newCw20 {mem : Addr} (bal : List (Addr × Nat)) (dao : Option Nat) (mint : Option (Addr × Option Nat))
      (mark : Option (Option Addr)) (rest : Nat) (u : Duration) (hm : m.membership = .newCw20 bal dao mint mark rest u)
      (hu : validateUnlocking m.gov u = .ok ()) (hd : dao ≠ some 0) (hb : ∀ x ∈ bal, x.2 ≠ 0)
      (hn : bal ≠ [] ∨ mint ≠ none) (tok : Addr) : Membered e s m v ent ctl tre l mem
        [(.inst 2 (some ent) s.config.cw20 (.cw20 (initialBalances bal dao tre) (mint.getD (ent, none))
            ((mark.getD none).getD ent) rest), some tok),
         (.inst 4 (some ent) v.tokenStaking (.token ent tok u [ctl]), some mem)] l
  | importCw721 {mem : Addr} (c : Addr) (u : Duration) (hm : m.membership = .importCw721 c u)
      (hu : validateUnlocking m.gov u = .ok ()) (hc : e.isCw721 c = true) : Membered e s m v ent ctl tre l mem
        [(.inst 4 (some ent) v.nftStaking (.nft ent (.cw721 c) u [ctl]), some mem)] l
  | newCw721 {mem : Addr} (minter : Option Addr) (rest : Nat) (u : Duration)
      (hm : m.membership = .newCw721 minter rest u) (hu : validateUnlocking m.gov u = .ok ()) (nft : Addr) :
      Membered e s m v ent ctl tre l mem
        [(.inst 3 (some ent) s.config.cw721 (.cw721 (minter.getD ent) rest), some nft),
         (.inst 4 (some ent) v.nftStaking (.nft ent (.cw721 nft) u [ctl]), some mem)] l
  | newIcs721 {mem : Addr} (p c : Nat) (u : Duration) (hm : m.membership = .newIcs721 p c u)
      (hu : validateUnlocking m.gov u = .ok ()) : Membered e s m v ent ctl tre l mem
        [(.inst 4 (some ent) v.nftStaking (.nft ent (.ics721 p c) u [ctl]), some mem)] l
  | importCw3 {mem : Addr} (c : Addr) (hm : m.membership = .importCw3 c) (r : List (Addr × Nat) × Nat)
      (hr : importLoop (fun x => e.voters c x 100) e.gas none [] 0 = .ok r) (h0 : r.2 ≠ 0) :
      Membered e s m v ent ctl tre l mem
        [(.inst 4 (some ent) v.multisig (.multisig ent r.1 [ctl]), some mem)] r.1
  | newMultisig {mem : Addr} (w : List (Addr × Nat)) (hm : m.membership = .newMultisig w) (h0 : w ≠ []) :
      Membered e s m v ent ctl tre l mem
        [(.inst 4 (some ent) v.multisig (.multisig ent w [ctl]), some mem)] w

/-- The messages of the membership, with the rest of what follows. -/
theorem member_run {e : Env} {s s' : State} {m : CreateDao} {v : Info} {ent ctl tre : Addr} {l : List (Addr × Nat)}
    {b : Being} {r : Being × Sub} (h1 : b.msg = some m) (h2 : b.version = some v) (h3 : b.enterprise = some ent)
    (h4 : b.controller = some ctl) (h5 : b.weights = some l)
    (h : membership e s b tre m.membership [ctl] = .ok r) {s0 : State} (hs0 : s0.being = some r.1)
    {rest : List Sub} {t : Trace} (hx : Exec e s0 (r.2 :: rest) s' t) :
    ∃ mem seg w u a n t2, Membered e s m v ent ctl tre l mem seg w ∧ r.1 = { b with weights := some w, unlocking := u } ∧
      Exec e { s0 with being := some { b with
        weights := some w, unlocking := u, asset := a, nft := n, membership := some mem } } rest s' t2 ∧
      t = seg ++ t2 := by
  have hstore : ∀ (s : State) (addr : Addr), reply e s 4 addr = replyStore s (fun b => { b with membership := some addr }) :=
    fun _ _ => rfl
  have hb : ∀ u : Option Duration, { b with unlocking := u } = { b with weights := some l, unlocking := u } := by
    intro u; rw [← h5]
  have htok : ∀ (b' : Being) (c : Addr) (u : Duration) (x : Sub), b'.enterprise = some ent → b'.version = some v →
      b'.msg = some m → tokenMembership b' c u [ctl] = .ok x → validateUnlocking m.gov u = .ok () ∧
        x = .inst 4 (some ent) v.tokenStaking (.token ent c u [ctl]) := by
    intro b' c u x e1 e2 e3 hx
    simp only [tokenMembership, bind_ok_iff, need_ok_iff, pure_ok_iff] at hx
    obtain ⟨_, he, _, hv, _, hmm, y, hu, rfl⟩ := hx
    rw [e1] at he; rw [e2] at hv; rw [e3] at hmm
    cases he; cases hv; cases hmm; cases y
    exact ⟨hu, rfl⟩
  have hnft : ∀ (b' : Being) (c : NftContract) (u : Duration) (x : Sub), b'.enterprise = some ent → b'.version = some v →
      b'.msg = some m → nftMembership b' c u [ctl] = .ok x → validateUnlocking m.gov u = .ok () ∧
        x = .inst 4 (some ent) v.nftStaking (.nft ent c u [ctl]) := by
    intro b' c u x e1 e2 e3 hx
    simp only [nftMembership, bind_ok_iff, need_ok_iff, pure_ok_iff] at hx
    obtain ⟨_, he, _, hv, _, hmm, y, hu, rfl⟩ := hx
    rw [e1] at he; rw [e2] at hv; rw [e3] at hmm
    cases he; cases hv; cases hmm; cases y
    exact ⟨hu, rfl⟩
  have hmul : ∀ (w : List (Addr × Nat)) (x : Being × Sub), multisigMembership b w [ctl] 4 = .ok x →
      x = ({ b with weights := some w }, .inst 4 (some ent) v.multisig (.multisig ent w [ctl])) := by
    intro w x hx
    simp only [multisigMembership, bind_ok_iff, need_ok_iff, pure_ok_iff] at hx
    obtain ⟨_, he, _, hv, rfl⟩ := hx
    rw [h3] at he; rw [h2] at hv
    cases he; cases hv
    rfl
  cases hm : m.membership with
  | newDenom d u =>
    rw [hm] at h
    simp only [membership, denomMembership, bind_ok_iff, need_ok_iff, pure_ok_iff] at h
    obtain ⟨_, he, _, hv, _, hmm, x, hu, rfl⟩ := h
    rw [h3] at he; rw [h2] at hv; rw [h1] at hmm
    cases he; cases hv; cases hmm; cases x
    obtain ⟨mem, t2, hy, rfl⟩ := hx.store_inv (hstore _) hs0
    simp only [h5] at hy
    exact ⟨mem, _, l, some u, b.asset, b.nft, t2, .newDenom d u hm hu, hb _, hy, rfl⟩
  | importCw20 c u =>
    rw [hm] at h
    simp only [membership, importCw20, bind_ok_iff, need_ok_iff, ite_ok_iff, pure_ok_iff] at h
    obtain ⟨sup, hsup, h6, h7, x, hx', rfl⟩ := h
    obtain ⟨hu, rfl⟩ := htok _ _ _ _ h3 h2 h1 hx'
    obtain ⟨mem, t2, hy, rfl⟩ := hx.store_inv (hstore _) hs0
    simp only [h5] at hy
    refine ⟨mem, _, l, some u, b.asset, b.nft, t2, .importCw20 c u hm hu sup hsup (fun h0 => ?_), hb _, hy, rfl⟩
    cases hmi : e.minter c with
    | none => exact absurd ⟨h0, hmi⟩ h6
    | some a =>
      cases a with
      | none => exact absurd ⟨h0, hmi⟩ h7
      | some a => exact ⟨a, rfl⟩
  | newCw20 bal dao mint mark rest' u =>
    rw [hm] at h
    simp only [membership, newCw20, bind_ok_iff, need_ok_iff, ite_ok_iff, pure_ok_iff] at h
    obtain ⟨h6, h7, h8, _, he, rfl⟩ := h
    rw [h3] at he; cases he
    obtain ⟨tok, s1, subs, s2, t1, t2, hr, hx1, hx2, rfl⟩ := hx.inst_inv
    change replyCw20 s0 tok = _ at hr
    simp only [replyCw20, bind_ok_iff, need_ok_iff, pure_ok_iff] at hr
    obtain ⟨b1, hb1, u1, hu1, c1, hc1, x, hx', hr'⟩ := hr
    rw [hs0] at hb1; cases hb1
    cases hu1
    simp only at hc1
    rw [h4] at hc1; cases hc1
    obtain ⟨hu, rfl⟩ := htok _ _ _ _ h3 h2 h1 hx'
    cases hr'
    obtain ⟨mem, t3, hy, rfl⟩ := hx1.store_inv (hstore _) rfl
    obtain ⟨rfl, rfl⟩ := hy.nil_inv
    refine ⟨mem, _, l, some u, some tok, b.nft, t2, .newCw20 bal dao mint mark rest' u hm hu h6 ?_ ?_ tok, hb _, ?_, rfl⟩
    · intro y hy h0; exact h7 ⟨y, hy, h0⟩
    · by_cases hbal : bal = []
      · exact Or.inr (fun h => h8 ⟨hbal, h⟩)
      · exact Or.inl hbal
    · rw [← h5]; exact hx2
  | importCw721 c u =>
    rw [hm] at h
    simp only [membership, importCw721, bind_ok_iff, ite_ok_iff, pure_ok_iff] at h
    obtain ⟨h6, x, hx', rfl⟩ := h
    obtain ⟨hu, rfl⟩ := hnft _ _ _ _ h3 h2 h1 hx'
    obtain ⟨mem, t2, hy, rfl⟩ := hx.store_inv (hstore _) hs0
    simp only [h5] at hy
    exact ⟨mem, _, l, some u, b.asset, b.nft, t2, .importCw721 c u hm hu (by simpa using h6), hb _, hy, rfl⟩
  | newCw721 minter rest' u =>
    rw [hm] at h
    simp only [membership, newCw721, bind_ok_iff, need_ok_iff, pure_ok_iff] at h
    obtain ⟨_, he, rfl⟩ := h
    rw [h3] at he; cases he
    obtain ⟨tok, s1, subs, s2, t1, t2, hr, hx1, hx2, rfl⟩ := hx.inst_inv
    change replyCw721 s0 tok = _ at hr
    simp only [replyCw721, bind_ok_iff, need_ok_iff, pure_ok_iff] at hr
    obtain ⟨b1, hb1, u1, hu1, c1, hc1, x, hx', hr'⟩ := hr
    rw [hs0] at hb1; cases hb1
    cases hu1
    simp only at hc1
    rw [h4] at hc1; cases hc1
    obtain ⟨hu, rfl⟩ := hnft _ _ _ _ h3 h2 h1 hx'
    cases hr'
    obtain ⟨mem, t3, hy, rfl⟩ := hx1.store_inv (hstore _) rfl
    obtain ⟨rfl, rfl⟩ := hy.nil_inv
    refine ⟨mem, _, l, some u, b.asset, some tok, t2, .newCw721 minter rest' u hm hu tok, hb _, ?_, rfl⟩
    rw [← h5]; exact hx2
  | newIcs721 p c u =>
    rw [hm] at h
    simp only [membership, importIcs721, bind_ok_iff, pure_ok_iff] at h
    obtain ⟨x, hx', rfl⟩ := h
    obtain ⟨hu, rfl⟩ := hnft _ _ _ _ h3 h2 h1 hx'
    obtain ⟨mem, t2, hy, rfl⟩ := hx.store_inv (hstore _) hs0
    simp only [h5] at hy
    exact ⟨mem, _, l, some u, b.asset, b.nft, t2, .newIcs721 p c u hm hu, hb _, hy, rfl⟩
  | importCw3 c =>
    rw [hm] at h
    simp only [membership, importCw3, bind_ok_iff, need_ok_iff, ite_ok_iff] at h
    obtain ⟨_, _, x, hl, h0, hr⟩ := h
    have := hmul _ _ hr
    subst this
    obtain ⟨mem, t2, hy, rfl⟩ := hx.store_inv (hstore _) hs0
    exact ⟨mem, _, x.1, b.unlocking, b.asset, b.nft, t2, .importCw3 c hm x hl h0, rfl, hy, rfl⟩
  | newMultisig w =>
    rw [hm] at h
    simp only [membership, ite_ok_iff] at h
    obtain ⟨h0, hr⟩ := h
    have := hmul _ _ hr
    subst this
    obtain ⟨mem, t2, hy, rfl⟩ := hx.store_inv (hstore _) hs0
    exact ⟨mem, _, w, b.unlocking, b.asset, b.nft, t2, .newMultisig w hm h0, rfl, hy, rfl⟩

/-! ### The whole creation -/

/-- The version that a creation uses: the latest, or the one asked for. -/
def Uses (e : Env) (s : State) (version : Option Version) (v : Info) : Prop :=
  ∃ r, e.registry s.config.versioning = some r ∧
    match version with
    | none => Versioning.queryLatest r = .ok v
    | some x => Versioning.queryVersion r x = .ok v

/-- The contracts of a new DAO. -/
structure Made where
  enterprise : Addr
  comps : Components

/-- Everything a creation does, in order. `seg` is what is done for the membership, `w` the initial weights of the
distributor. -/
def creation (e : Env) (s : State) (m : CreateDao) (v : Info) (d : Made) (seg : Trace) (w : List (Addr × Nat)) : Trace :=
  let c := d.comps
  let ent := d.enterprise
  [(.inst 1 (some e.self) v.enterprise
      (.enterprise m.metadata e.self s.config.versioning (daoType m.membership) v.version), some ent),
   (.updateAdmin ent ent, none),
   (.inst 8 (some ent) v.controller (.controller ent (daoType m.membership) m.gov m.council m.treasuries),
      some c.controller),
   (.inst 7 (some ent) v.governance (.governance c.controller), some c.governance),
   (.inst 5 (some ent) v.multisig (.multisig ent (councilWeights m) [c.controller]), some c.council),
   (.inst 9 (some ent) v.outposts (.outposts ent), some c.outposts),
   (.inst 10 (some ent) v.treasury (.treasury c.controller (m.assets.getD []) (m.nfts.getD [])), some c.treasury)]
  ++ seg ++
  [(.inst 6 (some ent) v.distributor (.distributor c.controller ent w m.minWeight), some c.distributor)]
  ++ (attestationSubs m v).map (fun x => (x, c.attestation)) ++
  [(.finalizeSelf, none), (.finalize ent c, none)]
  ++ (treasurySubs m c.outposts c.controller).map (fun x => (x, none))

theorem treasurySubs_run {e : Env} {s s' : State} {m : CreateDao} {o c : Addr} {t : Trace}
    (h : Exec e s (treasurySubs m o c) s' t) : s' = s ∧ t = (treasurySubs m o c).map (fun x => (x, none)) := by
  unfold treasurySubs at h ⊢
  split at h
  · split at h
    · rename_i hl
      obtain ⟨rfl, rfl⟩ := h.nil_inv
      simp [hl]
    · rename_i hl
      cases h with
      | fund h =>
        cases h with
        | deployInitial h =>
          obtain ⟨rfl, rfl⟩ := h.nil_inv
          simp [hl]
  · obtain ⟨rfl, rfl⟩ := h.nil_inv
    exact ⟨rfl, rfl⟩

theorem createDao_ok_iff {e : Env} {s : State} {m : CreateDao} {version : Option Version} {r : State × List Sub} :
    createDao e s m version = .ok r ↔ ∃ v, Uses e s version v ∧ r = createWith e s m v := by
  unfold createDao Uses
  simp only [bind_ok_iff, need_ok_iff]
  constructor
  · rintro ⟨x, hx, h⟩
    cases version with
    | none =>
      cases hq : Versioning.queryLatest x with
      | error _ => simp only [hq] at h; cases h
      | ok v => simp only [hq] at h; cases h; exact ⟨v, ⟨x, hx, hq⟩, rfl⟩
    | some y =>
      cases hq : Versioning.queryVersion x y with
      | error _ => simp only [hq] at h; cases h
      | ok v => simp only [hq] at h; cases h; exact ⟨v, ⟨x, hx, hq⟩, rfl⟩
  · rintro ⟨v, ⟨x, hx, hv⟩, rfl⟩
    refine ⟨x, hx, ?_⟩
    cases version with
    | none => simp only at hv; simp only [hv]
    | some y => simp only at hv; simp only [hv]

/-- A creation that goes through does exactly this. -/
theorem creation_run {e : Env} {s s1 s' : State} {m : CreateDao} {version : Option Version} {subs : List Sub} {t : Trace}
    (hc : createDao e s m version = .ok (s1, subs)) (h : Exec e s1 subs s' t) :
    ∃ v d seg w, Uses e s version v ∧
      Membered e s m v d.enterprise d.comps.controller d.comps.treasury (councilWeights m) d.comps.membership seg w ∧
      (m.attestation.isSome = d.comps.attestation.isSome) ∧
      t = creation e s m v d seg w ∧
      s' = { s with counter := wadd64 s.counter 1, daos := s.daos.set s.counter d.comps.treasury, being := some {} } := by
  obtain ⟨v, hv, hcr⟩ := createDao_ok_iff.1 hc
  simp only [createWith, Prod.mk.injEq] at hcr
  obtain ⟨rfl, rfl⟩ := hcr
  -- the enterprise contract
  obtain ⟨ent, s1, subs, s2, t1, t2, hr, hx1, hx2, rfl⟩ := h.inst_inv
  obtain ⟨rfl, rfl⟩ := hx2.nil_inv
  change replyEnterprise _ ent = _ at hr
  simp only [replyEnterprise, bind_ok_iff, need_ok_iff, pure_ok_iff] at hr
  obtain ⟨_, h1, _, h2, _, h3, _, h4, h5⟩ := hr
  cases h1; cases h2; cases h3; cases h4; cases h5
  obtain ⟨t1, hy1, rfl⟩ := hx1.updateAdmin_inv
  -- the controller
  obtain ⟨ctl, s1, subs, s2, t1, t2, hr, hz1, hz2, rfl⟩ := hy1.inst_inv
  obtain ⟨rfl, rfl⟩ := hz2.nil_inv
  change replyController _ ctl = _ at hr
  simp only [replyController, multisigMembership, bind_ok_iff, need_ok_iff, pure_ok_iff] at hr
  obtain ⟨_, h1, _, h2, _, h3, _, h4, _, ⟨_, h5, _, h6, rfl⟩, h7⟩ := hr
  cases h1; cases h2; cases h3; cases h4; cases h5; cases h6; cases h7
  simp only [List.cons_append, List.nil_append] at hz1
  -- governance, council, outposts
  obtain ⟨gov, t1, ha1, rfl⟩ := hz1.store_inv (f := fun addr b => { b with governance := some addr }) (fun _ => rfl) rfl
  obtain ⟨cou, t1, ha2, rfl⟩ := ha1.store_inv (f := fun addr b => { b with council := some addr }) (fun _ => rfl) rfl
  obtain ⟨out, t1, ha3, rfl⟩ := ha2.store_inv (f := fun addr b => { b with outposts := some addr }) (fun _ => rfl) rfl
  -- the treasury
  obtain ⟨tre, s1, subs, s3, t3, t4, hr, hb3, hx4, rfl⟩ := ha3.inst_inv
  change replyTreasury e _ tre = _ at hr
  simp only [replyTreasury, bind_ok_iff, need_ok_iff, pure_ok_iff] at hr
  obtain ⟨_, h1, _, h2, _, h3, r, h4, _, h5, _, h6, h7⟩ := hr
  cases h1; cases h2; cases h3; cases h7
  obtain ⟨mem, seg, w, u, a, n, t5, hmem, hr1, hb4, rfl⟩ := member_run rfl rfl rfl rfl rfl h4 rfl hb3
  rw [hr1] at h5 h6 hb4
  cases h5; cases h6
  obtain ⟨dis, t5, hb5, rfl⟩ := hb4.store_inv (f := fun addr b => { b with distributor := some addr }) (fun _ => rfl) rfl
  obtain ⟨rfl, rfl⟩ := hb5.nil_inv
  -- the attestation, and the end
  have key : ∃ att : Option Addr, m.attestation.isSome = att.isSome ∧ ∃ t6,
      t4 = (attestationSubs m v).map (fun x => (x, att)) ++ t6 ∧
      Exec e { s with
        counter := wadd64 s.counter 1, daos := s.daos.set s.counter tre, being := some {
          msg := some m, version := some v, asset := a, nft := n, enterprise := some ent, weights := some w,
          type := some (daoType m.membership), unlocking := u, membership := some mem, council := some cou,
          distributor := some dis, governance := some gov, controller := some ctl, outposts := some out,
          treasury := some tre, attestation := att } } [.finalizeSelf] s' t6 := by
    unfold attestationSubs at hx4 ⊢
    cases hatt : m.attestation with
    | none =>
      rw [hatt] at hx4
      exact ⟨none, rfl, t4, rfl, hx4⟩
    | some text =>
      rw [hatt] at hx4
      simp only [List.cons_append, List.nil_append] at hx4
      obtain ⟨att, t6, hx4', rfl⟩ := hx4.store_inv (f := fun addr b => { b with attestation := some addr })
        (fun _ => rfl) rfl
      exact ⟨some att, rfl, t6, rfl, hx4'⟩
  obtain ⟨att, hatt, t6, rfl, hx5⟩ := key
  obtain ⟨s1, subs, s2, t7, t8, hr, hx6, hx7, rfl⟩ := hx5.own_inv
  obtain ⟨rfl, rfl⟩ := hx7.nil_inv
  simp only [finalizeDao, ne_eq, not_true_eq_false, if_false, bind_ok_iff, need_ok_iff] at hr
  obtain ⟨_, h1, _, h2, _, h3, _, h4, _, h5, _, h6, _, h7, _, h8, _, h9, _, h10, h11⟩ := hr
  cases h1; cases h2; cases h3; cases h4; cases h5; cases h6; cases h7; cases h8; cases h9; cases h10; cases h11
  obtain ⟨t9, hx8, rfl⟩ := hx6.finalize_inv
  obtain ⟨rfl, rfl⟩ := treasurySubs_run hx8
  refine ⟨v, ⟨ent, ⟨gov, ctl, tre, out, dis, mem, cou, att⟩⟩, seg, w, hv, ?_, hatt, ?_, rfl⟩
  · cases hmem with
    | newDenom d u hm hu => exact .newDenom d u hm hu
    | importCw20 c u hm hu a b c' => exact .importCw20 c u hm hu a b c'
    | newCw20 bal dao mint mark rest u hm hu a b c tok => exact .newCw20 bal dao mint mark rest u hm hu a b c tok
    | importCw721 c u hm hu a => exact .importCw721 c u hm hu a
    | newCw721 c r u hm hu a => exact .newCw721 c r u hm hu a
    | newIcs721 p c u hm hu => exact .newIcs721 p c u hm hu
    | importCw3 c hm r hr h0 => exact .importCw3 c hm r hr h0
    | newMultisig w hm h0 => exact .newMultisig w hm h0
  · simp [creation]

end Verif.Factory
