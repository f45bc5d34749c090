import Verif.Birth.Spec
import Verif.Controller.Lemmas2

/-!
# Helper lemmas about the chain during a creation
-/

set_option linter.unusedSimpArgs false

namespace Verif.Birth
open Verif
open Verif.Factory (Inst Sub Trace NftContract CreateDao Membered Made creation)
open Verif.Dao (Member)

/-- Everything on the first chain is on the second one. -/
def Le (c c' : Chain) : Prop := ∀ a k, c a = some k → c' a = some k

theorem Le.refl (c : Chain) : Le c c := fun _ _ h => h

theorem Le.trans {c c1 c2 : Chain} (h : Le c c1) (h1 : Le c1 c2) : Le c c2 := fun a k hk => h1 a k (h a k hk)

theorem put_same (c : Chain) (a : Addr) (k : Contract) : c.put a k a = some k := by simp [Chain.put]

theorem put_ne {c : Chain} {a x : Addr} {k : Contract} (h : x ≠ a) : c.put a k x = c x := by simp [Chain.put, h]

theorem le_put {c : Chain} {a : Addr} {k : Contract} (h : c a = none) : Le c (c.put a k) := by
  intro x y hx
  rw [put_ne (by rintro rfl; rw [h] at hx; cases hx)]
  exact hx

theorem Plays.inst_inv {r : Reading} {b : Block} {f : Addr} {c c' : Chain} {id code : Nat} {admin : Option Addr}
    {m : Inst} {o : Option Addr} {t : Trace} (h : Plays r b f c ((.inst id admin code m, o) :: t) c') :
    ∃ a k, o = some a ∧ c a = none ∧ Starts r b m k ∧ Plays r b f (c.put a k) t c' := by
  cases h with
  | inst free h ht => exact ⟨_, _, rfl, free, h, ht⟩

/-- A membership contract as instantiated for a new DAO with the controller at `ctl`. -/
def Fresh (ctl : Addr) (b : Block) : Member → Prop
  | .staking _ s => ∃ asset u, s = Staking.init b asset u [ctl] [] []
  | .nft s => ∃ nft u, s = Nft.init b nft u [ctl] [] []
  | .multisig s => ∃ l, Multisig.init b (some l) [ctl] [] [] = .ok s

theorem lists_of_init {b : Block} {l : List (Addr × Nat)} {hooks : List Addr} {z : Members}
    (h : Multisig.init b (some l) hooks [] [] = .ok z) : (l.map (·.1)).Nodup ∧ Lists l z := by
  obtain ⟨hd, hs⟩ := (Multisig.init_ok h).1 _ rfl
  refine ⟨hd, fun u n hu => ?_, fun u hu => ?_⟩ <;> rw [hs]
  · show ((Multisig.setAll _ l).weights.get u).getD 0 = _
    rw [Multisig.setAll_get_in _ _ hd u n hu]
    rfl
  · show ((Multisig.setAll _ l).weights.get u).getD 0 = _
    rw [Multisig.setAll_get_notin _ _ u (fun q hq hn => hu (List.mem_map.2 ⟨q, hq, hn⟩))]
    rfl

theorem Begins.mono {e : Factory.Env} {f g : Addr → Prop} (hfg : ∀ a, f a → g a) {m : Factory.Membership} {x : Member}
    (h : Begins e f m x) : Begins e g m x := by
  unfold Begins at h ⊢
  split at h
  · exact h
  · exact h
  · exact ⟨hfg _ h.1, h.2⟩
  · exact h
  · obtain ⟨⟨c, h1, h2⟩, h3⟩ := h
    exact ⟨⟨c, h1, hfg _ h2⟩, h3⟩
  · exact h
  · exact h
  · exact h
  · exact h

/-- The messages of the membership leave the membership contract on the chain. -/
theorem seg_plays {e : Factory.Env} {s : Factory.State} {m : CreateDao} {v : Versioning.Info} {ent ctl tre mem : Addr}
    {l w : List (Addr × Nat)} {seg t : Trace} (hm : Membered e s m v ent ctl tre l mem seg w) {r : Reading} {b : Block}
    {f : Addr} {c c' : Chain} (h : Plays r b f c (seg ++ t) c') :
    ∃ c1 x, Plays r b f c1 t c' ∧ c mem = none ∧ c1 mem = some (.membership ent x) ∧ Le c c1 ∧
      x.daoType = kind (Factory.daoType m.membership) ∧ Fresh ctl b x ∧ Begins e (fun a => c a = none) m.membership x := by
  have one : ∀ {c : Chain} {id code : Nat} {admin : Option Addr} {i : Inst} {k : Contract → Prop},
      (∀ y, Starts r b i y → k y) →
      Plays r b f c ((.inst id admin code i, some mem) :: t) c' →
      ∃ c1 y, Plays r b f c1 t c' ∧ c mem = none ∧ c1 mem = some y ∧ Le c c1 ∧ k y := by
    intro c id code admin i k hk h
    obtain ⟨a, y, ha, h1, h2, h3⟩ := h.inst_inv
    cases ha
    exact ⟨_, y, h3, h1, put_same _ _ _, le_put h1, hk y h2⟩
  cases hm with
  | newDenom d u hm hu =>
    obtain ⟨c1, y, h1, h2, h3, h4, x, rfl, h5, h6, h7⟩ := one (k := fun y => ∃ x, y = .membership ent x ∧
      x.daoType = .denom ∧ Fresh ctl b x ∧ Begins e (fun a => c a = none) (.newDenom d u) x)
      (fun y hy => by cases hy; exact ⟨_, rfl, rfl, ⟨_, _, rfl⟩, rfl, rfl, fun a => rfl⟩) h
    exact ⟨c1, x, h1, h2, h3, h4, by rw [hm]; exact h5, h6, by rw [hm]; exact h7⟩
  | importCw20 k u hm hu _ _ _ =>
    obtain ⟨c1, y, h1, h2, h3, h4, x, rfl, h5, h6, h7⟩ := one (k := fun y => ∃ x, y = .membership ent x ∧
      x.daoType = .token ∧ Fresh ctl b x ∧ Begins e (fun a => c a = none) (.importCw20 k u) x)
      (fun y hy => by cases hy; exact ⟨_, rfl, rfl, ⟨_, _, rfl⟩, rfl, rfl, fun a => rfl⟩) h
    exact ⟨c1, x, h1, h2, h3, h4, by rw [hm]; exact h5, h6, by rw [hm]; exact h7⟩
  | newCw20 bal dao mint mark rest u hm hu _ _ _ tok =>
    obtain ⟨a, y, ha, g1, g2, g3⟩ := Plays.inst_inv h
    cases ha
    obtain ⟨c1, y, h1, h2, h3, h4, x, rfl, h5, h6, h7⟩ := one (k := fun y => ∃ x, y = .membership ent x ∧
      x.daoType = .token ∧ Fresh ctl b x ∧ Begins e (fun a => c a = none) (.newCw20 bal dao mint mark rest u) x)
      (fun y hy => by cases hy; exact ⟨_, rfl, rfl, ⟨_, _, rfl⟩, g1, rfl, fun a => rfl⟩) g3
    refine ⟨c1, x, h1, ?_, h3, (le_put g1).trans h4, by rw [hm]; exact h5, h6, by rw [hm]; exact h7⟩
    by_cases hn : mem = tok
    · subst hn; exact g1
    · rwa [put_ne hn] at h2
  | importCw721 k u hm hu _ =>
    obtain ⟨c1, y, h1, h2, h3, h4, x, rfl, h5, h6, h7⟩ := one (k := fun y => ∃ x, y = .membership ent x ∧
      x.daoType = .nft ∧ Fresh ctl b x ∧ Begins e (fun a => c a = none) (.importCw721 k u) x)
      (fun y hy => by cases hy; exact ⟨_, rfl, rfl, ⟨_, _, rfl⟩, rfl, rfl, fun a => rfl⟩) h
    exact ⟨c1, x, h1, h2, h3, h4, by rw [hm]; exact h5, h6, by rw [hm]; exact h7⟩
  | newCw721 minter rest u hm hu tok =>
    obtain ⟨a, y, ha, g1, g2, g3⟩ := Plays.inst_inv h
    cases ha
    obtain ⟨c1, y, h1, h2, h3, h4, x, rfl, h5, h6, h7⟩ := one (k := fun y => ∃ x, y = .membership ent x ∧
      x.daoType = .nft ∧ Fresh ctl b x ∧ Begins e (fun a => c a = none) (.newCw721 minter rest u) x)
      (fun y hy => by cases hy; exact ⟨_, rfl, rfl, ⟨_, _, rfl⟩, ⟨_, rfl, g1⟩, rfl, fun a => rfl⟩) g3
    refine ⟨c1, x, h1, ?_, h3, (le_put g1).trans h4, by rw [hm]; exact h5, h6, by rw [hm]; exact h7⟩
    by_cases hn : mem = tok
    · subst hn; exact g1
    · rwa [put_ne hn] at h2
  | newIcs721 p k u hm hu =>
    obtain ⟨c1, y, h1, h2, h3, h4, x, rfl, h5, h6, h7⟩ := one (k := fun y => ∃ x, y = .membership ent x ∧
      x.daoType = .nft ∧ Fresh ctl b x ∧ Begins e (fun a => c a = none) (.newIcs721 p k u) x)
      (fun y hy => by cases hy; exact ⟨_, rfl, rfl, ⟨_, _, rfl⟩, rfl, rfl, fun a => rfl⟩) h
    exact ⟨c1, x, h1, h2, h3, h4, by rw [hm]; exact h5, h6, by rw [hm]; exact h7⟩
  | importCw3 k hm q hq h0 =>
    obtain ⟨c1, y, h1, h2, h3, h4, x, rfl, h5, h6, h7⟩ := one (k := fun y => ∃ x, y = .membership ent x ∧
      x.daoType = .multisig ∧ Fresh ctl b x ∧ Begins e (fun a => c a = none) (.importCw3 k) x)
      (fun y hy => by
        cases hy with
        | multisig hy =>
          refine ⟨_, rfl, rfl, ⟨_, hy⟩, fun M n ha u => ?_⟩
          obtain ⟨ps, hps, hflat⟩ := Factory.answers_reads ha
          have hr := (Factory.importLoop_reads (fun x => ha.2 x 100) hps e.gas [] 0).1 _ hq
          rw [hflat] at hr
          obtain ⟨_, k1, k2⟩ := lists_of_init hy
          have hr1 : q.1 = M.entries := by rw [hr]; rfl
          rw [hr1] at k1 k2
          cases hg : M.get u with
          | some n => exact k1 u n (Map.get_eq_some_iff.1 hg)
          | none =>
            refine k2 u (fun hu => ?_)
            have : u ∈ M.keys := hu
            obtain ⟨x, hx⟩ := Map.mem_keys.1 this
            rw [hg] at hx; cases hx) h
    exact ⟨c1, x, h1, h2, h3, h4, by rw [hm]; exact h5, h6, by rw [hm]; exact h7⟩
  | newMultisig w hm h0 =>
    obtain ⟨c1, y, h1, h2, h3, h4, x, rfl, h5, h6, h7⟩ := one (k := fun y => ∃ x, y = .membership ent x ∧
      x.daoType = .multisig ∧ Fresh ctl b x ∧ Begins e (fun a => c a = none) (.newMultisig w) x)
      (fun y hy => by cases hy with | multisig hy => exact ⟨_, rfl, rfl, ⟨_, hy⟩, lists_of_init hy⟩) h
    exact ⟨c1, x, h1, h2, h3, h4, by rw [hm]; exact h5, h6, by rw [hm]; exact h7⟩

theorem attestation_plays {m : CreateDao} {v : Versioning.Info} {o : Option Addr} {t : Trace} {r : Reading} {b : Block}
    {f : Addr} {c c' : Chain}
    (h : Plays r b f c ((Factory.attestationSubs m v).map (fun x => (x, o)) ++ t) c') :
    ∃ c1, Plays r b f c1 t c' ∧ Le c c1 := by
  unfold Factory.attestationSubs at h
  cases hm : m.attestation with
  | none => rw [hm] at h; exact ⟨c, h, .refl c⟩
  | some n =>
    rw [hm] at h
    obtain ⟨a, k, ha, h1, h2, h3⟩ := Plays.inst_inv h
    exact ⟨_, h3, le_put h1⟩

/-- The contracts of a new DAO on the chain, once all of them are instantiated and before the enterprise contract knows
them. -/
structure Placed (r : Reading) (b : Block) (f : Addr) (s : Factory.State) (m : CreateDao) (v : Versioning.Info) (d : Made)
    (w : List (Addr × Nat)) (c0 c : Chain) (x : Controller.State) (y : Member) (z : Members) (q : Treasury.State)
    (u : Distributor.State) : Prop where
  le : Le c0 c
  new : c0 d.enterprise = none ∧ c0 d.comps.controller = none ∧ c0 d.comps.governance = none ∧
    c0 d.comps.council = none ∧ c0 d.comps.outposts = none ∧ c0 d.comps.treasury = none ∧ c0 d.comps.membership = none ∧
    c0 d.comps.distributor = none
  ent : c d.enterprise = some (.enterprise (Enterprise.init none b.time f s.config.versioning (r.metadata m.metadata)
    v.version (Factory.daoType m.membership)))
  ctl : c d.comps.controller = some (.controller x)
  ctlInit : Controller.init b d.enterprise (kind (Factory.daoType m.membership)) m.gov m.council []
    (m.treasuries.getD []) = .ok x
  gov : c d.comps.governance = some (.governance (Gov.init d.comps.controller))
  council : c d.comps.council = some (.membership d.enterprise (.multisig z))
  councilInit : Multisig.init b (some (Factory.councilWeights m)) [d.comps.controller] [] [] = .ok z
  out : c d.comps.outposts = some (.outposts (Outposts.init d.enterprise))
  tre : c d.comps.treasury = some (.treasury q)
  treInit : Treasury.init d.comps.controller ((m.assets.getD []).map r.asset) (m.nfts.getD []) = .ok q
  mem : c d.comps.membership = some (.membership d.enterprise y)
  memType : y.daoType = kind (Factory.daoType m.membership)
  memFresh : Fresh d.comps.controller b y
  both : d.comps.membership ≠ d.comps.council
  dist : c d.comps.distributor = some (.distributor u)
  distInit : Distributor.init d.comps.controller m.minWeight w = .ok u

theorem none_of_le {c c1 : Chain} (h : Le c c1) {a : Addr} (h1 : c1 a = none) : c a = none := by
  cases hc : c a with
  | none => rfl
  | some k => rw [h a k hc] at h1; cases h1

/-- The instantiations of a creation. -/
theorem creation_plays {e : Factory.Env} {s : Factory.State} {m : CreateDao} {v : Versioning.Info} {d : Made} {seg : Trace}
    {l w : List (Addr × Nat)}
    (hm : Membered e s m v d.enterprise d.comps.controller d.comps.treasury l d.comps.membership seg w)
    {r : Reading} {b : Block} {c c' : Chain} (h : Plays r b e.self c (creation e s m v d seg w) c') :
    ∃ c1 x y z q u, Placed r b e.self s m v d w c c1 x y z q u ∧ Begins e (fun a => c a = none) m.membership y ∧
      Plays r b e.self c1 ([(.finalizeSelf, none), (.finalize d.enterprise d.comps, none)] ++
        (Factory.treasurySubs m d.comps.outposts d.comps.controller).map (fun x => (x, none))) c' := by
  unfold creation at h
  simp only [List.append_assoc, List.cons_append, List.nil_append] at h
  obtain ⟨a, k1, ha, f1, s1, h⟩ := h.inst_inv
  cases ha; cases s1
  cases h with | updateAdmin h =>
  obtain ⟨a, k2, ha, f2, s2, h⟩ := h.inst_inv
  cases ha
  cases s2 with | @controller _ _ _ _ _ x hx =>
  obtain ⟨a, k3, ha, f3, s3, h⟩ := h.inst_inv
  cases ha; cases s3
  obtain ⟨a, k4, ha, f4, s4, h⟩ := h.inst_inv
  cases ha
  cases s4 with | @multisig _ _ _ z hz =>
  obtain ⟨a, k5, ha, f5, s5, h⟩ := h.inst_inv
  cases ha; cases s5
  obtain ⟨a, k6, ha, f6, s6, h⟩ := h.inst_inv
  cases ha
  cases s6 with | @treasury _ _ _ q hq =>
  obtain ⟨c7, y, h, f7, m7, l7, t7, r7, g7⟩ := seg_plays hm h
  obtain ⟨a, k8, ha, f8, s8, h⟩ := h.inst_inv
  cases ha
  cases s8 with | @distributor _ _ _ _ u hu =>
  obtain ⟨c9, h, l9⟩ := attestation_plays h
  have e6 := (le_put f6).trans (l7.trans ((le_put f8).trans l9))
  have e5 := (le_put f5).trans e6
  have e4 := (le_put f4).trans e5
  have e3 := (le_put f3).trans e4
  have e2 := (le_put f2).trans e3
  have e1 := (le_put f1).trans e2
  have b2 := none_of_le (le_put f1) f2
  have b3 := none_of_le (le_put f1) (none_of_le (le_put f2) f3)
  have b4 := none_of_le (le_put f1) (none_of_le (le_put f2) (none_of_le (le_put f3) f4))
  have b5 := none_of_le (le_put f1) (none_of_le (le_put f2) (none_of_le (le_put f3) (none_of_le (le_put f4) f5)))
  have b6 := none_of_le (le_put f1) (none_of_le (le_put f2) (none_of_le (le_put f3) (none_of_le (le_put f4)
    (none_of_le (le_put f5) f6))))
  have b7 := none_of_le (le_put f1) (none_of_le (le_put f2) (none_of_le (le_put f3) (none_of_le (le_put f4)
    (none_of_le (le_put f5) (none_of_le (le_put f6) f7)))))
  have b8 := none_of_le (le_put f1) (none_of_le (le_put f2) (none_of_le (le_put f3) (none_of_le (le_put f4)
    (none_of_le (le_put f5) (none_of_le (le_put f6) (none_of_le l7 f8))))))
  refine ⟨c9, x, y, z, q, u, ⟨e1, ⟨f1, b2, b3, b4, b5, b6, b7, b8⟩, e2 _ _ (put_same _ _ _), e3 _ _ (put_same _ _ _), hx, e4 _ _ (put_same _ _ _),
    e5 _ _ (put_same _ _ _), hz, e6 _ _ (put_same _ _ _), (l7.trans ((le_put f8).trans l9)) _ _ (put_same _ _ _), hq,
    ((le_put f8).trans l9) _ _ m7, t7, r7, ?_, l9 _ _ (put_same _ _ _), hu⟩, g7.mono (fun a ha => none_of_le (le_put f1) (none_of_le (le_put f2)
      (none_of_le (le_put f3) (none_of_le (le_put f4) (none_of_le (le_put f5) (none_of_le (le_put f6) ha)))))), h⟩
  intro hn
  rw [hn] at f7
  have h4 := none_of_le (le_put f5) (none_of_le (le_put f6) f7)
  rw [put_same] at h4
  cases h4

theorem ne_of {c : Chain} {a a' : Addr} {k k' : Contract} (h : c a = some k) (h' : c a' = some k') (hk : k ≠ k') : a ≠ a' := by
  rintro rfl
  rw [h] at h'
  exact hk (Option.some.inj h')

theorem fresh_of {ctl : Addr} {b : Block} {y : Member} (h : Fresh ctl b y) (c : Dao.Cfg) (hc : c.self = ctl) :
    y.fresh c b := by
  subst hc
  cases y <;> exact h

/-- The chain after a creation, in terms of what was instantiated. -/
structure Ended (r : Reading) (b : Block) (f : Addr) (s : Factory.State) (m : CreateDao) (v : Versioning.Info) (d : Made)
    (w : List (Addr × Nat)) (c0 c : Chain) (x : Controller.State) (y : Member) (z : Members) (q : Treasury.State)
    (u : Distributor.State) (x' : Controller.State) (o : Outposts.State) : Prop where
  old : ∀ a, c0 a ≠ none → c a = c0 a
  ent : c d.enterprise = some (.enterprise { Enterprise.init none b.time f s.config.versioning (r.metadata m.metadata)
    v.version (Factory.daoType m.membership) with comps := some d.comps, finalized := true })
  ctl : c d.comps.controller = some (.controller x')
  ctl' : x' = x ∨ x' = { x with treasuries := none }
  gov : c d.comps.governance = some (.governance (Gov.init d.comps.controller))
  council : c d.comps.council = some (.membership d.enterprise (.multisig z))
  out : c d.comps.outposts = some (.outposts o)
  out' : o.enterprise = d.enterprise
  tre : c d.comps.treasury = some (.treasury q)
  mem : c d.comps.membership = some (.membership d.enterprise y)
  dist : c d.comps.distributor = some (.distributor u)

theorem final_plays {r : Reading} {b : Block} {f : Addr} {s : Factory.State} {m : CreateDao} {v : Versioning.Info}
    {d : Made} {w : List (Addr × Nat)} {c0 c c' : Chain} {x : Controller.State} {y : Member} {z : Members}
    {q : Treasury.State} {u : Distributor.State} (hp : Placed r b f s m v d w c0 c x y z q u)
    (h : Plays r b f c ([(.finalizeSelf, none), (.finalize d.enterprise d.comps, none)] ++
        (Factory.treasurySubs m d.comps.outposts d.comps.controller).map (fun x => (x, none))) c') :
    ∃ x' o, Ended r b f s m v d w c0 c' x y z q u x' o := by
  simp only [List.cons_append, List.nil_append] at h
  cases h with | finalizeSelf h =>
  cases h with | finalize e he hs hf h =>
  rw [hp.ent] at hs
  cases hs
  simp only [Enterprise.finalize, Enterprise.init, ite_ok_iff, Bool.false_eq_true, not_false_eq_true, true_and,
    Except.ok.injEq] at hf
  obtain ⟨_, hf⟩ := hf
  obtain ⟨n1, n2, n3, n4, n5, n6, n7, n8⟩ := hp.new
  have old1 : ∀ a, c0 a ≠ none → c a = c0 a := by
    intro a ha
    cases hc : c0 a with
    | none => exact absurd hc ha
    | some k => exact hp.le a k hc
  have base : Ended r b f s m v d w c0 (c.put d.enterprise (.enterprise { Enterprise.init none b.time f
      s.config.versioning (r.metadata m.metadata) v.version (Factory.daoType m.membership) with
      comps := some d.comps, finalized := true })) x y z q u x (Outposts.init d.enterprise) := by
    refine ⟨fun a ha => ?_, put_same _ _ _, ?_, .inl rfl, ?_, ?_, ?_, rfl, ?_, ?_, ?_⟩
    · rw [put_ne (by rintro rfl; exact ha n1), old1 a ha]
    · rw [put_ne (ne_of hp.ctl hp.ent (by simp)), hp.ctl]
    · rw [put_ne (ne_of hp.gov hp.ent (by simp)), hp.gov]
    · rw [put_ne (ne_of hp.council hp.ent (by simp)), hp.council]
    · rw [put_ne (ne_of hp.out hp.ent (by simp)), hp.out]
    · rw [put_ne (ne_of hp.tre hp.ent (by simp)), hp.tre]
    · rw [put_ne (ne_of hp.mem hp.ent (by simp)), hp.mem]
    · rw [put_ne (ne_of hp.dist hp.ent (by simp)), hp.dist]
  rw [← hf] at h
  change Plays r b f (c.put d.enterprise (.enterprise { Enterprise.init none b.time f
      s.config.versioning (r.metadata m.metadata) v.version (Factory.daoType m.membership) with
      comps := some d.comps, finalized := true })) _ c' at h
  unfold Factory.treasurySubs at h
  have stop : ∀ {c1 : Chain} {x1 : Controller.State} {o1 : Outposts.State},
      Ended r b f s m v d w c0 c1 x y z q u x1 o1 → Plays r b f c1 [] c' →
      ∃ x' o, Ended r b f s m v d w c0 c' x y z q u x' o := by
    intro c1 x1 o1 h1 h2
    cases h2
    exact ⟨_, _, h1⟩
  generalize c.put d.enterprise (.enterprise { Enterprise.init none b.time f
      s.config.versioning (r.metadata m.metadata) v.version (Factory.daoType m.membership) with
      comps := some d.comps, finalized := true }) = c1 at base h
  cases hm : m.treasuries with
  | none => rw [hm] at h; exact stop base h
  | some l =>
    rw [hm] at h
    by_cases hl : l = []
    · simp only [hl, if_true] at h; exact stop base h
    · simp only [hl, if_false, List.map_cons, List.map_nil] at h
      cases h with | fund h =>
      cases h with | @deployInitial _ _ _ s1 s2 xx k o o' subs _ e' he' hs1 hd hx hk ho ho' h =>
      rw [base.ctl] at hs1
      cases hs1
      obtain ⟨_, _, hd⟩ := Controller.deployInitial_ok_iff.1 hd
      cases hd
      obtain ⟨_, _, hxi⟩ := Controller.init_ok hp.ctlInit
      have hxe : x.enterprise = d.enterprise := by rw [hxi]
      rw [hxe, base.ent] at hx
      cases hx
      cases hk
      rw [base.out] at ho
      cases ho
      have nco : d.comps.controller ≠ d.comps.outposts := ne_of base.ctl base.out (by simp)
      refine stop (x1 := { x with treasuries := none }) (o1 := o') ?_ h
      refine ⟨fun a ha => ?_, ?_, ?_, .inr rfl, ?_, ?_, put_same _ _ _, ho', ?_, ?_, ?_⟩
      · rw [put_ne (by rintro rfl; exact ha n5), put_ne (by rintro rfl; exact ha n2), base.old a ha]
      · rw [put_ne (ne_of base.ent base.out (by simp)), put_ne (ne_of base.ent base.ctl (by simp)), base.ent]
      · rw [put_ne nco, put_same]
      · rw [put_ne (ne_of base.gov base.out (by simp)), put_ne (ne_of base.gov base.ctl (by simp)), base.gov]
      · rw [put_ne (ne_of base.council base.out (by simp)), put_ne (ne_of base.council base.ctl (by simp)), base.council]
      · rw [put_ne (ne_of base.tre base.out (by simp)), put_ne (ne_of base.tre base.ctl (by simp)), base.tre]
      · rw [put_ne (ne_of base.mem base.out (by simp)), put_ne (ne_of base.mem base.ctl (by simp)), base.mem]
      · rw [put_ne (ne_of base.dist base.out (by simp)), put_ne (ne_of base.dist base.ctl (by simp)), base.dist]

end Verif.Birth
