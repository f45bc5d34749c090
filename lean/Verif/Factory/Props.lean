import Verif.Factory.Lemmas
import Verif.Multisig.Lemmas
import Verif.Distributor.Model
import Verif.Base.Paging

/-!
# The factory: properties C69, C70, C71, C76, C77, C78
-/

set_option linter.unusedSimpArgs false

namespace Verif.Factory
open Verif
open Verif.Staking (Duration)
open Verif.Versioning (Version Info)
open Verif.Enterprise (DaoType Components)
open Verif.Controller (GovConfig CouncilSpec)

/-! ### What is asked and what is done -/

/-- The kind of a DAO, by the membership asked for. -/
def kindOf : Membership → DaoType
  | .newDenom _ _ => .denom
  | .importCw20 _ _ => .token
  | .newCw20 _ _ _ _ _ _ => .token
  | .importCw721 _ _ => .nft
  | .newCw721 _ _ _ => .nft
  | .newIcs721 _ _ _ => .nft
  | .importCw3 _ => .multisig
  | .newMultisig _ => .multisig

theorem kindOf_eq (x : Membership) : kindOf x = daoType x := by cases x <;> rfl

/-- The code for the membership contract of a DAO, by the membership asked for. -/
def codeFor (v : Info) : Membership → Nat
  | .newDenom _ _ => v.denomStaking
  | .importCw20 _ _ => v.tokenStaking
  | .newCw20 _ _ _ _ _ _ => v.tokenStaking
  | .importCw721 _ _ => v.nftStaking
  | .newCw721 _ _ _ => v.nftStaking
  | .newIcs721 _ _ _ => v.nftStaking
  | .importCw3 _ => v.multisig
  | .newMultisig _ => v.multisig

/-- The request of a message that creates a DAO, with the version asked for. -/
def Msg.creates : Msg → Option (CreateDao × Option Version)
  | .createDao m => some (m, none)
  | .createDaoWithVersion m v => some (m, some v)
  | _ => none

/-- The addresses of the treasuries instantiated in a transaction. -/
def treasuries (t : Trace) : List Addr :=
  t.filterMap (fun x => match x with
    | (.inst _ _ _ (.treasury _ _ _), a) => a
    | _ => none)

/-- The messages with which the parts of a DAO are made known to its enterprise contract. -/
def finalizations (t : Trace) : List (Addr × Components) :=
  t.filterMap (fun x => match x.1 with
    | .finalize ent c => some (ent, c)
    | _ => none)

/-- The admins and initial weights of the funds distributors instantiated in a transaction, with their addresses. -/
def distributors (t : Trace) : List (List (Addr × Nat) × Option Addr) :=
  t.filterMap (fun x => match x with
    | (.inst _ _ _ (.distributor _ _ w _), a) => some (w, a)
    | _ => none)

/-! ### Helper lemmas -/

theorem Tx.create {e : Env} {s s' : State} {sender : Addr} {msg : Msg} {t : Trace} (h : Tx e s sender msg s' t)
    {m : CreateDao} {version : Option Version} (hm : msg.creates = some (m, version)) :
    ∃ v d seg w, Uses e s version v ∧
      Membered e s m v d.enterprise d.comps.controller d.comps.treasury (councilWeights m) d.comps.membership seg w ∧
      (m.attestation.isSome = d.comps.attestation.isSome) ∧
      t = creation e s m v d seg w ∧
      s' = { s with counter := wadd64 s.counter 1, daos := s.daos.set s.counter d.comps.treasury, being := some {} } := by
  cases h with
  | mk hs hx h =>
    cases msg with
    | createDao m' => cases hm; exact creation_run hx h
    | createDaoWithVersion m' v => cases hm; exact creation_run hx h
    | updateConfig a v c n => cases hm
    | finalizeDaoCreation => cases hm

theorem Tx.other {e : Env} {s s' : State} {sender : Addr} {msg : Msg} {t : Trace} (h : Tx e s sender msg s' t)
    (hm : msg.creates = none) : t = [] ∧ sender = s.config.admin ∧ ∃ a v c n, msg = .updateConfig a v c n ∧
      s' = { s with config := ⟨a.getD s.config.admin, v.getD s.config.versioning, c.getD s.config.cw20,
        n.getD s.config.cw721⟩ } := by
  cases h with
  | mk hs hx h =>
    cases msg with
    | createDao m' => cases hm
    | createDaoWithVersion m' v => cases hm
    | updateConfig a v c n =>
      simp only [exec, updateConfig, bind_ok_iff, ite_ok_iff, pure_ok_iff] at hx
      obtain ⟨_, ⟨h1, h2⟩, hx⟩ := hx
      cases h2
      cases hx
      obtain ⟨rfl, rfl⟩ := h.nil_inv
      exact ⟨rfl, (Classical.not_not.1 h1).symm, a, v, c, n, rfl, rfl⟩
    | finalizeDaoCreation => exact absurd (finalizeDao_ok hx) hs

theorem Membered.seg_treasuries {e : Env} {s : State} {m : CreateDao} {v : Info} {ent ctl tre mem : Addr}
    {l w : List (Addr × Nat)} {seg : Trace} (h : Membered e s m v ent ctl tre l mem seg w) :
    treasuries seg = [] ∧ finalizations seg = [] ∧ distributors seg = [] := by
  cases h <;> exact ⟨rfl, rfl, rfl⟩

theorem attestation_nothing (m : CreateDao) (v : Info) (a : Option Addr) :
    treasuries ((attestationSubs m v).map (fun x => (x, a))) = [] ∧
    finalizations ((attestationSubs m v).map (fun x => (x, a))) = [] ∧
    distributors ((attestationSubs m v).map (fun x => (x, a))) = [] := by
  unfold attestationSubs
  cases m.attestation <;> exact ⟨rfl, rfl, rfl⟩

theorem treasurySubs_nothing (m : CreateDao) (o c : Addr) :
    treasuries ((treasurySubs m o c).map (fun x => (x, none))) = [] ∧
    finalizations ((treasurySubs m o c).map (fun x => (x, none))) = [] ∧
    distributors ((treasurySubs m o c).map (fun x => (x, none))) = [] := by
  unfold treasurySubs
  cases m.treasuries with
  | none => exact ⟨rfl, rfl, rfl⟩
  | some l =>
    by_cases hl : l = []
    · simp only [hl, if_true]; exact ⟨rfl, rfl, rfl⟩
    · simp only [hl, if_false]; exact ⟨rfl, rfl, rfl⟩

/-- What a creation instantiates and finalizes. -/
theorem creation_reads {e : Env} {s : State} {m : CreateDao} {v : Info} {d : Made} {seg : Trace} {l w : List (Addr × Nat)}
    (h : Membered e s m v d.enterprise d.comps.controller d.comps.treasury l d.comps.membership seg w) :
    treasuries (creation e s m v d seg w) = [d.comps.treasury] ∧
    finalizations (creation e s m v d seg w) = [(d.enterprise, d.comps)] ∧
    distributors (creation e s m v d seg w) = [(w, some d.comps.distributor)] := by
  obtain ⟨h1, h2, h3⟩ := h.seg_treasuries
  obtain ⟨a1, a2, a3⟩ := attestation_nothing m v d.comps.attestation
  obtain ⟨b1, b2, b3⟩ := treasurySubs_nothing m d.comps.outposts d.comps.controller
  unfold treasuries finalizations distributors at *
  unfold creation
  simp only [List.filterMap_append]
  refine ⟨?_, ?_, ?_⟩
  · rw [h1, a1, b1]; rfl
  · rw [h2, a2, b2]; rfl
  · rw [h3, a3, b3]; rfl

/-! ## C69 -/

/-- The treasuries of the DAOs created in a history, in order of creation. -/
def created (l : List (Msg × Trace)) : List Addr := l.flatMap (fun x => treasuries x.2)

theorem getElem?_snoc {l : List Addr} {a b : Addr} {i : Nat} :
    (l ++ [a])[i]? = some b ↔ l[i]? = some b ∨ (i = l.length ∧ b = a) := by
  rw [List.getElem?_append]
  split
  · rename_i h
    constructor
    · exact Or.inl
    · rintro (h1 | ⟨rfl, _⟩)
      · exact h1
      · omega
  · rename_i h
    constructor
    · intro h1
      have hi : i - l.length < 1 := by
        have := (List.getElem?_eq_some_iff.1 h1).1
        simpa using this
      have hi' : i = l.length := by omega
      subst hi'
      simp at h1
      exact Or.inr ⟨rfl, h1.symm⟩
    · rintro (h1 | ⟨rfl, rfl⟩)
      · have := (List.getElem?_eq_some_iff.1 h1).1
        omega
      · simp

/-- The DAOs get the numbers 1, 2, 3, ... in the order of creation: each message that creates a DAO makes exactly one,
and DAO number `i` is the `i`-th one made. (Fewer than 2^64 - 1 DAOs.) -/
theorem C69_numbers (self : Addr) (config : Config) (a n : Option (List Nat)) (l : List (Msg × Trace)) (s : State)
    (h : Hist self (init config a n) l s) (hl : l.length < 2 ^ 64 - 1) :
    (created l).length = (l.filter (fun x => x.1.creates.isSome)).length ∧
    ∀ i dao, s.daos.get i = some dao ↔ 1 ≤ i ∧ (created l)[i - 1]? = some dao := by
  suffices H : s.counter = (created l).length + 1 ∧
      (created l).length = (l.filter (fun x => x.1.creates.isSome)).length ∧
      ∀ i dao, s.daos.get i = some dao ↔ 1 ≤ i ∧ (created l)[i - 1]? = some dao from H.2
  induction h with
  | nil => exact ⟨rfl, rfl, fun i dao => by simp [init, created]⟩
  | @step l s1 s2 e sender m t hist he ht ih =>
    rw [List.length_append, List.length_singleton] at hl
    obtain ⟨i1, i2, i3⟩ := ih (by omega)
    have hle : (created l).length ≤ l.length := by rw [i2]; exact List.length_filter_le _ _
    have hcr : created (l ++ [(m, t)]) = created l ++ treasuries t := by simp [created]
    rw [hcr, List.filter_append, List.length_append, List.length_append]
    cases hm : m.creates with
    | none =>
      obtain ⟨rfl, _, a, v, c, n, rfl, rfl⟩ := ht.other hm
      have ht0 : treasuries [] = [] := rfl
      have hf : ([(Msg.updateConfig a v c n, ([] : Trace))].filter (fun x => x.1.creates.isSome)) = [] := rfl
      rw [ht0, hf]
      simpa using ⟨i1, i2, i3⟩
    | some x =>
      obtain ⟨v, d, seg, w, _, hmem, _, rfl, rfl⟩ := ht.create (m := x.1) (version := x.2) hm
      have hf : ([(m, creation e s1 x.1 v d seg w)].filter (fun x => x.1.creates.isSome)).length = 1 := by
        simp [hm]
      rw [(creation_reads hmem).1, hf]
      refine ⟨?_, by rw [i2]; rfl, fun i dao => ?_⟩
      · show wadd64 s1.counter 1 = _
        rw [i1]
        unfold wadd64 M64
        rw [List.length_singleton]
        exact Nat.mod_eq_of_lt (by omega)
      · show (s1.daos.set s1.counter d.comps.treasury).get i = some dao ↔ _
        rw [getElem?_snoc, Map.get_set, i1]
        split
        · rename_i hi
          subst hi
          constructor
          · intro h; cases h; exact ⟨by omega, Or.inr ⟨by omega, rfl⟩⟩
          · rintro ⟨_, h | ⟨_, rfl⟩⟩
            · have := (List.getElem?_eq_some_iff.1 h).1
              omega
            · rfl
        · rename_i hi
          rw [i3]
          constructor
          · rintro ⟨h1, h2⟩; exact ⟨h1, Or.inl h2⟩
          · rintro ⟨h1, h2 | ⟨h2, _⟩⟩
            · exact ⟨h1, h2⟩
            · omega

/-- Reading page after page lists each DAO exactly once, in the order of numbers; and the reading ends. -/
theorem C69_paging (s : State) (limit : Option Nat) (hl : limit ≠ some 0) :
    (∃ ps, Reads (fun c => queryAllDaos s c limit) (·.1) none ps) ∧
    ∀ ps, Reads (fun c => queryAllDaos s c limit) (·.1) none ps →
      ps.flatten.Pairwise (fun x y => x.1 < y.1) ∧ ∀ i dao, (i, dao) ∈ ps.flatten ↔ s.daos.get i = some dao := by
  have hn : 0 < min (limit.getD 50) 100 := by
    cases limit with
    | none => decide
    | some n =>
      have : n ≠ 0 := fun h => hl (by rw [h])
      simp only [Option.getD_some]
      omega
  have hg : ∀ e ∈ s.daos.entries, (fun v : Nat => v) ((·.1) ((fun x : Nat × Addr => x) e)) = e.1 := fun e _ => rfl
  have hfun : (fun c => queryAllDaos s c limit) =
      fun c : Option Nat => (s.daos.page (c.map (fun v : Nat => v)) (min (limit.getD 50) 100)).map
        (fun x : Nat × Addr => x) := by
    funext c
    cases c <;> simp [queryAllDaos]
  rw [hfun]
  refine ⟨reads_page_exists (emb := fun v : Nat => v) hg hn none, fun ps hps => ?_⟩
  have hres := reads_page (emb := fun v : Nat => v) hg hn hps
  simp only [Option.map_none, afterL_none, List.map_id'] at hres
  rw [hres]
  exact ⟨s.daos.sorted, fun i dao => Map.get_eq_some_iff.symm⟩

/-! ## C70 -/

/-- A multisig DAO: the funds distributor starts with the very list of weights that the membership contract starts with.
Missing from C70: DAOs of other kinds with a council (`C70_council_witness`). -/
theorem C70_multisig_partial {e : Env} {s s' : State} {sender : Addr} {msg : Msg} {t : Trace}
    (h : Tx e s sender msg s' t) {m : CreateDao} {version : Option Version} (hm : msg.creates = some (m, version))
    (hk : kindOf m.membership = .multisig) :
    ∃ ent c w, finalizations t = [(ent, c)] ∧ distributors t = [(w, some c.distributor)] ∧
      ∃ id adm code hooks, (.inst id adm code (.multisig ent w hooks), some c.membership) ∈ t := by
  obtain ⟨v, d, seg, w, _, hmem, _, rfl, _⟩ := h.create hm
  obtain ⟨_, r2, r3⟩ := creation_reads hmem
  refine ⟨d.enterprise, d.comps, w, r2, r3, ?_⟩
  cases hmem with
  | importCw3 c hc r hr h0 => exact ⟨4, some d.enterprise, v.multisig, [d.comps.controller], by simp [creation]⟩
  | newMultisig w hc h0 => exact ⟨4, some d.enterprise, v.multisig, [d.comps.controller], by simp [creation]⟩
  | newDenom _ _ hc => rw [hc] at hk; cases hk
  | importCw20 _ _ hc => rw [hc] at hk; cases hk
  | newCw20 _ _ _ _ _ _ hc => rw [hc] at hk; cases hk
  | importCw721 _ _ hc => rw [hc] at hk; cases hk
  | newCw721 _ _ _ hc => rw [hc] at hk; cases hk
  | newIcs721 _ _ _ hc => rw [hc] at hk; cases hk

/-- A DAO of another kind: the membership contract starts without members, and the funds distributor starts with the
council, one each; so it starts without weights if there is no council. -/
theorem C70_staking_partial {e : Env} {s s' : State} {sender : Addr} {msg : Msg} {t : Trace}
    (h : Tx e s sender msg s' t) {m : CreateDao} {version : Option Version} (hm : msg.creates = some (m, version))
    (hk : kindOf m.membership ≠ .multisig) :
    ∃ dis, distributors t = [(((m.council.map (·.members)).getD []).map (fun u => (u, 1)), dis)] := by
  obtain ⟨v, d, seg, w, _, hmem, _, rfl, _⟩ := h.create hm
  obtain ⟨_, _, r3⟩ := creation_reads hmem
  refine ⟨some d.comps.distributor, ?_⟩
  rw [r3]
  cases hmem with
  | importCw3 c hc r hr h0 => rw [hc] at hk; exact absurd rfl hk
  | newMultisig w hc h0 => rw [hc] at hk; exact absurd rfl hk
  | _ => rfl

theorem distributor_init {l : List (Addr × Nat)} {s s' : Distributor.State} (h : l.foldlM Distributor.initOne s = .ok s') :
    (∀ u w, (u, w) ∈ l → s'.weights.get u = some w) ∧
    (∀ u, (∀ p ∈ l, p.1 ≠ u) → s'.weights.get u = s.weights.get u) ∧
    (∀ u, s.weights.has u = true → s'.weights.get u = s.weights.get u) := by
  induction l generalizing s with
  | nil =>
    rw [foldlM_nil_ok_iff] at h
    subst h
    exact ⟨fun u w h => (by cases h), fun _ _ => rfl, fun _ _ => rfl⟩
  | cons p t ih =>
    rw [foldlM_cons_ok_iff] at h
    obtain ⟨s1, h1, h2⟩ := h
    obtain ⟨i1, i2, i3⟩ := ih h2
    unfold Distributor.initOne at h1
    rw [ite_ok_iff] at h1
    obtain ⟨hn, h1⟩ := h1
    simp only [bind_ok_iff, pure_ok_iff] at h1
    obtain ⟨tot, _, rfl⟩ := h1
    have hn' : s.weights.has p.1 = false := by
      cases hh : s.weights.has p.1 with
      | true => exact absurd (by simp [hh]) hn
      | false => rfl
    refine ⟨fun u w hu => ?_, fun u hu => ?_, fun u hu => ?_⟩
    · rcases List.mem_cons.1 hu with rfl | hu
      · rw [i3 u (by simp [Map.has_set])]
        simp
      · exact i1 u w hu
    · rw [i2 u (fun q hq => hu q (List.mem_cons_of_mem _ hq))]
      simp only [Map.get_set]
      rw [if_neg (hu p List.mem_cons_self)]
    · rw [i3 u (by simp only [Map.has_set]; rw [hu]; simp)]
      simp only [Map.get_set]
      rw [if_neg]
      rintro rfl
      rw [hn'] at hu; cases hu

/-- Starting from the same list, the multisig membership contract and the funds distributor give the same weight to
every user. With `C70_multisig_partial`: the two agree on the weights of every user when a multisig DAO is created. -/
theorem C70_weights_partial {b : Block} {w : List (Addr × Nat)} {hooks : List Addr} {admin : Addr} {min : Option Nat}
    {mem : Members} {dis : Distributor.State} (h1 : Multisig.init b (some w) hooks [] [] = .ok mem)
    (h2 : Distributor.init admin min w = .ok dis) (u : Addr) :
    (dis.weights.get u).getD 0 = Multisig.queryWeight mem u := by
  obtain ⟨hd, hs⟩ := (Multisig.init_ok h1).1 w rfl
  obtain ⟨d1, d2, _⟩ := distributor_init h2
  have hw : mem.weights = (Multisig.setAll (Members.empty.saveCheckpoints [] []) w).weights := by rw [hs]; rfl
  unfold Multisig.queryWeight Members.weight
  rw [hw]
  by_cases hu : ∃ x, (u, x) ∈ w
  · obtain ⟨x, hx⟩ := hu
    rw [d1 u x hx, Multisig.setAll_get_in _ _ hd u x hx]
  · have hn : ∀ p ∈ w, p.1 ≠ u := by
      rintro ⟨a, x⟩ hp rfl
      exact hu ⟨x, hp⟩
    rw [d2 u hn, Multisig.setAll_get_notin _ _ u hn]
    rfl

/-! ### A sample creation -/

/-- A version. -/
def sampleInfo : Info := ⟨Versioning.ver 1 2 0, 0, 31, 32, 33, 34, 35, 36, 37, 38, 39, 40, 41⟩

/-- The factory is at 5, the registry at 6 has one version; the cw3 at 50 has two voters. -/
def sampleEnv : Env :=
  { self := 5
    registry := fun a => if a = 6 then some (Versioning.run (Versioning.init 1) [⟨1, .addVersion sampleInfo⟩]) else none
    supply := fun _ => none
    minter := fun _ => none
    isCw721 := fun _ => false
    voters := fun a c n => if a = 50 then some (((Map.empty.set 7 2).set 9 3 : Map Nat Nat).page c (min n 30)) else none
    gas := 10 }

/-- The factory before the first creation. -/
def sampleInit : State := init ⟨1, 6, 20, 21⟩ none none

/-- Governance settings. -/
def sampleGov : GovConfig := ⟨1, 2, none, 100, none, false⟩

/-- A denom DAO with a council of one. -/
def sampleDenom : CreateDao :=
  ⟨0, sampleGov, some ⟨[7], 1, 2, none⟩, .newDenom 4 (.time 200), none, none, none, some [8], some 77⟩

/-- A DAO with the voters of a cw3. -/
def sampleCw3 : CreateDao := ⟨0, sampleGov, none, .importCw3 50, none, none, none, none, none⟩

/-- What the sample creation does: contracts get the addresses 101, 102, ... -/
def sampleTrace : Trace :=
  [(.inst 1 (some 5) 32 (.enterprise 0 5 6 .denom (Versioning.ver 1 2 0)), some 101),
   (.updateAdmin 101 101, none),
   (.inst 8 (some 101) 34 (.controller 101 .denom sampleGov (some ⟨[7], 1, 2, none⟩) (some [8])), some 102),
   (.inst 7 (some 101) 33 (.governance 102), some 103),
   (.inst 5 (some 101) 41 (.multisig 101 [(7, 1)] [102]), some 104),
   (.inst 9 (some 101) 35 (.outposts 101), some 105),
   (.inst 10 (some 101) 36 (.treasury 102 [] []), some 106),
   (.inst 4 (some 101) 39 (.denom 101 4 (.time 200) [102]), some 107),
   (.inst 6 (some 101) 37 (.distributor 102 101 [(7, 1)] none), some 108),
   (.inst 11 none 31 (.attestation 77), some 109),
   (.finalizeSelf, none),
   (.finalize 101 ⟨103, 102, 106, 105, 108, 107, 104, some 109⟩, none),
   (.fund 105 1, none),
   (.deployInitial 102, none)]

/-- The factory after the sample creation. -/
def sampleAfter : State := { sampleInit with counter := 2, daos := Map.empty.set 1 106, being := some {} }

theorem sample_tx : Tx sampleEnv sampleInit 3 (.createDao sampleDenom) sampleAfter sampleTrace := by
  have h : ∃ s1 subs, exec sampleEnv sampleInit 3 (.createDao sampleDenom) = .ok (s1, subs) ∧
      ∃ s' t, Exec sampleEnv s1 subs s' t ∧ s' = sampleAfter ∧ t = sampleTrace := by
    refine ⟨_, _, rfl, _, _, ?_, rfl, rfl⟩
    exact .inst 101 rfl (.updateAdmin (.inst 102 rfl (.inst 103 rfl .nil (.inst 104 rfl .nil (.inst 105 rfl .nil
      (.inst 106 rfl (.inst 107 rfl .nil (.inst 108 rfl .nil .nil)) (.inst 109 rfl .nil
        (.own rfl (.finalize (.fund (.deployInitial .nil))) .nil)))))) .nil)) .nil
  obtain ⟨_, _, h1, _, _, h2, rfl, rfl⟩ := h
  exact .mk (by decide) h1 h2

/-- C70 fails for staking DAOs with a council: the funds distributor starts with weight 1 for a council member although
nobody has staked. -/
theorem C70_council_witness : ∃ (e : Env) (s s' : State) (t : Trace) (m : CreateDao),
    Tx e s 3 (.createDao m) s' t ∧ kindOf m.membership = .denom ∧
    ∃ dis, distributors t = [([(7, 1)], dis)] := by
  exact ⟨_, _, _, _, _, sample_tx, rfl, some 108, by decide⟩

/-- The creation of a DAO with the voters of a cw3: the distributor at 108 starts with both of them. -/
example : ∃ s' t, Tx sampleEnv sampleInit 3 (.createDao sampleCw3) s' t ∧ kindOf sampleCw3.membership = .multisig ∧
    distributors t = [([(7, 2), (9, 3)], some 108)] ∧ s'.counter = 2 ∧ queryAllDaos s' none (some 1) = [(1, 106)] := by
  have h : ∃ s1 subs, exec sampleEnv sampleInit 3 (.createDao sampleCw3) = .ok (s1, subs) ∧
      ∃ s' t, Exec sampleEnv s1 subs s' t ∧ distributors t = [([(7, 2), (9, 3)], some 108)] ∧ s'.counter = 2 ∧
        queryAllDaos s' none (some 1) = [(1, 106)] := by
    refine ⟨_, _, rfl, _, _, .inst 101 rfl (.updateAdmin (.inst 102 rfl (.inst 103 rfl .nil (.inst 104 rfl .nil
      (.inst 105 rfl .nil (.inst 106 rfl (.inst 107 rfl .nil (.inst 108 rfl .nil .nil))
        (.own rfl (.finalize .nil) .nil))))) .nil)) .nil, by decide⟩
  obtain ⟨_, _, h1, s', t, h2, h3, h4, h5⟩ := h
  exact ⟨s', t, .mk (by decide) h1 h2, rfl, h3, h4, h5⟩

example : ∃ mem dis, Multisig.init ⟨1, 1⟩ (some [(7, 2), (9, 3)]) [102] [] [] = .ok mem ∧
    Distributor.init 102 none [(7, 2), (9, 3)] = .ok dis ∧ Multisig.queryWeight mem 9 = 3 := ⟨_, _, rfl, rfl, rfl⟩

/-! ## C71 -/

/-- Sum of listed weights. -/
def sumOf (l : List (Addr × Nat)) : Nat := (l.map (·.2)).sum

theorem plus_fold (l : List (Addr × Nat)) (t : Nat) :
    (∀ r, l.foldlM (fun t v => plus t v.2) t = .ok r → r = t + sumOf l) ∧
    (t + sumOf l < M128 → l.foldlM (fun t v => plus t v.2) t = .ok (t + sumOf l)) := by
  induction l generalizing t with
  | nil =>
    refine ⟨fun r h => ?_, fun _ => rfl⟩
    rw [foldlM_nil_ok_iff] at h
    simpa [sumOf] using h.symm
  | cons p l ih =>
    have hs : sumOf (p :: l) = p.2 + sumOf l := by simp [sumOf]
    refine ⟨fun r h => ?_, fun h => ?_⟩
    · rw [foldlM_cons_ok_iff] at h
      obtain ⟨t1, h1, h2⟩ := h
      unfold plus at h1
      split at h1
      · cases h1
        rw [(ih _).1 r h2, hs]
        omega
      · cases h1
    · rw [foldlM_cons_ok_iff]
      refine ⟨t + p.2, ?_, ?_⟩
      · unfold plus
        rw [if_pos (by rw [hs] at h; omega)]
      · rw [(ih _).2 (by rw [hs] at h; omega), hs, Nat.add_assoc]

theorem importLoop_reads {ask : Option Addr → Option (List (Addr × Nat))} {f : Option Addr → List (Addr × Nat)}
    (hask : ∀ c, ask c = some (f c)) {after : Option Addr} {ps : List (List (Addr × Nat))}
    (h : Reads f (·.1) after ps) : ∀ (g : Nat) (acc : List (Addr × Nat)) (t : Nat),
      (∀ r, importLoop ask g after acc t = .ok r → r = (acc ++ ps.flatten, t + sumOf ps.flatten)) ∧
      (ps.length < g → t + sumOf ps.flatten < M128 →
        importLoop ask g after acc t = .ok (acc ++ ps.flatten, t + sumOf ps.flatten)) := by
  induction h with
  | @stop after h =>
    intro g acc t
    cases g with
    | zero => exact ⟨fun r hr => (by cases hr), fun hl => absurd hl (by simp)⟩
    | succ g =>
      have key : importLoop ask (g + 1) after acc t = .ok (acc, t) := by
        unfold importLoop
        simp [hask, need, h, bind, Except.bind, pure, Except.pure]
      rw [key]
      refine ⟨fun r hr => ?_, fun _ _ => ?_⟩
      · cases hr; simp [sumOf]
      · simp [sumOf]
  | @more after x ps hx hrest ih =>
    intro g acc t
    have hsum : sumOf (f after :: ps).flatten = sumOf (f after) + sumOf ps.flatten := by simp [sumOf]
    rw [List.flatten_cons] at hsum
    cases g with
    | zero => exact ⟨fun r hr => (by cases hr), fun hl => absurd hl (by simp)⟩
    | succ g =>
      unfold importLoop
      rw [hask]
      simp only [bind_ok_iff, need_ok_iff, Option.some.injEq, exists_eq_left', hx, List.flatten_cons]
      refine ⟨?_, fun hl ht => ?_⟩
      · rintro r ⟨t1, h1, h2⟩
        have := (plus_fold _ _).1 _ h1
        subst this
        have := (ih g (acc ++ f after) (t + sumOf (f after))).1 r h2
        rw [this]
        simp only [List.append_assoc, Prod.mk.injEq, true_and]
        omega
      · rw [hsum] at ht
        refine ⟨_, (plus_fold _ _).2 (by omega), ?_⟩
        rw [(ih g _ _).2 (by simpa using hl) (by omega)]
        simp only [List.append_assoc]
        rw [hsum, Nat.add_assoc]

/-- The cw3 at `c` answers like a multisig with the voters `M`: pages of its list, of a size `n` of its own. -/
def Answers (e : Env) (c : Addr) (M : Map Addr Nat) (n : Nat) : Prop :=
  0 < n ∧ ∀ x limit, e.voters c x limit = some (M.page x (min limit n))

theorem answers_reads {e : Env} {c : Addr} {M : Map Addr Nat} {n : Nat} (h : Answers e c M n) :
    (∃ ps, Reads (fun x => M.page x (min 100 n)) (·.1) none ps ∧ ps.flatten = M.entries) := by
  have hn : 0 < min 100 n := by have := h.1; omega
  have hg : ∀ e ∈ M.entries, (fun v : Addr => v) ((·.1) ((fun x : Addr × Nat => x) e)) = e.1 := fun e _ => rfl
  have hfun : (fun x => M.page x (min 100 n)) =
      fun c : Option Addr => (M.page (c.map (fun v : Addr => v)) (min 100 n)).map (fun x : Addr × Nat => x) := by
    funext c
    cases c <;> simp
  rw [hfun]
  obtain ⟨ps, hps⟩ := reads_page_exists (emb := fun v : Addr => v) hg hn none
  refine ⟨ps, hps, ?_⟩
  have hres := reads_page (emb := fun v : Addr => v) hg hn hps
  simpa using hres

/-- Creating a DAO from a cw3 gives the membership contract each voter exactly once with its weight; the total is not
zero. -/
theorem C71_imported {e : Env} {s s' : State} {sender : Addr} {msg : Msg} {t : Trace} (h : Tx e s sender msg s' t)
    {m : CreateDao} {version : Option Version} (hm : msg.creates = some (m, version)) {c : Addr}
    (hc : m.membership = .importCw3 c) {M : Map Addr Nat} {n : Nat} (ha : Answers e c M n) :
    ∃ ent comps w, finalizations t = [(ent, comps)] ∧
      (∃ id adm code hooks, (.inst id adm code (.multisig ent w hooks), some comps.membership) ∈ t) ∧
      (w.map (·.1)).Nodup ∧ (∀ u x, (u, x) ∈ w ↔ M.get u = some x) ∧ (w.map (·.2)).sum ≠ 0 := by
  obtain ⟨v, d, seg, w, _, hmem, _, rfl, _⟩ := h.create hm
  obtain ⟨_, r2, _⟩ := creation_reads hmem
  cases hmem with
  | importCw3 c' hc' r hr h0 =>
    rw [hc] at hc'; cases hc'
    obtain ⟨ps, hps, hflat⟩ := answers_reads ha
    have := (importLoop_reads (fun x => ha.2 x 100) hps e.gas [] 0).1 r hr
    rw [hflat] at this
    subst this
    simp only [List.nil_append, Nat.zero_add] at *
    refine ⟨d.enterprise, d.comps, M.entries, r2, ?_, M.nodup_keys, fun u x => Map.get_eq_some_iff.symm, h0⟩
    exact ⟨4, some d.enterprise, v.multisig, [d.comps.controller], by simp [creation]⟩
  | newMultisig _ hc' => rw [hc] at hc'; cases hc'
  | newDenom _ _ hc' => rw [hc] at hc'; cases hc'
  | importCw20 _ _ hc' => rw [hc] at hc'; cases hc'
  | newCw20 _ _ _ _ _ _ hc' => rw [hc] at hc'; cases hc'
  | importCw721 _ _ hc' => rw [hc] at hc'; cases hc'
  | newCw721 _ _ _ hc' => rw [hc] at hc'; cases hc'
  | newIcs721 _ _ _ hc' => rw [hc] at hc'; cases hc'

/-- The import is accepted exactly if the total is not zero, as long as the total fits 128 bits and the gas allows one
query per page and one more. -/
theorem C71_accepted_iff {e : Env} {b : Being} {c : Addr} {M : Map Addr Nat} {n : Nat} (ha : Answers e c M n)
    (hooks : List Addr) (h1 : b.enterprise ≠ none) (h2 : b.version ≠ none) (hg : M.entries.length + 1 < e.gas)
    (ht : M.sum (fun _ w => w) < 2 ^ 128) :
    (∃ r, importCw3 e b c hooks = .ok r) ↔ M.sum (fun _ w => w) ≠ 0 := by
  obtain ⟨ps, hps, hflat⟩ := answers_reads ha
  have hsum : sumOf M.entries = M.sum (fun _ w => w) := rfl
  have hlen : ∀ {a : Option Addr} {ps : List (List (Addr × Nat))},
      Reads (fun x => M.page x (min 100 n)) (·.1) a ps → ps.length ≤ ps.flatten.length := by
    intro a ps h
    induction h with
    | stop h => simp
    | @more after x ps hx _ ih =>
      have : 0 < (M.page after (min 100 n)).length := by
        cases hp : M.page after (min 100 n) with
        | nil => rw [hp] at hx; cases hx
        | cons _ _ => simp
      simp only [List.length_cons, List.flatten_cons, List.length_append] at *
      omega
  have hloop := (importLoop_reads (fun x => ha.2 x 100) hps e.gas [] 0).2
    (by have := hlen hps; rw [hflat] at this; omega) (by rw [hflat, hsum]; unfold M128; omega)
  rw [hflat, hsum] at hloop
  simp only [List.nil_append, Nat.zero_add] at hloop
  unfold importCw3
  simp only [bind_ok_iff, need_ok_iff, ite_ok_iff, hloop, Except.ok.injEq]
  rw [ha.2]
  constructor
  · rintro ⟨r, _, _, _, rfl, h0, _⟩
    exact h0
  · intro h0
    cases he : b.enterprise with
    | none => exact absurd he h1
    | some ent =>
      cases hv : b.version with
      | none => exact absurd hv h2
      | some v =>
        refine ⟨({ b with weights := some M.entries }, .inst 4 (some ent) v.multisig (.multisig ent M.entries hooks)),
          _, rfl, _, rfl, h0, ?_⟩
        simp only [multisigMembership, he, hv]
        rfl

example : Answers sampleEnv 50 ((Map.empty.set 7 2).set 9 3) 30 ∧ ((Map.empty.set 7 2).set 9 3 : Map Nat Nat).sum (fun _ w => w) = 5 :=
  ⟨⟨by decide, fun _ _ => rfl⟩, by decide⟩

/-! ## C76 -/

/-- The parts of a new DAO, as made in a transaction. -/
structure Wired (e : Env) (s : State) (m : CreateDao) (v : Info) (ent : Addr) (c : Components) (t : Trace) : Prop where
  /-- the enterprise contract is instantiated with the settings of the factory, and becomes its own admin -/
  enterprise : (.inst 1 (some e.self) v.enterprise
    (.enterprise m.metadata e.self s.config.versioning (kindOf m.membership) v.version), some ent) ∈ t
  admin : (.updateAdmin ent ent, none) ∈ t
  /-- the controller gets the governance settings and the council -/
  controller : (.inst 8 (some ent) v.controller
    (.controller ent (kindOf m.membership) m.gov m.council m.treasuries), some c.controller) ∈ t
  /-- governance and treasury obey the controller -/
  governance : (.inst 7 (some ent) v.governance (.governance c.controller), some c.governance) ∈ t
  treasury : (.inst 10 (some ent) v.treasury (.treasury c.controller (m.assets.getD []) (m.nfts.getD [])), some c.treasury) ∈ t
  outposts : (.inst 9 (some ent) v.outposts (.outposts ent), some c.outposts) ∈ t
  /-- the distributor obeys the controller -/
  distributor : ∃ w, (.inst 6 (some ent) v.distributor (.distributor c.controller ent w m.minWeight),
    some c.distributor) ∈ t
  /-- the council members have weight 1 each, and changes are reported to the controller -/
  council : (.inst 5 (some ent) v.multisig
    (.multisig ent (((m.council.map (·.members)).getD []).map (fun u => (u, 1))) [c.controller]), some c.council) ∈ t
  /-- the membership contract is of the DAO's kind and reports changes to the controller -/
  membership : ∃ i, (.inst 4 (some ent) (codeFor v m.membership) i, some c.membership) ∈ t ∧
    ((∃ w, i = .multisig ent w [c.controller]) ∨ (∃ d u, i = .denom ent d u [c.controller]) ∨
     (∃ a u, i = .token ent a u [c.controller]) ∨ (∃ a u, i = .nft ent a u [c.controller]))
  /-- an attestation contract is there exactly if a text was given -/
  attestation : match m.attestation with
    | none => c.attestation = none
    | some text => ∃ a, c.attestation = some a ∧ (.inst 11 none v.attestation (.attestation text), some a) ∈ t

/-- The ids of the replies, one per instantiation. -/
def instantiations (t : Trace) : List Nat :=
  t.filterMap (fun x => match x.1 with
    | .inst id _ _ _ => some id
    | _ => none)

/-- A creation instantiates every part of the DAO once, from the code of the version used, wires the parts together, and
makes exactly these parts known to the enterprise contract, once. -/
theorem C76_wired {e : Env} {s s' : State} {sender : Addr} {msg : Msg} {t : Trace} (h : Tx e s sender msg s' t)
    {m : CreateDao} {version : Option Version} (hm : msg.creates = some (m, version)) :
    ∃ v ent c, Uses e s version v ∧ finalizations t = [(ent, c)] ∧ Wired e s m v ent c t ∧ (instantiations t).Nodup := by
  obtain ⟨v, d, seg, w, hv, hmem, hatt, rfl, _⟩ := h.create hm
  obtain ⟨_, r2, _⟩ := creation_reads hmem
  refine ⟨v, d.enterprise, d.comps, hv, r2, ?_, ?_⟩
  · refine ⟨?_, ?_, ?_, ?_, ?_, ?_, ?_, ?_, ?_, ?_⟩
    · simp [creation, kindOf_eq]
    · simp [creation]
    · simp [creation, kindOf_eq]
    · simp [creation]
    · simp [creation]
    · simp [creation]
    · exact ⟨w, by simp [creation]⟩
    · simp [creation, councilWeights]
    · cases hmem with
      | newDenom x u hc hu =>
        exact ⟨.denom d.enterprise x u [d.comps.controller], by
          rw [hc]; simp [creation, codeFor], Or.inr (Or.inl ⟨_, _, rfl⟩)⟩
      | importCw20 x u hc hu a b c =>
        exact ⟨.token d.enterprise x u [d.comps.controller], by
          rw [hc]; simp [creation, codeFor], Or.inr (Or.inr (Or.inl ⟨_, _, rfl⟩))⟩
      | newCw20 bal dao mint mark rest u hc hu a b c tok =>
        exact ⟨.token d.enterprise tok u [d.comps.controller], by
          rw [hc]; simp [creation, codeFor], Or.inr (Or.inr (Or.inl ⟨_, _, rfl⟩))⟩
      | importCw721 x u hc hu a =>
        exact ⟨.nft d.enterprise (.cw721 x) u [d.comps.controller], by
          rw [hc]; simp [creation, codeFor], Or.inr (Or.inr (Or.inr ⟨_, _, rfl⟩))⟩
      | newCw721 x r u hc hu a =>
        exact ⟨.nft d.enterprise (.cw721 a) u [d.comps.controller], by
          rw [hc]; simp [creation, codeFor], Or.inr (Or.inr (Or.inr ⟨_, _, rfl⟩))⟩
      | newIcs721 p c u hc hu =>
        exact ⟨.nft d.enterprise (.ics721 p c) u [d.comps.controller], by
          rw [hc]; simp [creation, codeFor], Or.inr (Or.inr (Or.inr ⟨_, _, rfl⟩))⟩
      | importCw3 c hc r hr h0 =>
        exact ⟨.multisig d.enterprise r.1 [d.comps.controller], by
          rw [hc]; simp [creation, codeFor], Or.inl ⟨_, rfl⟩⟩
      | newMultisig w hc h0 =>
        exact ⟨.multisig d.enterprise w [d.comps.controller], by
          rw [hc]; simp [creation, codeFor], Or.inl ⟨_, rfl⟩⟩
    · cases hma : m.attestation with
      | none =>
        rw [hma] at hatt
        cases hca : d.comps.attestation with
        | none => rfl
        | some a => rw [hca] at hatt; cases hatt
      | some text =>
        rw [hma] at hatt
        cases hca : d.comps.attestation with
        | none => rw [hca] at hatt; cases hatt
        | some a =>
          refine ⟨a, rfl, ?_⟩
          simp [creation, attestationSubs, hma, hca]
  · have hs : (instantiations seg = [4] ∨ instantiations seg = [2, 4] ∨ instantiations seg = [3, 4]) := by
      cases hmem with
      | newCw20 bal dao mint mark rest u hc hu a b c tok => exact Or.inr (Or.inl rfl)
      | newCw721 x r u hc hu a => exact Or.inr (Or.inr rfl)
      | _ => exact Or.inl rfl
    have ha : instantiations ((attestationSubs m v).map (fun x => (x, d.comps.attestation))) = [] ∨
        instantiations ((attestationSubs m v).map (fun x => (x, d.comps.attestation))) = [11] := by
      unfold attestationSubs
      cases m.attestation with
      | none => exact Or.inl rfl
      | some _ => exact Or.inr rfl
    have hb : instantiations ((treasurySubs m d.comps.outposts d.comps.controller).map (fun x => (x, none))) = [] := by
      unfold treasurySubs
      cases m.treasuries with
      | none => rfl
      | some l =>
        by_cases hl : l = []
        · simp only [hl, if_true]; rfl
        · simp only [hl, if_false]; rfl
    unfold instantiations at *
    unfold creation
    simp only [List.filterMap_append]
    rw [hb]
    rcases hs with hs | hs | hs <;> rcases ha with ha | ha <;> rw [hs, ha] <;> simp

/-- Nothing of a creation is left behind for the next one, and the rest of the factory's state is as before, but for the
number of the new DAO. -/
theorem C76_isolated {e : Env} {s s' : State} {sender : Addr} {msg : Msg} {t : Trace} (h : Tx e s sender msg s' t)
    {m : CreateDao} {version : Option Version} (hm : msg.creates = some (m, version)) :
    s'.being = some {} ∧ s'.config = s.config ∧ queryWhitelists s' = queryWhitelists s ∧
    ∃ dao, s'.daos.get s.counter = some dao ∧ ∀ i, i ≠ s.counter → s'.daos.get i = s.daos.get i := by
  obtain ⟨v, d, seg, w, hv, hmem, hatt, _, rfl⟩ := h.create hm
  refine ⟨rfl, rfl, rfl, d.comps.treasury, by simp, fun i hi => ?_⟩
  simp only [Map.get_set]
  rw [if_neg (Ne.symm hi)]

example : Tx sampleEnv sampleInit 3 (.createDao sampleDenom) sampleAfter sampleTrace ∧
    finalizations sampleTrace = [(101, ⟨103, 102, 106, 105, 108, 107, 104, some 109⟩)] ∧
    instantiations sampleTrace = [1, 8, 7, 5, 9, 10, 4, 6, 11] ∧ sampleAfter.daos.get 1 = some 106 :=
  ⟨sample_tx, by decide, by decide, by decide⟩

/-! ## C77 -/

/-- An unlocking period measured in seconds is at least as long as votes last. (Periods in blocks are not compared.) -/
def LongEnough (g : GovConfig) (u : Duration) : Prop := ∀ t, u = .time t → g.voteDuration ≤ t

/-- What the factory demands of the membership asked for (for a cw3, see C71). -/
def Acceptable (e : Env) (m : CreateDao) : Prop :=
  match m.membership with
  | .newDenom _ u => LongEnough m.gov u
  | .importCw20 c u => LongEnough m.gov u ∧ ∃ supply, e.supply c = some supply ∧
      (supply = 0 → ∃ minter, e.minter c = some (some minter))
  | .newCw20 balances daoBalance mint _ _ u => LongEnough m.gov u ∧ (∀ x ∈ balances, 0 < x.2) ∧
      (∀ x, daoBalance = some x → 0 < x) ∧ (balances ≠ [] ∨ mint ≠ none)
  | .importCw721 c u => LongEnough m.gov u ∧ e.isCw721 c = true
  | .newCw721 _ _ u => LongEnough m.gov u
  | .newIcs721 _ _ u => LongEnough m.gov u
  | .newMultisig members => members ≠ []
  | .importCw3 _ => True

theorem longEnough_iff {g : GovConfig} {u : Duration} : LongEnough g u ↔ validateUnlocking g u = .ok () := by
  unfold LongEnough validateUnlocking
  cases u with
  | time t =>
    simp only [ite_ok_iff, and_true]
    constructor
    · intro h; have := h t rfl; omega
    · intro h x hx; cases hx; omega
  | height h => exact ⟨fun _ => rfl, fun _ t ht => by cases ht⟩

theorem Exec.append {e : Env} {s s1 s2 : State} {l1 l2 : List Sub} {t1 t2 : Trace} (h1 : Exec e s l1 s1 t1)
    (h2 : Exec e s1 l2 s2 t2) : Exec e s (l1 ++ l2) s2 (t1 ++ t2) := by
  induction h1 with
  | nil => exact h2
  | inst addr hr h3 _ _ ih => rw [List.cons_append, List.cons_append, List.append_assoc]; exact .inst addr hr h3 (ih h2)
  | own hr h3 _ _ ih => rw [List.cons_append, List.cons_append, List.append_assoc]; exact .own hr h3 (ih h2)
  | updateAdmin _ ih => exact .updateAdmin (ih h2)
  | finalize _ ih => exact .finalize (ih h2)
  | fund _ ih => exact .fund (ih h2)
  | deployInitial _ ih => exact .deployInitial (ih h2)

theorem membership_runs {e : Env} {s : State} {m : CreateDao} {v : Info} {ent ctl tre : Addr} {b : Being}
    (h1 : b.msg = some m) (h2 : b.version = some v) (h3 : b.enterprise = some ent) (h4 : b.controller = some ctl)
    (hc : ∀ c, m.membership ≠ .importCw3 c) (ha : Acceptable e m) :
    ∃ u w x, membership e s b tre m.membership [ctl] = .ok ({ b with unlocking := u, weights := w }, x) ∧
      ∀ s0 : State, s0.being = some { b with unlocking := u, weights := w } → ∃ a n mem t,
        Exec e s0 [x] { s0 with being := some { b with unlocking := u, weights := w, asset := a, nft := n,
                                                       membership := some mem } } t := by
  have hstore : ∀ (s0 : State) (b0 : Being) (adm : Option Addr) (code : Nat) (i : Inst), s0.being = some b0 →
      Exec e s0 [.inst 4 adm code i] { s0 with being := some { b0 with membership := some 0 } }
        ((.inst 4 adm code i, some 0) :: ([] ++ [])) := by
    intro s0 b0 adm code i hb
    refine .inst 0 ?_ .nil .nil
    show replyStore s0 _ = _
    exact replyStore_ok_iff.2 ⟨b0, hb, rfl⟩
  unfold Acceptable at ha
  cases hm : m.membership with
  | newDenom d u =>
    simp only [hm] at ha
    refine ⟨some u, b.weights, .inst 4 (some ent) v.denomStaking (.denom ent d u [ctl]), ?_,
      fun s0 hs0 => ⟨b.asset, b.nft, 0, _, hstore s0 _ _ _ _ hs0⟩⟩
    · simp [membership, denomMembership, h1, h2, h3, need, bind, Except.bind, longEnough_iff.1 ha, pure, Except.pure]
  | importCw20 c u =>
    simp only [hm] at ha
    obtain ⟨hu, sup, hs, h0⟩ := ha
    refine ⟨some u, b.weights, .inst 4 (some ent) v.tokenStaking (.token ent c u [ctl]), ?_,
      fun s0 hs0 => ⟨b.asset, b.nft, 0, _, hstore s0 _ _ _ _ hs0⟩⟩
    · have hn1 : ¬ (sup = 0 ∧ e.minter c = none) := by
        rintro ⟨hz, hn⟩; obtain ⟨x, hx⟩ := h0 hz; rw [hn] at hx; cases hx
      have hn2 : ¬ (sup = 0 ∧ e.minter c = some none) := by
        rintro ⟨hz, hn⟩; obtain ⟨x, hx⟩ := h0 hz; rw [hn] at hx; cases hx
      simp only [membership, importCw20, tokenMembership, h1, h2, h3, hs, need, bind, Except.bind, if_neg hn1, if_neg hn2,
        longEnough_iff.1 hu, pure, Except.pure]
  | newCw20 bal dao mint mark rest u =>
    simp only [hm] at ha
    obtain ⟨hu, hb, hd, hn⟩ := ha
    refine ⟨some u, b.weights, .inst 2 (some ent) s.config.cw20 (.cw20 (initialBalances bal dao tre)
      (mint.getD (ent, none)) ((mark.getD none).getD ent) rest), ?_, fun s0 hs0 => ⟨some 1, b.nft, 0, ?_⟩⟩
    · have hn1 : ¬ dao = some 0 := fun h => absurd (hd 0 h) (by decide)
      have hn2 : ¬ ∃ x ∈ bal, x.2 = 0 := by
        rintro ⟨x, hx, h0⟩; have := hb x hx; omega
      have hn3 : ¬ (bal = [] ∧ mint = none) := by
        rintro ⟨ha, hb⟩; rcases hn with h | h
        · exact h ha
        · exact h hb
      simp only [membership, newCw20, if_neg hn1, if_neg hn2, if_neg hn3, h3, need, bind, Except.bind, pure, Except.pure]
    · refine ⟨_, .inst 1 ?_ (hstore { s0 with being := some { b with unlocking := some u, asset := some 1 } } _
        (some ent) v.tokenStaking (.token ent 1 u [ctl]) rfl) .nil⟩
      show replyCw20 s0 1 = _
      simp only [replyCw20, tokenMembership, hs0, h1, h2, h3, h4, need, bind, Except.bind, longEnough_iff.1 hu, pure,
        Except.pure]
  | importCw721 c u =>
    simp only [hm] at ha
    refine ⟨some u, b.weights, .inst 4 (some ent) v.nftStaking (.nft ent (.cw721 c) u [ctl]), ?_,
      fun s0 hs0 => ⟨b.asset, b.nft, 0, _, hstore s0 _ _ _ _ hs0⟩⟩
    · simp [membership, importCw721, nftMembership, h1, h2, h3, need, bind, Except.bind, longEnough_iff.1 ha.1, ha.2, pure,
        Except.pure]
  | newCw721 minter rest u =>
    simp only [hm] at ha
    refine ⟨some u, b.weights, .inst 3 (some ent) s.config.cw721 (.cw721 (minter.getD ent) rest), ?_,
      fun s0 hs0 => ⟨b.asset, some 1, 0, ?_⟩⟩
    · simp only [membership, newCw721, h3, need, bind, Except.bind, pure, Except.pure]
    · refine ⟨_, .inst 1 ?_ (hstore { s0 with being := some { b with unlocking := some u, nft := some 1 } } _
        (some ent) v.nftStaking (.nft ent (.cw721 1) u [ctl]) rfl) .nil⟩
      show replyCw721 s0 1 = _
      simp only [replyCw721, nftMembership, hs0, h1, h2, h3, h4, need, bind, Except.bind, longEnough_iff.1 ha, pure,
        Except.pure]
  | newIcs721 p c u =>
    simp only [hm] at ha
    refine ⟨some u, b.weights, .inst 4 (some ent) v.nftStaking (.nft ent (.ics721 p c) u [ctl]), ?_,
      fun s0 hs0 => ⟨b.asset, b.nft, 0, _, hstore s0 _ _ _ _ hs0⟩⟩
    · simp [membership, importIcs721, nftMembership, h1, h2, h3, need, bind, Except.bind, longEnough_iff.1 ha, pure,
        Except.pure]
  | importCw3 c => exact absurd hm (hc c)
  | newMultisig w =>
    simp only [hm] at ha
    refine ⟨b.unlocking, some w, .inst 4 (some ent) v.multisig (.multisig ent w [ctl]), ?_,
      fun s0 hs0 => ⟨b.asset, b.nft, 0, _, hstore s0 _ _ _ _ hs0⟩⟩
    · simp [membership, multisigMembership, ha, h2, h3, need, bind, Except.bind, pure, Except.pure]

/-- A request to create a DAO (other than from a cw3) goes through exactly if the version is known and the factory's
demands on the membership are met; who asks does not matter. -/
theorem C77_accepted_iff {e : Env} {s : State} {sender : Addr} {msg : Msg} (hs : sender ≠ e.self) {m : CreateDao}
    {version : Option Version} (hm : msg.creates = some (m, version)) (hc : ∀ c, m.membership ≠ .importCw3 c) :
    (∃ s' t, Tx e s sender msg s' t) ↔ (∃ v, Uses e s version v) ∧ Acceptable e m := by
  constructor
  · rintro ⟨s', t, h⟩
    obtain ⟨v, d, seg, w, hv, hmem, _⟩ := h.create hm
    refine ⟨⟨v, hv⟩, ?_⟩
    unfold Acceptable
    cases hmem with
    | newDenom d u hm hu => rw [hm]; exact longEnough_iff.2 hu
    | importCw20 c u hm hu a b c' => rw [hm]; exact ⟨longEnough_iff.2 hu, a, b, c'⟩
    | newCw20 bal dao mint mark rest u hm hu a b c tok =>
      rw [hm]
      exact ⟨longEnough_iff.2 hu, fun x hx => Nat.pos_of_ne_zero (b x hx),
        fun x hx => Nat.pos_of_ne_zero (fun h0 => a (by rw [hx, h0])), c⟩
    | importCw721 c u hm hu a => rw [hm]; exact ⟨longEnough_iff.2 hu, a⟩
    | newCw721 c r u hm hu a => rw [hm]; exact longEnough_iff.2 hu
    | newIcs721 p c u hm hu => rw [hm]; exact longEnough_iff.2 hu
    | importCw3 c hm r hr h0 => exact absurd hm (hc c)
    | newMultisig w hm h0 => rw [hm]; exact h0
  · rintro ⟨⟨v, hv⟩, ha⟩
    have hx : exec e s sender msg = .ok (createWith e s m v) := by
      cases msg with
      | createDao m' => cases hm; exact createDao_ok_iff.2 ⟨v, hv, rfl⟩
      | createDaoWithVersion m' v => cases hm; exact createDao_ok_iff.2 ⟨_, hv, rfl⟩
      | updateConfig a v c n => cases hm
      | finalizeDaoCreation => cases hm
    suffices H : ∃ s' t, Exec e (createWith e s m v).1 (createWith e s m v).2 s' t by
      obtain ⟨s', t, h⟩ := H
      exact ⟨s', t, .mk hs hx h⟩
    obtain ⟨u, w, x, hmb, hrun⟩ := membership_runs (e := e) (s := { s with being := some {
      msg := some m, version := some v, enterprise := some 0, weights := some (councilWeights m),
      type := some (daoType m.membership), council := some 0, governance := some 0, controller := some 0,
      outposts := some 0 } }) (tre := 0) (m := m) (v := v) (ent := 0) (ctl := 0)
      (b := { msg := some m, version := some v, enterprise := some 0, weights := some (councilWeights m),
              type := some (daoType m.membership), council := some 0, governance := some 0, controller := some 0,
              outposts := some 0, treasury := some 0 }) rfl rfl rfl rfl hc ha
    obtain ⟨a, n, mem, t0, hrun⟩ := hrun { s with
      counter := wadd64 s.counter 1, daos := s.daos.set s.counter 0, being := some {
        msg := some m, version := some v, enterprise := some 0, weights := w,
        type := some (daoType m.membership), council := some 0, governance := some 0, controller := some 0,
        outposts := some 0, treasury := some 0, unlocking := u } } rfl
    have hend : ∀ s0 : State, ∃ s' t, Exec e s0 (treasurySubs m 0 0) s' t := by
      intro s0
      unfold treasurySubs
      split
      · split
        · exact ⟨_, _, .nil⟩
        · exact ⟨_, _, .fund (.deployInitial .nil)⟩
      · exact ⟨_, _, .nil⟩
    have hfin : ∀ att : Option Addr, ∃ s' t, Exec e { s with
        counter := wadd64 s.counter 1, daos := s.daos.set s.counter 0, being := some {
          msg := some m, version := some v, asset := a, nft := n, enterprise := some 0, weights := w,
          type := some (daoType m.membership), unlocking := u, membership := some mem, council := some 0,
          distributor := some 0, governance := some 0, controller := some 0, outposts := some 0,
          treasury := some 0, attestation := att } } [.finalizeSelf] s' t := by
      intro att
      obtain ⟨s', t, h⟩ := hend { s with
        counter := wadd64 s.counter 1, daos := s.daos.set s.counter 0, being := some {} }
      refine ⟨s', _, .own ?_ (.finalize (a := 0) (c := ⟨0, 0, 0, 0, 0, mem, 0, att⟩) h) .nil⟩
      simp [finalizeDao, need, bind, Except.bind]
    have hatt : ∃ s' t, Exec e { s with
        counter := wadd64 s.counter 1, daos := s.daos.set s.counter 0, being := some {
          msg := some m, version := some v, asset := a, nft := n, enterprise := some 0, weights := w,
          type := some (daoType m.membership), unlocking := u, membership := some mem, council := some 0,
          distributor := some 0, governance := some 0, controller := some 0, outposts := some 0,
          treasury := some 0 } } (attestationSubs m v ++ [.finalizeSelf]) s' t := by
      unfold attestationSubs
      split
      · obtain ⟨s', t, h⟩ := hfin (some 0)
        exact ⟨s', _, .inst 0 rfl .nil h⟩
      · exact ⟨_, _, (hfin none).choose_spec.choose_spec⟩
    obtain ⟨s', t, hatt⟩ := hatt
    refine ⟨s', _, .inst 0 rfl (.updateAdmin (.inst 0 rfl (.inst 0 rfl .nil (.inst 0 rfl .nil (.inst 0 rfl .nil
      (.inst 0 ?_ (hrun.append (.inst (id := 6) (admin := some 0) (code := v.distributor)
        (m := .distributor 0 0 (w.getD []) m.minWeight) 0 rfl .nil .nil)) hatt)))) .nil)) .nil⟩
    show replyTreasury e _ 0 = _
    simp only [replyTreasury, createWith, need, bind, Except.bind]
    rw [hmb]
    rfl

/-- A multisig whose members all have weight zero is accepted, unlike one imported from a cw3 (`C71_accepted_iff`). -/
theorem C77_zero_weights_witness : ∃ s' t, Tx sampleEnv sampleInit 3
    (.createDao { sampleCw3 with membership := .newMultisig [(7, 0), (9, 0)] }) s' t := by
  refine (C77_accepted_iff (by decide) (m := { sampleCw3 with membership := .newMultisig [(7, 0), (9, 0)] })
    (version := none) rfl (fun c h => by cases h)).2 ⟨⟨sampleInfo, _, rfl, by decide +kernel⟩, ?_⟩
  unfold Acceptable
  simp

example : Acceptable sampleEnv sampleDenom ∧ ¬ Acceptable sampleEnv { sampleDenom with membership := .newDenom 4 (.time 99) } := by
  constructor
  · unfold Acceptable sampleDenom LongEnough
    intro t h; cases h; decide
  · unfold Acceptable sampleDenom LongEnough
    intro h; exact absurd (h 99 rfl) (by decide)

/-! ## C78 -/

/-- The configuration changes only by a message of its admin, which says how; creations leave it alone. -/
theorem C78_config {e : Env} {s s' : State} {sender : Addr} {msg : Msg} {t : Trace} (h : Tx e s sender msg s' t) :
    s'.config = s.config ∨ (sender = s.config.admin ∧ ∃ admin versioning cw20 cw721,
      msg = .updateConfig admin versioning cw20 cw721 ∧
      s'.config = ⟨admin.getD s.config.admin, versioning.getD s.config.versioning, cw20.getD s.config.cw20,
        cw721.getD s.config.cw721⟩ ∧ s'.daos = s.daos ∧ t = []) := by
  cases hm : msg.creates with
  | none =>
    obtain ⟨ht, hs, a, v, c, n, hmsg, rfl⟩ := h.other hm
    exact Or.inr ⟨hs, a, v, c, n, hmsg, rfl, rfl, ht⟩
  | some x =>
    obtain ⟨v, d, seg, w, _, _, _, _, rfl⟩ := h.create (m := x.1) (version := x.2) hm
    exact Or.inl rfl

/-- Nobody but the factory itself can finish a creation, whatever the state. -/
theorem C78_finalize (e : Env) (s : State) (sender : Addr) (hs : sender ≠ e.self) :
    exec e s sender .finalizeDaoCreation = .error .unauthorized := by
  show finalizeDao e s sender = _
  unfold finalizeDao
  rw [if_pos hs]

/-- The global whitelists stay as they were at the start. -/
theorem C78_whitelists (self : Addr) (config : Config) (a n : Option (List Nat)) (l : List (Msg × Trace)) (s : State)
    (h : Hist self (init config a n) l s) : queryWhitelists s = (a.getD [], n.getD []) := by
  induction h with
  | nil => rfl
  | @step l s1 s2 e sender m t hist he ht ih =>
    rw [← ih]
    cases hm : m.creates with
    | none => obtain ⟨_, _, _, _, _, _, _, rfl⟩ := ht.other hm; rfl
    | some x => obtain ⟨v, d, seg, w, _, _, _, _, rfl⟩ := ht.create (m := x.1) (version := x.2) hm; rfl

example : Hist 5 sampleInit [(.createDao sampleDenom, sampleTrace), (.updateConfig (some 2) none none none, [])]
    { sampleAfter with config := { sampleAfter.config with admin := 2 } } :=
  .step (e := sampleEnv) (sender := 1) (.step (e := sampleEnv) (sender := 3) .nil rfl sample_tx) rfl
    (.mk (by decide) rfl .nil)

end Verif.Factory
