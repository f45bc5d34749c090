import Verif.Enterprise.Lemmas

/-!
# The enterprise contract: properties C64, C65, C66, C74, C111
-/

set_option linter.unusedSimpArgs false

namespace Verif.Enterprise
open Verif
open Verif.Versioning (Version Info ver)

/-! ### A sample DAO -/

/-- Components of the sample. -/
def sampleComps : Components := ⟨11, 12, 13, 14, 15, 16, 17, none⟩

/-- A new enterprise contract. -/
def sampleNew : State := init none 5 2 3 ⟨0, none, 0, none, none, none, none⟩ (ver 1 2 1) .token

/-- The registry of the sample, by the admin 1. -/
def sampleRegistry : Versioning.State :=
  Versioning.run (Versioning.init 1) ((⟨1, .addVersion (Versioning.sampleInfo (ver 1 2 1) 30)⟩ :: Versioning.sampleCalls))

/-- Address 10, created by 2, registry at 3. -/
def sampleEnv : Env := ⟨10, 2, fun a => if a = 3 then some sampleRegistry else none, 100⟩

/-- The wired DAO. -/
def sampleDao : State := { sampleNew with comps := some sampleComps, finalized := true }

/-! ## C64 -/

/-- Finalization succeeds exactly if it was not done before and the sender is the creator; it stores the given
components and nothing else. -/
theorem C64_finalize_iff (e : Env) (s : State) (u : Addr) (c : Components) (s' : State) (o : List Out) :
    exec e s u (.finalize c) = .ok (s', o) ↔ s.finalized = false ∧ u = e.creator ∧
      s' = { s with comps := some c, finalized := true } ∧ o = [] := by
  simp only [exec, bind_ok_iff, pure_ok_iff, Prod.mk.injEq]
  constructor
  · rintro ⟨x, h1, rfl, rfl⟩
    obtain ⟨a, b, rfl⟩ := finalize_ok_iff.1 h1
    exact ⟨a, b, rfl, rfl⟩
  · rintro ⟨a, b, rfl, rfl⟩
    exact ⟨_, finalize_ok_iff.2 ⟨a, b, rfl⟩, rfl, rfl⟩

/-- After a finalization, in every further history, no finalization succeeds any more. -/
theorem C64_once {self creator : Addr} {e : Env} {w w' : World} {u : Addr} {c : Components} {s : State} {o : List Out}
    {l : List (Addr × Addr)} (h : exec e w.ent u (.finalize c) = .ok (s, o))
    (hl : Steps self creator { w with ent := s } l w') (e' : Env) (u' : Addr) (c' : Components) :
    exec e' w'.ent u' (.finalize c') = .error .alreadyInitialized := by
  obtain ⟨_, _, rfl, _⟩ := (C64_finalize_iff e w.ent u c s o).1 h
  obtain ⟨k', hk⟩ := hl.kept (k := c) rfl rfl
  have hf : w'.ent.finalized = true := hk.fin
  simp only [exec, finalize, hf, if_true]
  rfl

/-- After a finalization, in every further history, the component addresses other than the attestation contract remain
as given then, as do the kind of the DAO and its creation date. -/
theorem C64_fixed {self creator : Addr} {e : Env} {w w' : World} {u : Addr} {c : Components} {s : State} {o : List Out}
    {l : List (Addr × Addr)} (h : exec e w.ent u (.finalize c) = .ok (s, o))
    (hl : Steps self creator { w with ent := s } l w') :
    ∃ a, w'.ent.comps = some ⟨c.governance, c.controller, c.treasury, c.outposts, c.distributor, c.membership, c.council, a⟩ ∧
      w'.ent.daoType = w.ent.daoType ∧ w'.ent.created = w.ent.created := by
  obtain ⟨_, _, rfl, _⟩ := (C64_finalize_iff e w.ent u c s o).1 h
  obtain ⟨k', hk⟩ := hl.kept (k := c) rfl rfl
  refine ⟨k'.attestation, ?_, hk.daoType, hk.created⟩
  rw [hk.comps]
  have := hk.same
  cases k'
  cases c
  simp only [Components.mk.injEq, and_true] at this
  obtain ⟨h1, h2, h3, h4, h5, h6, h7⟩ := this
  simp only [h1, h2, h3, h4, h5, h6, h7]

/-- Whatever happens to a wired DAO, if the attestation contract changes then the governance controller removed it or
set a new one. -/
theorem C64_attestation_by_controller {self creator : Addr} {w w' : World} {o : Option (Addr × Addr)} {c c' : Components}
    (hf : w.ent.finalized = true) (hc : w.ent.comps = some c) (h : Step self creator w o w')
    (hc' : w'.ent.comps = some c') (hne : c'.attestation ≠ c.attestation) :
    ∃ e m s out, exec e w.ent c.controller m = .ok (s, out) ∧
      ((m = .removeAttestation ∧ c'.attestation = none) ∨ ∃ t, m = .setAttestation t) := by
  cases h with
  | @tx e u m s out hs hcr hm h =>
    have h1 := exec_effect h
    have same : w.ent.comps = some c' → False := by
      intro hh
      rw [hc] at hh
      cases hh
      exact hne rfl
    cases h1 with
    | finalize x hn _ => rw [hf] at hn; cases hn
    | metadata x k hk hu => exact (same hc').elim
    | upgrade t l k hk hu ht => exact (same hc').elim
    | config v f k hk hu => exact (same hc').elim
    | attest t k hk hu => exact (same hc').elim
    | remove k hk hu =>
      rw [hc] at hk; cases hk
      refine ⟨e, _, _, _, hu ▸ h, Or.inl ⟨rfl, ?_⟩⟩
      cases hc'
      rfl
    | msgs l k hk hu => exact (same hc').elim
  | @attest e u a t code s s' hs hcr h hn hr =>
    have h1 := exec_effect h
    cases h1 with
    | attest _ k hk hu =>
      rw [hc] at hk; cases hk
      exact ⟨e, _, _, _, hu ▸ h, Or.inr ⟨t, rfl⟩⟩
  | sign _ => rw [hc] at hc'; cases hc'; exact absurd rfl hne
  | other _ => rw [hc] at hc'; cases hc'; exact absurd rfl hne

/-- Only the controller and, for the finalization, the creator can send anything at all. -/
theorem C64_senders {e : Env} {s s' : State} {u : Addr} {m : Msg} {o : List Out} (h : exec e s u m = .ok (s', o)) :
    (u = e.creator ∧ s.finalized = false ∧ ∃ c, m = .finalize c) ∨ ∃ c, s.comps = some c ∧ u = c.controller := by
  have h1 := exec_effect h
  cases h1 with
  | finalize c hn hu => exact Or.inl ⟨hu, hn, c, rfl⟩
  | metadata _ k hk hu => exact Or.inr ⟨k, hk, hu⟩
  | upgrade _ _ k hk hu _ => exact Or.inr ⟨k, hk, hu⟩
  | config _ _ k hk hu => exact Or.inr ⟨k, hk, hu⟩
  | attest _ k hk hu => exact Or.inr ⟨k, hk, hu⟩
  | remove k hk hu => exact Or.inr ⟨k, hk, hu⟩
  | msgs _ k hk hu => exact Or.inr ⟨k, hk, hu⟩

/-- The sample is finalized once, and the controller sets an attestation. -/
example : exec sampleEnv sampleNew 2 (.finalize sampleComps) = .ok (sampleDao, []) ∧
    ∃ s, exec sampleEnv sampleDao 12 (.setAttestation 77) = .ok (s, [.attestation 1 77]) ∧
      reply s 50 = .ok { sampleDao with comps := some { sampleComps with attestation := some 50 } } :=
  ⟨rfl, _, rfl, rfl⟩

example : Steps 10 2 ⟨sampleDao, Map.empty⟩ []
    ⟨{ sampleDao with comps := some { sampleComps with attestation := some 50 } }, Map.empty.set 50 (.init 77)⟩ := by
  have := Steps.step (self := 10) (creator := 2) (w := ⟨sampleDao, Map.empty⟩) Steps.refl
    (Step.attest (e := sampleEnv) (sender := 12) (a := 50) (t := 77) (code := 1) rfl rfl rfl rfl rfl)
  exact this

/-! ## C65 -/

/-- An upgrade succeeds exactly if the target is greater than the current version, the sender is the governance
controller, and no version has two migration messages; given a registry of versions and gas for reading it. -/
theorem C65_accepted_iff {a : Addr} {l : List Versioning.Call} (e : Env) (s : State) (u : Addr) (t : Version)
    (msgs : List (Version × Nat)) (hr : e.registry s.versioning = some (Versioning.run (Versioning.init a) l))
    (hg : (Versioning.run (Versioning.init a) l).versions.size < e.gas) :
    (∃ r, exec e s u (.upgradeDao t msgs) = .ok r) ↔
      s.version < t ∧ (∃ c, s.comps = some c ∧ u = c.controller) ∧ (msgs.map (·.1)).Nodup := by
  have hf := Versioning.run_filed l (Versioning.init_filed a)
  have hm : (∃ m, migrateMsgs msgs = .ok m) ↔ (msgs.map (·.1)).Nodup := by
    have := (migrateMsgs_fold msgs Map.empty).1
    unfold migrateMsgs
    rw [this]
    simp
  constructor
  · rintro ⟨⟨s', o⟩, h⟩
    obtain ⟨h1, k, hk, hu, m, hm', _⟩ := upgradeDao_ok_iff.1 h
    exact ⟨h1, ⟨k, hk, hu⟩, hm.1 ⟨m, hm'⟩⟩
  · rintro ⟨h1, ⟨k, hk, hu⟩, h3⟩
    obtain ⟨m, hm'⟩ := hm.2 h3
    obtain ⟨vs, hvs⟩ := versionsBetween_exists hf t e.gas s.version (lt_of_le_of_lt (List.length_filter_le _ _) hg)
    exact ⟨_, upgradeDao_ok_iff.2 ⟨h1, k, hk, hu, m, hm', _, hr, vs, hvs, rfl, rfl⟩⟩

/-- A successful upgrade migrates the DAO through exactly the registered versions above the current one and not above
the target, each once, in ascending order, each with the message given for it (or the empty one); the version becomes
the target, and nothing else changes. -/
theorem C65_effect {a : Addr} {l : List Versioning.Call} {e : Env} {s s' : State} {u : Addr} {t : Version}
    {msgs : List (Version × Nat)} {o : List Out}
    (hr : e.registry s.versioning = some (Versioning.run (Versioning.init a) l))
    (h : exec e s u (.upgradeDao t msgs) = .ok (s', o)) :
    s' = { s with version := t } ∧
    ∃ (vs : List Info) (msg : Info → Option Nat), o = vs.map (fun v => .migrate e.self v.enterprise (msg v)) ∧
      vs.Pairwise (fun x y => x.version < y.version) ∧
      (∀ v, v ∈ vs ↔ Versioning.queryVersion (Versioning.run (Versioning.init a) l) v.version = .ok v ∧
        s.version < v.version ∧ v.version ≤ t) ∧
      ∀ v n, msg v = some n ↔ (v.version, n) ∈ msgs := by
  have hf := Versioning.run_filed l (Versioning.init_filed a)
  obtain ⟨_, k, _, _, m, hm, r, hr', vs, hvs, rfl, rfl⟩ := upgradeDao_ok_iff.1 h
  rw [hr] at hr'
  cases hr'
  have := versionsBetween_ok hf t e.gas s.version hvs
  subst this
  refine ⟨rfl, _, fun v => m.get v.version, rfl, (after_sorted hf s.version).sublist List.filter_sublist, fun v => mem_between hf, ?_⟩
  intro v n
  have := (migrateMsgs_fold msgs Map.empty).2 m hm v.version n
  rw [this]
  simp

/-- The version of a wired DAO never decreases. -/
theorem C65_monotone {self creator : Addr} {w w' : World} {l : List (Addr × Addr)} {c : Components}
    (hf : w.ent.finalized = true) (hc : w.ent.comps = some c) (h : Steps self creator w l w') :
    w.ent.version ≤ w'.ent.version := by
  obtain ⟨k', hk⟩ := h.kept hf hc
  exact hk.version

/-- From 1.2.1 to 1.2.6, through 1.2.5; the registry also has 1.10.0. -/
example : (match exec sampleEnv sampleDao 12 (.upgradeDao (ver 1 2 6) [(ver 1 2 6, 99)]) with
    | .ok r => some (r.1.version, r.2) | .error _ => none) =
      some (ver 1 2 6, [.migrate 10 23 none, .migrate 10 24 (some 99)]) := by decide +kernel

/-- The code accepts a target that is not registered: the DAO then has a version that does not exist, here without any
migration. Unless that version is registered later, attestations can no longer be set. -/
theorem C65_unregistered_witness :
    (∃ e, Versioning.queryVersion sampleRegistry (ver 7 7 7) = .error e) ∧
    exec sampleEnv { sampleDao with version := ver 5 0 0 } 12 (.upgradeDao (ver 7 7 7) []) =
      .ok ({ sampleDao with version := ver 7 7 7 }, []) ∧
    exec sampleEnv { sampleDao with version := ver 7 7 7 } 12 (.setAttestation 77) = .error .queryFailed :=
  ⟨⟨_, rfl⟩, rfl, rfl⟩

/-! ## C66 -/

/-- A user is restricted exactly if an attestation contract is set and the user has not signed it. -/
theorem C66_restricted_iff (att : Addr → Option Attestation) (s : State) (user : Addr) (b : Bool)
    (h : isRestricted att s user = .ok b) :
    b = true ↔ ∃ c a x, s.comps = some c ∧ c.attestation = some a ∧ att a = some x ∧ x.hasSigned user = false := by
  unfold isRestricted at h
  cases hc : s.comps with
  | none => rw [hc] at h; cases h
  | some c =>
    rw [hc] at h
    simp only at h
    cases ha : c.attestation with
    | none =>
      rw [ha] at h
      cases h
      constructor
      · intro hh; cases hh
      · rintro ⟨c', a, x, h1, h2, _⟩
        cases h1
        rw [ha] at h2; cases h2
    | some a =>
      rw [ha] at h
      simp only at h
      cases hx : att a with
      | none => rw [hx] at h; cases h
      | some x =>
        rw [hx] at h
        cases h
        constructor
        · intro hh
          exact ⟨c, a, x, rfl, ha, hx, by simpa using hh⟩
        · rintro ⟨c', a', x', h1, h2, h3, h4⟩
          cases h1
          rw [ha] at h2; cases h2
          rw [hx] at h3; cases h3
          simp [h4]

theorem Step.signatures {self creator : Addr} {w w' : World} {o : Option (Addr × Addr)} (h : Step self creator w o w')
    {a : Addr} {x : Attestation} (hx : w.atts.get a = some x) :
    ∃ x', w'.atts.get a = some x' ∧ ∀ u, x'.hasSigned u = true ↔ x.hasSigned u = true ∨ o = some (a, u) := by
  have hkeep : ∀ (b : Addr) (y : Attestation), w.atts.get b = none → (w.atts.set b y).get a = some x := by
    intro b y hb
    rw [Map.get_set, if_neg]
    · exact hx
    · rintro rfl
      rw [hx] at hb; cases hb
  cases h with
  | tx _ _ _ _ => exact ⟨x, hx, fun u => by simp⟩
  | attest _ _ _ hn _ => exact ⟨x, hkeep _ _ hn, fun u => by simp⟩
  | @sign b user y hy =>
    by_cases hb : b = a
    · subst hb
      rw [hx] at hy; cases hy
      refine ⟨x.sign user, by simp, fun u => ?_⟩
      simp only [Option.some.injEq, Prod.mk.injEq, true_and]
      unfold Attestation.hasSigned Attestation.sign
      simp only [Map.has_set, Bool.or_eq_true, decide_eq_true_eq]
      exact or_comm
    · refine ⟨x, by rw [Map.get_set, if_neg hb]; exact hx, fun u => ?_⟩
      simp [hb]
  | other hn => exact ⟨x, hkeep _ _ hn, fun u => by simp⟩

theorem Steps.signatures {self creator : Addr} {w w' : World} {l : List (Addr × Addr)} (h : Steps self creator w l w')
    {a : Addr} {x : Attestation} (hx : w.atts.get a = some x) :
    ∃ x', w'.atts.get a = some x' ∧ ∀ u, x'.hasSigned u = true ↔ x.hasSigned u = true ∨ (a, u) ∈ l := by
  induction h with
  | refl => exact ⟨x, hx, fun u => by simp⟩
  | @step w1 w2 l o _ hs ih =>
    obtain ⟨x1, h1, h2⟩ := ih
    obtain ⟨x2, h3, h4⟩ := hs.signatures h1
    refine ⟨x2, h3, fun u => ?_⟩
    rw [h4, h2, List.mem_append, Option.mem_toList, or_assoc]

/-- When the controller sets an attestation, the new contract becomes the attestation contract and all users are
restricted. -/
theorem C66_set_restricts_all {w : World} {e : Env} {sender a : Addr} {t code : Nat} {s s' : State}
    (hset : exec e w.ent sender (.setAttestation t) = .ok (s, [.attestation code t])) (hr : reply s a = .ok s')
    (user : Addr) :
    (∃ c, s'.comps = some c ∧ c.attestation = some a) ∧
      isRestricted (w.atts.set a (.init t)).get s' user = .ok true := by
  have h1 := exec_effect hset
  cases h1
  obtain ⟨c, hc, rfl⟩ := reply_ok_iff.1 hr
  refine ⟨⟨_, rfl, rfl⟩, ?_⟩
  unfold isRestricted
  simp only [Map.get_set_self]
  rfl

/-- From the creation of an attestation contract on, in every history, whenever that contract is the attestation
contract of the DAO, exactly those users are restricted who have not signed it. -/
theorem C66_since_created {self creator : Addr} {w w' : World} {a : Addr} {t : Nat} {c : Components}
    {l : List (Addr × Addr)} (hx : w.atts.get a = some (.init t)) (h : Steps self creator w l w')
    (hc : w'.ent.comps = some c) (ha : c.attestation = some a) (user : Addr) :
    isRestricted w'.atts.get w'.ent user = .ok (decide ((a, user) ∉ l)) := by
  obtain ⟨x', h1, h2⟩ := h.signatures hx
  unfold isRestricted
  rw [hc]
  simp only [ha, h1]
  congr 1
  have := h2 user
  have h0 : (Attestation.init t).hasSigned user = false := rfl
  rw [h0] at this
  by_cases hm : (a, user) ∈ l
  · have hs : x'.hasSigned user = true := this.2 (Or.inr hm)
    simp [hs, hm]
  · have hs : x'.hasSigned user = false := by
      cases hh : x'.hasSigned user with
      | false => rfl
      | true => rcases this.1 hh with h3 | h3
                · cases h3
                · exact absurd h3 hm
    simp [hs, hm]

/-- Signing lifts the restriction for good, as long as (or whenever) the signed contract is the attestation contract. -/
theorem C66_signed_for_good {self creator : Addr} {w w1 w2 : World} {a user : Addr} {c : Components}
    {l : List (Addr × Addr)} (hs : Step self creator w (some (a, user)) w1) (h : Steps self creator w1 l w2)
    (hc : w2.ent.comps = some c) (ha : c.attestation = some a) :
    isRestricted w2.atts.get w2.ent user = .ok false := by
  cases hs with
  | @sign a user y hy =>
    obtain ⟨x', h1, h2⟩ := h.signatures (a := a) (x := y.sign user) (by simp)
    have : x'.hasSigned user = true := by
      rw [h2]
      left
      unfold Attestation.hasSigned Attestation.sign
      simp [Map.has_set]
    unfold isRestricted
    rw [hc]
    simp only [ha, h1, this]
    rfl

/-- Without attestation contract nobody is restricted. -/
theorem C66_none (att : Addr → Option Attestation) (s : State) (user : Addr) (c : Components) (hc : s.comps = some c)
    (ha : c.attestation = none) : isRestricted att s user = .ok false := by
  unfold isRestricted
  rw [hc]
  simp only [ha]

/-- A signature of user 30 after the attestation was set at address 50; user 31 has not signed. -/
example : ∃ w', Steps 10 2 ⟨{ sampleDao with comps := some { sampleComps with attestation := some 50 } },
      Map.empty.set 50 (.init 77)⟩ [(50, 30)] w' ∧
    isRestricted w'.atts.get w'.ent 30 = .ok false ∧ isRestricted w'.atts.get w'.ent 31 = .ok true :=
  ⟨_, Steps.step (o := some (50, 30)) Steps.refl (Step.sign (a := 50) (user := 30) (x := .init 77) rfl), rfl, rfl⟩

/-! ## C74 -/

/-- Migrating a wired DAO migrates its outposts, distributor, membership and council contracts, once each and no others,
to the code of version 1.2.1, where the code of the membership contract is the one for the kind of the DAO. It fails if
that version is not registered. -/
theorem C74_migrate (e : Env) (s : State) (c : Components) (r : Versioning.State) (hc : s.comps = some c)
    (hr : e.registry s.versioning = some r) :
    (∀ x, Versioning.queryVersion r (ver 1 2 1) = .error x → migrate e s = .error .queryFailed) ∧
    ∀ v, Versioning.queryVersion r (ver 1 2 1) = .ok v →
      migrate e s = .ok [.migrate c.outposts v.outposts none, .migrate c.distributor v.distributor none,
        .migrate c.membership (match s.daoType with
          | .denom => v.denomStaking | .token => v.tokenStaking | .nft => v.nftStaking | .multisig => v.multisig) none,
        .migrate c.council v.multisig none] := by
  unfold migrate
  rw [hr]
  constructor
  · intro x hx
    simp only [hx]
  · intro v hv
    simp only [hv, hc]
    cases s.daoType <;> rfl

/-- So an upgrade to a later version through this code brings the DAO's contracts to 1.2.1 again, not to the version
upgraded to: the target plays no role. -/
theorem C74_target_ignored (e : Env) (s : State) (t : Version) : migrate e { s with version := t } = migrate e s := rfl

example : migrate sampleEnv sampleDao =
    .ok [.migrate 14 5 none, .migrate 15 7 none, .migrate 16 8 none, .migrate 17 11 none] := by decide +kernel

/-! ## C111 -/

/-- A value after a change, if there is one. -/
def Becomes {α : Type} (change : Option α) (old new : α) : Prop :=
  (∀ x, change = some x → new = x) ∧ (change = none → new = old)

theorem becomes_iff {α : Type} {c : Option α} {old new : α} : Becomes c old new ↔ new = c.getD old := by
  unfold Becomes
  cases c with
  | none => simp
  | some x => simp

/-- An update of the metadata is accepted exactly from the governance controller; it changes the fields for which it
names a value, to that value, leaves the other fields and everything else as they are, and sends nothing. -/
theorem C111_metadata_iff (e : Env) (s : State) (u : Addr) (c : MetadataChange) (s' : State) (o : List Out) :
    exec e s u (.updateMetadata c) = .ok (s', o) ↔ (∃ k, s.comps = some k ∧ u = k.controller) ∧ o = [] ∧
      s' = { s with metadata := s'.metadata } ∧ Becomes c.name s.metadata.name s'.metadata.name ∧
      Becomes c.description s.metadata.description s'.metadata.description ∧
      Becomes c.logo s.metadata.logo s'.metadata.logo ∧ Becomes c.github s.metadata.github s'.metadata.github ∧
      Becomes c.discord s.metadata.discord s'.metadata.discord ∧
      Becomes c.twitter s.metadata.twitter s'.metadata.twitter ∧
      Becomes c.telegram s.metadata.telegram s'.metadata.telegram := by
  simp only [exec, updateMetadata, bind_ok_iff, pure_ok_iff, Prod.mk.injEq, becomes_iff]
  constructor
  · rintro ⟨x, ⟨k, hk, rfl⟩, rfl, rfl⟩
    exact ⟨⟨k, controllerOnly_ok_iff.1 hk⟩, rfl, rfl, rfl, rfl, rfl, rfl, rfl, rfl, rfl⟩
  · rintro ⟨⟨k, hk⟩, rfl, hs, h1, h2, h3, h4, h5, h6, h7⟩
    refine ⟨s', ⟨k, controllerOnly_ok_iff.2 hk, ?_⟩, rfl, rfl⟩
    rw [hs]
    unfold changed
    rw [← h1, ← h2, ← h3, ← h4, ← h5, ← h6, ← h7]

/-- An update of the settings is accepted exactly from the governance controller, and replaces the addresses of the
registry of versions and of the factory if named. -/
theorem C111_settings_iff (e : Env) (s : State) (u : Addr) (v f : Option Addr) (s' : State) (o : List Out) :
    exec e s u (.updateConfig v f) = .ok (s', o) ↔ (∃ k, s.comps = some k ∧ u = k.controller) ∧ o = [] ∧
      s' = { s with versioning := s'.versioning, factory := s'.factory } ∧ Becomes v s.versioning s'.versioning ∧
      Becomes f s.factory s'.factory := by
  simp only [exec, updateConfig, bind_ok_iff, pure_ok_iff, Prod.mk.injEq, becomes_iff]
  constructor
  · rintro ⟨x, ⟨k, hk, rfl⟩, rfl, rfl⟩
    exact ⟨⟨k, controllerOnly_ok_iff.1 hk⟩, rfl, rfl, rfl, rfl⟩
  · rintro ⟨⟨k, hk⟩, rfl, hs, h1, h2⟩
    refine ⟨s', ⟨k, controllerOnly_ok_iff.2 hk, ?_⟩, rfl, rfl⟩
    rw [hs, ← h1, ← h2]

theorem mapM_custom_iff (l : List (Option Nat)) (o : List Out) :
    l.mapM (m := Except Err) (fun m => match m with | none => .error .parse | some n => .ok (Out.custom n)) = .ok o ↔
      ∃ ns : List Nat, l = ns.map some ∧ o = ns.map Out.custom := by
  induction l generalizing o with
  | nil =>
    simp only [List.mapM_nil, pure_ok_iff]
    constructor
    · rintro rfl; exact ⟨[], rfl, rfl⟩
    · rintro ⟨ns, h1, rfl⟩
      cases ns with
      | nil => rfl
      | cons n t => cases h1
  | cons x t ih =>
    simp only [List.mapM_cons, bind_ok_iff, pure_ok_iff, ih]
    constructor
    · rintro ⟨y, hy, ys, ⟨ns, rfl, rfl⟩, rfl⟩
      cases x with
      | none => cases hy
      | some n => cases hy; exact ⟨n :: ns, rfl, rfl⟩
    · rintro ⟨ns, h1, rfl⟩
      cases ns with
      | nil => cases h1
      | cons n t => cases h1; exact ⟨.custom n, rfl, _, ⟨t, rfl, rfl⟩, rfl⟩

/-- Custom messages are accepted exactly from the governance controller and if all of them parse; then they are sent,
each once and in the order given, and nothing changes. -/
theorem C111_messages_iff (e : Env) (s : State) (u : Addr) (l : List (Option Nat)) (s' : State) (o : List Out) :
    exec e s u (.executeMsgs l) = .ok (s', o) ↔ (∃ k, s.comps = some k ∧ u = k.controller) ∧ s' = s ∧
      ∃ ns : List Nat, l = ns.map some ∧ o = ns.map Out.custom := by
  simp only [exec, executeMsgs, bind_ok_iff, pure_ok_iff, Prod.mk.injEq, mapM_custom_iff]
  constructor
  · rintro ⟨x, ⟨k, hk, h⟩, rfl, rfl⟩
    exact ⟨⟨k, controllerOnly_ok_iff.1 hk⟩, rfl, (mapM_custom_iff l _).1 h⟩
  · rintro ⟨⟨k, hk⟩, rfl, h⟩
    exact ⟨o, ⟨k, controllerOnly_ok_iff.2 hk, (mapM_custom_iff l _).2 h⟩, rfl, rfl⟩

/-- Whatever happens to a DAO, if its metadata, its version, its registry of versions or its factory changes, then its
governance controller sent the message that does it; in particular none of them changes before the DAO is wired. -/
theorem C111_by_controller {self creator : Addr} {w w' : World} {o : Option (Addr × Addr)} (h : Step self creator w o w') :
    (w'.ent.metadata ≠ w.ent.metadata → ∃ k e c, w.ent.comps = some k ∧
      exec e w.ent k.controller (.updateMetadata c) = .ok (w'.ent, [])) ∧
    (w'.ent.version ≠ w.ent.version → ∃ k e t l out, w.ent.comps = some k ∧
      exec e w.ent k.controller (.upgradeDao t l) = .ok (w'.ent, out)) ∧
    (w'.ent.versioning ≠ w.ent.versioning ∨ w'.ent.factory ≠ w.ent.factory → ∃ k e v f, w.ent.comps = some k ∧
      exec e w.ent k.controller (.updateConfig v f) = .ok (w'.ent, [])) ∧
    w'.ent.daoType = w.ent.daoType ∧ w'.ent.created = w.ent.created := by
  cases h with
  | @tx e u m s out hs hcr hm h =>
    have h1 := exec_effect h
    simp only
    cases h1 with
    | finalize x hn _ => simp
    | metadata x k hk hu =>
      refine ⟨fun _ => ⟨k, e, x, hk, ?_⟩, by simp, by simp, rfl, rfl⟩
      rw [← hu, h, ((C111_metadata_iff _ _ _ _ _ _).1 h).2.1]
    | upgrade t l k hk hu ht => exact ⟨by simp, fun _ => ⟨k, e, t, l, out, hk, hu ▸ h⟩, by simp, rfl, rfl⟩
    | config v f k hk hu =>
      refine ⟨by simp, by simp, fun _ => ⟨k, e, v, f, hk, ?_⟩, rfl, rfl⟩
      rw [← hu, h, ((C111_settings_iff _ _ _ _ _ _ _).1 h).2.1]
    | attest t k hk hu => simp
    | remove k hk hu => simp
    | msgs l k hk hu => simp
  | @attest e u a t code s s' hs hcr h hn hr =>
    have h1 := exec_effect h
    cases h1 with
    | attest _ k hk hu =>
      unfold reply at hr
      rw [hk] at hr
      cases hr
      simp
  | sign _ => simp
  | other _ => simp

example : ∃ s', exec sampleEnv sampleDao 12 (.updateMetadata ⟨some 7, none, none, some (some 3), some none, none, none⟩) =
    .ok (s', []) ∧ s'.metadata = ⟨7, none, 0, some 3, none, none, none⟩ := ⟨_, rfl, by decide +kernel⟩

example : ∃ s', exec sampleEnv sampleDao 12 (.executeMsgs [some 4, some 5]) = .ok (s', [.custom 4, .custom 5]) :=
  ⟨_, rfl⟩

example : exec sampleEnv sampleDao 12 (.executeMsgs [some 4, none]) = .error .parse := rfl

end Verif.Enterprise
