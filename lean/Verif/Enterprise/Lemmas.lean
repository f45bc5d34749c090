import Verif.Enterprise.Model
import Verif.Versioning.Props

/-!
# The enterprise contract: lemmas
-/

set_option linter.unusedSimpArgs false

namespace Verif.Enterprise
open Verif
open Verif.Versioning (Version Info)

theorem controllerOnly_ok_iff {s : State} {u : Addr} {c : Components} :
    controllerOnly s u = .ok c ↔ s.comps = some c ∧ u = c.controller := by
  unfold controllerOnly
  cases hc : s.comps with
  | none => simp
  | some x =>
    simp only [Option.some.injEq]
    rw [ite_ok_iff]
    constructor
    · rintro ⟨h1, h2⟩; cases h2; exact ⟨rfl, Classical.not_not.1 h1⟩
    · rintro ⟨rfl, h2⟩; exact ⟨not_not.2 h2, rfl⟩

theorem finalize_ok_iff {e : Env} {s s' : State} {u : Addr} {c : Components} :
    finalize e s u c = .ok s' ↔
      s.finalized = false ∧ u = e.creator ∧ s' = { s with comps := some c, finalized := true } := by
  unfold finalize
  rw [ite_ok_iff, ite_ok_iff]
  constructor
  · rintro ⟨h1, h2, h3⟩
    cases h3
    exact ⟨by simpa using h1, (Classical.not_not.1 h2).symm, rfl⟩
  · rintro ⟨h1, h2, rfl⟩
    exact ⟨by simp [h1], not_not.2 h2.symm, rfl⟩

/-- Effect of an accepted message on the state. -/
inductive Effect (e : Env) (s : State) (u : Addr) : Msg → State → Prop
  | finalize (c : Components) (h : s.finalized = false) (hu : u = e.creator) :
      Effect e s u (.finalize c) { s with comps := some c, finalized := true }
  | metadata (c : MetadataChange) (k : Components) (hk : s.comps = some k) (hu : u = k.controller) :
      Effect e s u (.updateMetadata c) { s with metadata := changed s.metadata c }
  | upgrade (t : Version) (l : List (Version × Nat)) (k : Components) (hk : s.comps = some k) (hu : u = k.controller)
      (ht : s.version < t) : Effect e s u (.upgradeDao t l) { s with version := t }
  | config (v f : Option Addr) (k : Components) (hk : s.comps = some k) (hu : u = k.controller) :
      Effect e s u (.updateConfig v f) { s with versioning := v.getD s.versioning, factory := f.getD s.factory }
  | attest (t : Nat) (k : Components) (hk : s.comps = some k) (hu : u = k.controller) :
      Effect e s u (.setAttestation t) s
  | remove (k : Components) (hk : s.comps = some k) (hu : u = k.controller) :
      Effect e s u .removeAttestation { s with comps := some { k with attestation := none } }
  | msgs (l : List (Option Nat)) (k : Components) (hk : s.comps = some k) (hu : u = k.controller) :
      Effect e s u (.executeMsgs l) s

theorem exec_effect {e : Env} {s s' : State} {u : Addr} {m : Msg} {o : List Out} (h : exec e s u m = .ok (s', o)) :
    Effect e s u m s' := by
  cases m with
  | finalize c =>
    simp only [exec, bind_ok_iff, pure_ok_iff, Prod.mk.injEq] at h
    obtain ⟨x, h1, rfl, _⟩ := h
    obtain ⟨a, b, rfl⟩ := finalize_ok_iff.1 h1
    exact .finalize c a b
  | updateMetadata c =>
    simp only [exec, updateMetadata, bind_ok_iff, pure_ok_iff, Prod.mk.injEq] at h
    obtain ⟨x, ⟨k, hk, rfl⟩, rfl, _⟩ := h
    obtain ⟨a, b⟩ := controllerOnly_ok_iff.1 hk
    exact .metadata c k a b
  | upgradeDao t l =>
    simp only [exec, upgradeDao] at h
    rw [ite_ok_iff] at h
    obtain ⟨ht, h⟩ := h
    simp only [bind_ok_iff] at h
    obtain ⟨k, hk, m, _, h⟩ := h
    obtain ⟨a, b⟩ := controllerOnly_ok_iff.1 hk
    cases hr : e.registry s.versioning with
    | none => rw [hr] at h; cases h
    | some r =>
      rw [hr] at h
      simp only [bind_ok_iff, pure_ok_iff, Prod.mk.injEq] at h
      obtain ⟨vs, _, rfl, _⟩ := h
      exact .upgrade t l k a b (not_le.1 ht)
  | updateConfig v f =>
    simp only [exec, updateConfig, bind_ok_iff, pure_ok_iff, Prod.mk.injEq] at h
    obtain ⟨x, ⟨k, hk, rfl⟩, rfl, _⟩ := h
    obtain ⟨a, b⟩ := controllerOnly_ok_iff.1 hk
    exact .config v f k a b
  | setAttestation t =>
    simp only [exec, setAttestation, bind_ok_iff, pure_ok_iff, Prod.mk.injEq] at h
    obtain ⟨x, ⟨k, hk, _⟩, rfl, _⟩ := h
    obtain ⟨a, b⟩ := controllerOnly_ok_iff.1 hk
    exact .attest t k a b
  | removeAttestation =>
    simp only [exec, removeAttestation, bind_ok_iff, pure_ok_iff, Prod.mk.injEq] at h
    obtain ⟨x, ⟨k, hk, rfl⟩, rfl, _⟩ := h
    obtain ⟨a, b⟩ := controllerOnly_ok_iff.1 hk
    exact .remove k a b
  | executeMsgs l =>
    simp only [exec, executeMsgs, bind_ok_iff, pure_ok_iff, Prod.mk.injEq] at h
    obtain ⟨x, ⟨k, hk, _⟩, rfl, _⟩ := h
    obtain ⟨a, b⟩ := controllerOnly_ok_iff.1 hk
    exact .msgs l k a b

theorem reply_ok_iff {s s' : State} {a : Addr} :
    reply s a = .ok s' ↔ ∃ c, s.comps = some c ∧ s' = { s with comps := some { c with attestation := some a } } := by
  unfold reply
  cases hc : s.comps with
  | none => simp
  | some c =>
    simp only [Except.ok.injEq, Option.some.injEq, exists_eq_left']
    exact eq_comm

/-- What every accepted message keeps, for a finalized DAO. -/
structure Kept (s s' : State) (k k' : Components) : Prop where
  fin : s'.finalized = s.finalized
  comps : s'.comps = some k'
  same : { k' with attestation := k.attestation } = k
  version : s.version ≤ s'.version
  daoType : s'.daoType = s.daoType
  created : s'.created = s.created

theorem Effect.kept {e : Env} {s s' : State} {u : Addr} {m : Msg} (h : Effect e s u m s') {k : Components}
    (hf : s.finalized = true) (hk : s.comps = some k) : ∃ k', Kept s s' k k' := by
  cases h with
  | finalize c hn _ => rw [hf] at hn; cases hn
  | metadata _ _ _ _ => exact ⟨k, ⟨rfl, hk, rfl, le_refl _, rfl, rfl⟩⟩
  | upgrade t _ _ _ _ ht => exact ⟨k, ⟨rfl, hk, rfl, le_of_lt ht, rfl, rfl⟩⟩
  | config _ _ _ _ _ => exact ⟨k, ⟨rfl, hk, rfl, le_refl _, rfl, rfl⟩⟩
  | attest _ _ _ _ => exact ⟨k, ⟨rfl, hk, rfl, le_refl _, rfl, rfl⟩⟩
  | remove k2 hk2 _ =>
    rw [hk] at hk2; cases hk2
    exact ⟨_, ⟨rfl, rfl, rfl, le_refl _, rfl, rfl⟩⟩
  | msgs _ _ _ _ => exact ⟨k, ⟨rfl, hk, rfl, le_refl _, rfl, rfl⟩⟩

theorem Step.kept {self creator : Addr} {w w' : World} {o : Option (Addr × Addr)} (h : Step self creator w o w')
    {k : Components} (hf : w.ent.finalized = true) (hk : w.ent.comps = some k) : ∃ k', Kept w.ent w'.ent k k' := by
  cases h with
  | tx _ _ _ h => exact (exec_effect h).kept hf hk
  | attest _ _ h hn hr =>
    have h1 := exec_effect h
    cases h1
    obtain ⟨c, hc, rfl⟩ := reply_ok_iff.1 hr
    rw [hk] at hc; cases hc
    exact ⟨_, ⟨rfl, rfl, rfl, le_refl _, rfl, rfl⟩⟩
  | sign _ => exact ⟨k, ⟨rfl, hk, rfl, le_refl _, rfl, rfl⟩⟩
  | other _ => exact ⟨k, ⟨rfl, hk, rfl, le_refl _, rfl, rfl⟩⟩

theorem Steps.kept {self creator : Addr} {w w' : World} {l : List (Addr × Addr)} (h : Steps self creator w l w')
    {k : Components} (hf : w.ent.finalized = true) (hk : w.ent.comps = some k) :
    ∃ k', Kept w.ent w'.ent k k' := by
  induction h with
  | refl => exact ⟨k, ⟨rfl, hk, rfl, le_refl _, rfl, rfl⟩⟩
  | step _ hs ih =>
    obtain ⟨k1, h1⟩ := ih
    obtain ⟨k2, h2⟩ := hs.kept (h1.fin.trans hf) h1.comps
    refine ⟨k2, ⟨h2.fin.trans h1.fin, h2.comps, ?_, le_trans h1.version h2.version, h2.daoType.trans h1.daoType,
      h2.created.trans h1.created⟩⟩
    have e1 := h1.same
    have e2 := h2.same
    rw [← e1, ← e2]

/-! ### Versions between -/

theorem scan_fst {t : Version} : ∀ {l : List Info}, l.Pairwise (fun x y => x.version < y.version) →
    (scan t l).1 = l.filter (fun v => decide (v.version ≤ t))
  | [], _ => rfl
  | v :: l, h => by
    have hv := (List.pairwise_cons.1 h).1
    have ih := scan_fst (List.pairwise_cons.1 h).2 (t := t)
    unfold scan
    split
    · rename_i hlt
      symm
      rw [List.filter_eq_nil_iff]
      intro x hx
      rcases List.mem_cons.1 hx with rfl | hx
      · simpa using hlt
      · simpa using lt_trans hlt (hv x hx)
    · rename_i hlt
      split
      · rename_i heq
        rw [List.filter_cons_of_pos (by simp [heq])]
        have hnil : l.filter (fun v => decide (v.version ≤ t)) = [] := by
          rw [List.filter_eq_nil_iff]
          intro x hx
          have := hv x hx
          rw [heq] at this
          simpa using this
        rw [hnil]
      · rw [List.filter_cons_of_pos (by simpa using not_lt.1 hlt), ih]

theorem scan_stop {t : Version} : ∀ {l : List Info}, (scan t l).2 = true → ∃ v ∈ l, t ≤ v.version
  | [], h => by cases h
  | v :: l, h => by
    unfold scan at h
    split at h
    · rename_i hlt; exact ⟨v, List.mem_cons_self, le_of_lt hlt⟩
    · split at h
      · rename_i heq; exact ⟨v, List.mem_cons_self, le_of_eq heq.symm⟩
      · obtain ⟨x, hx, hx'⟩ := scan_stop h
        exact ⟨x, List.mem_cons_of_mem _ hx, hx'⟩

/-- The registered versions after `last`, up to `target`. -/
def between (r : Versioning.State) (last target : Version) : List Info :=
  ((afterL (some last) r.versions.entries).map (·.2)).filter (fun v => decide (v.version ≤ target))

theorem after_sorted {r : Versioning.State} (hf : Versioning.Filed r) (last : Version) :
    ((afterL (some last) r.versions.entries).map (·.2)).Pairwise (fun x y => x.version < y.version) := by
  rw [List.pairwise_map]
  refine List.Pairwise.imp_of_mem ?_ (afterL_sorted r.versions.sorted)
  intro x y hx hy hxy
  have h1 := (List.mem_filter.1 hx).1
  have h2 := (List.mem_filter.1 hy).1
  rw [hf _ _ (Map.get_eq_some_iff.2 h1), hf _ _ (Map.get_eq_some_iff.2 h2)]
  exact hxy

theorem page_last {r : Versioning.State} (hf : Versioning.Filed r) {last : Version} {x : Info}
    (hx : (Versioning.queryVersions r (some last) (some 100)).getLast? = some x) :
    afterL (some x.version) r.versions.entries = (afterL (some last) r.versions.entries).drop 50 ∧
      0 < (afterL (some last) r.versions.entries).length := by
  unfold Versioning.queryVersions at hx
  simp only [page_eq, List.getLast?_map] at hx
  obtain ⟨e, he, hxe⟩ := Option.map_eq_some_iff.1 hx
  subst hxe
  have hmem : e ∈ afterL (some last) r.versions.entries := List.mem_of_mem_take (List.mem_of_getLast? he)
  have hin : e ∈ r.versions.entries := (List.mem_filter.1 hmem).1
  have hv := hf _ _ (Map.get_eq_some_iff.2 hin)
  refine ⟨?_, List.length_pos_of_mem hmem⟩
  rw [hv, afterL_afterL (some last) e hmem]
  exact afterL_last (afterL_sorted r.versions.sorted) 50 e he

theorem versionsBetween_ok {r : Versioning.State} (hf : Versioning.Filed r) (t : Version) : ∀ (n : Nat) (last : Version)
    {vs : List Info}, versionsBetween r t n last = .ok vs → vs = between r last t := by
  intro n
  induction n with
  | zero => intro last vs h; cases h
  | succ n ih =>
    intro last vs h
    unfold versionsBetween at h
    have hpage : Versioning.queryVersions r (some last) (some 100) =
        ((afterL (some last) r.versions.entries).map (·.2)).take 50 := by
      unfold Versioning.queryVersions
      simp only [page_eq]
      rw [List.map_take]
      rfl
    have hsort := after_sorted hf last
    have hsplit : ((afterL (some last) r.versions.entries).map (·.2)) =
        ((afterL (some last) r.versions.entries).map (·.2)).take 50 ++
        ((afterL (some last) r.versions.entries).map (·.2)).drop 50 := (List.take_append_drop _ _).symm
    have hscan := scan_fst (t := t) (hsort.sublist (List.take_sublist 50 _))
    simp only at h
    cases hl : (Versioning.queryVersions r (some last) (some 100)).getLast? with
    | none =>
      rw [hl] at h
      cases h
      have := List.getLast?_eq_none_iff.1 hl
      rw [hpage] at this
      unfold between
      rcases List.take_eq_nil_iff.1 this with h1 | h1
      · cases h1
      · rw [h1]; rfl
    | some x =>
      rw [hl] at h
      simp only at h
      rw [hpage] at h
      split at h
      · rename_i hs
        cases h
        rw [hscan]
        unfold between
        rw [hsplit, List.filter_append]
        obtain ⟨v, hv, hv'⟩ := scan_stop hs
        have : (((afterL (some last) r.versions.entries).map (·.2)).drop 50).filter
            (fun v => decide (v.version ≤ t)) = [] := by
          rw [List.filter_eq_nil_iff]
          intro y hy
          rw [hsplit] at hsort
          have := (List.pairwise_append.1 hsort).2.2 v hv y hy
          simpa using lt_of_le_of_lt hv' this
        rw [this, List.append_nil, List.take_append_drop]
      · simp only [bind_ok_iff, pure_ok_iff] at h
        obtain ⟨rest, h1, rfl⟩ := h
        have := ih _ h1
        rw [this, hscan]
        unfold between
        rw [(page_last hf hl).1, List.map_drop]
        conv => rhs; rw [hsplit, List.filter_append]

theorem versionsBetween_exists {r : Versioning.State} (hf : Versioning.Filed r) (t : Version) : ∀ (n : Nat)
    (last : Version), (afterL (some last) r.versions.entries).length < n → ∃ vs, versionsBetween r t n last = .ok vs := by
  intro n
  induction n with
  | zero => intro last h; omega
  | succ n ih =>
    intro last h
    unfold versionsBetween
    simp only
    cases hl : (Versioning.queryVersions r (some last) (some 100)).getLast? with
    | none => exact ⟨_, rfl⟩
    | some x =>
      simp only
      split
      · exact ⟨_, rfl⟩
      · obtain ⟨h1, h2⟩ := page_last hf hl
        obtain ⟨rest, hr⟩ := ih x.version (by rw [h1, List.length_drop]; omega)
        rw [hr]
        exact ⟨_, rfl⟩

theorem mem_between {r : Versioning.State} (hf : Versioning.Filed r) {last t : Version} {v : Info} :
    v ∈ between r last t ↔ Versioning.queryVersion r v.version = .ok v ∧ last < v.version ∧ v.version ≤ t := by
  have hq : Versioning.queryVersion r v.version = .ok v ↔ (v.version, v) ∈ r.versions.entries := by
    rw [← Map.get_eq_some_iff]
    unfold Versioning.queryVersion
    cases r.versions.get v.version with
    | none => simp
    | some x => simp
  rw [hq]
  unfold between
  rw [List.mem_filter, List.mem_map]
  constructor
  · rintro ⟨⟨e, he, rfl⟩, hle⟩
    obtain ⟨h1, h2⟩ := List.mem_filter.1 he
    have h3 := hf _ _ (Map.get_eq_some_iff.2 h1)
    rw [h3] at hle ⊢
    exact ⟨h1, by simpa using h2, by simpa using hle⟩
  · rintro ⟨h1, h2, h3⟩
    exact ⟨⟨_, List.mem_filter.2 ⟨h1, by simpa using h2⟩, rfl⟩, by simpa using h3⟩

theorem migrateMsgs_fold : ∀ (l : List (Version × Nat)) (m0 : Map Version Nat),
    ((∃ m, l.foldlM (fun (m : Map Version Nat) x => if m.has x.1 then (.error .duplicateVersionMigrateMsg : Except Err _)
        else .ok (m.set x.1 x.2)) m0 = .ok m) ↔
      (l.map (·.1)).Nodup ∧ ∀ x ∈ l, m0.get x.1 = none) ∧
    ∀ m, l.foldlM (fun (m : Map Version Nat) x => if m.has x.1 then (.error .duplicateVersionMigrateMsg : Except Err _)
        else .ok (m.set x.1 x.2)) m0 = .ok m →
      ∀ v n, m.get v = some n ↔ ((v, n) ∈ l ∨ m0.get v = some n)
  | [], m0 => by
    constructor
    · simp [pure, Except.pure]
    · intro m h v n
      rw [foldlM_nil_ok_iff] at h
      subst h
      simp
  | (a, b) :: l, m0 => by
    obtain ⟨i1, i2⟩ := migrateMsgs_fold l (m0.set a b)
    have hnone : m0.has a = true ↔ m0.get a ≠ none := by
      unfold Map.has
      cases m0.get a <;> simp
    constructor
    · constructor
      · rintro ⟨m, h⟩
        rw [foldlM_cons_ok_iff] at h
        obtain ⟨m1, h1, h2⟩ := h
        rw [ite_ok_iff] at h1
        obtain ⟨h3, h4⟩ := h1
        cases h4
        obtain ⟨j1, j2⟩ := i1.1 ⟨m, h2⟩
        refine ⟨?_, ?_⟩
        · rw [List.map_cons, List.nodup_cons]
          refine ⟨fun hm => ?_, j1⟩
          obtain ⟨x, hx, hxa⟩ := List.mem_map.1 hm
          have := j2 x hx
          rw [Map.get_set, if_pos hxa.symm] at this
          cases this
        · intro x hx
          rcases List.mem_cons.1 hx with rfl | hx
          · by_contra hc; exact h3 (hnone.2 hc)
          · have := j2 x hx
            rw [Map.get_set] at this
            split at this
            · cases this
            · exact this
      · rintro ⟨h1, h2⟩
        rw [List.map_cons, List.nodup_cons] at h1
        obtain ⟨m, hm⟩ := i1.2 ⟨h1.2, fun x hx => by
          rw [Map.get_set, if_neg]
          · exact h2 x (List.mem_cons_of_mem _ hx)
          · rintro rfl
            exact h1.1 (List.mem_map.2 ⟨x, hx, rfl⟩)⟩
        refine ⟨m, ?_⟩
        rw [foldlM_cons_ok_iff]
        refine ⟨_, ?_, hm⟩
        rw [if_neg]
        intro hc
        exact hnone.1 hc (h2 (a, b) List.mem_cons_self)
    · intro m h v n
      rw [foldlM_cons_ok_iff] at h
      obtain ⟨m1, h1, h2⟩ := h
      rw [ite_ok_iff] at h1
      obtain ⟨h3, h4⟩ := h1
      cases h4
      have hd := (i1.1 ⟨m, h2⟩).2
      rw [i2 m h2, Map.get_set, List.mem_cons, Prod.mk.injEq]
      have h5 : m0.get a = none := by by_contra hc; exact h3 (hnone.2 hc)
      by_cases hav : a = v
      · subst hav
        rw [if_pos rfl, h5]
        simp only [Option.some.injEq, reduceCtorEq, or_false, true_and]
        constructor
        · rintro (h | h)
          · exact Or.inr h
          · exact Or.inl h.symm
        · rintro (h | h)
          · exact Or.inr h.symm
          · exact Or.inl h
      · rw [if_neg hav]
        constructor
        · rintro (h | h)
          · exact Or.inl (Or.inr h)
          · exact Or.inr h
        · rintro ((⟨h, _⟩ | h) | h)
          · exact absurd h.symm hav
          · exact Or.inl h
          · exact Or.inr h

theorem upgradeDao_ok_iff {e : Env} {s s' : State} {u : Addr} {t : Version} {l : List (Version × Nat)} {o : List Out} :
    upgradeDao e s u t l = .ok (s', o) ↔ s.version < t ∧ ∃ k, s.comps = some k ∧ u = k.controller ∧
      ∃ m, migrateMsgs l = .ok m ∧ ∃ r, e.registry s.versioning = some r ∧
        ∃ vs, versionsBetween r t e.gas s.version = .ok vs ∧ s' = { s with version := t } ∧
          o = vs.map (fun v => .migrate e.self v.enterprise (m.get v.version)) := by
  unfold upgradeDao
  rw [ite_ok_iff, not_le]
  refine and_congr_right fun _ => ?_
  simp only [bind_ok_iff]
  constructor
  · rintro ⟨k, hk, m, hm, h⟩
    obtain ⟨a, b⟩ := controllerOnly_ok_iff.1 hk
    refine ⟨k, a, b, m, hm, ?_⟩
    cases hr : e.registry s.versioning with
    | none => rw [hr] at h; cases h
    | some r =>
      rw [hr] at h
      simp only [bind_ok_iff, pure_ok_iff, Prod.mk.injEq] at h
      obtain ⟨vs, h1, h2, h3⟩ := h
      exact ⟨r, rfl, vs, h1, h2.symm, h3.symm⟩
  · rintro ⟨k, a, b, m, hm, r, hr, vs, h1, h2, h3⟩
    refine ⟨k, controllerOnly_ok_iff.2 ⟨a, b⟩, m, hm, ?_⟩
    rw [hr]
    simp only [bind_ok_iff, pure_ok_iff, Prod.mk.injEq]
    exact ⟨vs, h1, h2.symm, h3.symm⟩

end Verif.Enterprise
