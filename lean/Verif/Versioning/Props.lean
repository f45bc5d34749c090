import Verif.Versioning.Model

/-!
# The registry of versions: property C67
-/

set_option linter.unusedSimpArgs false

namespace Verif.Versioning
open Verif

/-! ### Helper lemmas -/

theorem updateAdmin_ok_iff {s s' : State} {u n : Addr} :
    updateAdmin s u n = .ok s' ↔ u = s.admin ∧ s' = { s with admin := n } := by
  unfold updateAdmin
  rw [ite_ok_iff]
  constructor
  · rintro ⟨h1, h2⟩; cases h2; exact ⟨Classical.not_not.1 h1, rfl⟩
  · rintro ⟨h1, rfl⟩; exact ⟨not_not.2 h1, rfl⟩

theorem addVersion_ok_iff {s s' : State} {u : Addr} {v : Info} :
    addVersion s u v = .ok s' ↔
      u = s.admin ∧ s.versions.get v.version = none ∧ s' = { s with versions := s.versions.set v.version v } := by
  unfold addVersion
  rw [ite_ok_iff, ite_ok_iff]
  constructor
  · rintro ⟨h1, h2, h3⟩
    cases h3
    refine ⟨(Classical.not_not.1 h1).symm, ?_, rfl⟩
    unfold Map.has at h2
    cases hg : s.versions.get v.version with
    | none => rfl
    | some x => rw [hg] at h2; exact absurd rfl h2
  · rintro ⟨h1, h2, rfl⟩
    refine ⟨not_not.2 h1.symm, ?_, rfl⟩
    unfold Map.has
    rw [h2]
    simp

theorem editVersion_ok_iff {s s' : State} {u : Addr} {m : Edit} :
    editVersion s u m = .ok s' ↔
      u = s.admin ∧ ∃ v, s.versions.get m.version = some v ∧
        s' = { s with versions := s.versions.set m.version (applyEdit v m) } := by
  unfold editVersion
  rw [ite_ok_iff]
  constructor
  · rintro ⟨h1, h2⟩
    refine ⟨(Classical.not_not.1 h1).symm, ?_⟩
    cases hg : s.versions.get m.version with
    | none => rw [hg] at h2; cases h2
    | some x => rw [hg] at h2; cases h2; exact ⟨x, rfl, rfl⟩
  · rintro ⟨h1, v, h2, rfl⟩
    refine ⟨not_not.2 h1.symm, ?_⟩
    rw [h2]

/-- Versions are filed under their own number. -/
def Filed (s : State) : Prop := ∀ k v, s.versions.get k = some v → v.version = k

theorem exec_filed {s s' : State} {u : Addr} {m : Msg} (hf : Filed s) (h : exec s u m = .ok s') : Filed s' := by
  cases m with
  | updateAdmin n =>
    obtain ⟨_, rfl⟩ := updateAdmin_ok_iff.1 h
    exact hf
  | addVersion v =>
    obtain ⟨_, _, rfl⟩ := addVersion_ok_iff.1 h
    intro k x hx
    simp only [Map.get_set] at hx
    split at hx
    · rename_i hk; cases hx; exact hk
    · exact hf k x hx
  | editVersion m =>
    obtain ⟨_, v, hv, rfl⟩ := editVersion_ok_iff.1 h
    intro k x hx
    simp only [Map.get_set] at hx
    split at hx
    · rename_i hk
      cases hx
      show v.version = k
      rw [hf _ v hv, hk]
    · exact hf k x hx

theorem run_filed (l : List Call) {s : State} (hf : Filed s) : Filed (run s l) := by
  induction l generalizing s with
  | nil => exact hf
  | cons c t ih =>
    refine ih ?_
    unfold step
    split
    · rename_i h; exact exec_filed hf h
    · exact hf

theorem init_filed (a : Addr) : Filed (init a) := by
  intro k v h
  cases h

/-! ## C67 -/

/-- Messages from anyone but the admin are refused. -/
theorem C67_admin_only (s : State) (u : Addr) (m : Msg) (h : u ≠ s.admin) : exec s u m = .error .unauthorized := by
  cases m <;> simp [exec, updateAdmin, addVersion, editVersion, h, Ne.symm h]

/-- Whatever others send, in any number, the registry stays as it is. -/
theorem C67_history (s : State) (l : List Call) (h : ∀ c ∈ l, c.sender ≠ s.admin) : run s l = s := by
  induction l with
  | nil => rfl
  | cons c t ih =>
    unfold run at ih ⊢
    have h1 : step s c = s := by
      unfold step
      rw [C67_admin_only s c.sender c.msg (h c List.mem_cons_self)]
    rw [List.foldl_cons, h1]
    exact ih (fun c hc => h c (List.mem_cons_of_mem _ hc))

/-- Adding: accepted exactly for a version that does not exist yet; then that version exists with the given record, and
the others are as before. -/
theorem C67_add (s : State) (v : Info) :
    ((∃ s', exec s s.admin (.addVersion v) = .ok s') ↔ ∃ e, queryVersion s v.version = .error e) ∧
    ∀ s', exec s s.admin (.addVersion v) = .ok s' →
      s'.admin = s.admin ∧ ∀ k, queryVersion s' k = if k = v.version then .ok v else queryVersion s k := by
  refine ⟨⟨?_, ?_⟩, ?_⟩
  · rintro ⟨s', h⟩
    obtain ⟨_, h2, _⟩ := addVersion_ok_iff.1 h
    unfold queryVersion
    rw [h2]
    exact ⟨_, rfl⟩
  · rintro ⟨e, h⟩
    unfold queryVersion at h
    cases hg : s.versions.get v.version with
    | none => exact ⟨_, addVersion_ok_iff.2 ⟨rfl, hg, rfl⟩⟩
    | some x => rw [hg] at h; cases h
  · intro s' h
    obtain ⟨_, h2, rfl⟩ := addVersion_ok_iff.1 h
    refine ⟨rfl, fun k => ?_⟩
    unfold queryVersion
    simp only [Map.get_set]
    by_cases hk : v.version = k
    · rw [if_pos hk, if_pos hk.symm]
    · rw [if_neg hk, if_neg (fun hh => hk hh.symm)]

/-- Editing: accepted exactly for an existing version; each item of its record becomes the given one, or stays if none
is given; its number stays, and the other versions are as before. -/
theorem C67_edit (s : State) (m : Edit) :
    ((∃ s', exec s s.admin (.editVersion m) = .ok s') ↔ ∃ v, queryVersion s m.version = .ok v) ∧
    ∀ s' v, exec s s.admin (.editVersion m) = .ok s' → queryVersion s m.version = .ok v →
      s'.admin = s.admin ∧ (∀ k, k ≠ m.version → queryVersion s' k = queryVersion s k) ∧
      queryVersion s' m.version = .ok ⟨v.version, m.changelog.getD v.changelog, m.attestation.getD v.attestation,
        m.enterprise.getD v.enterprise, m.governance.getD v.governance, m.controller.getD v.controller,
        m.outposts.getD v.outposts, m.treasury.getD v.treasury, m.distributor.getD v.distributor,
        m.tokenStaking.getD v.tokenStaking, m.denomStaking.getD v.denomStaking, m.nftStaking.getD v.nftStaking,
        m.multisig.getD v.multisig⟩ := by
  have hq : ∀ v, queryVersion s m.version = .ok v ↔ s.versions.get m.version = some v := by
    intro v
    unfold queryVersion
    cases s.versions.get m.version with
    | none => simp
    | some x => simp
  refine ⟨⟨?_, ?_⟩, ?_⟩
  · rintro ⟨s', h⟩
    obtain ⟨_, v, hv, _⟩ := editVersion_ok_iff.1 h
    exact ⟨v, (hq v).2 hv⟩
  · rintro ⟨v, hv⟩
    exact ⟨_, editVersion_ok_iff.2 ⟨rfl, v, (hq v).1 hv, rfl⟩⟩
  · intro s' v h hv
    obtain ⟨_, v', hv', rfl⟩ := editVersion_ok_iff.1 h
    have := (hq v).1 hv
    rw [this] at hv'
    cases hv'
    refine ⟨rfl, fun k hk => ?_, ?_⟩
    · unfold queryVersion
      simp only [Map.get_set]
      rw [if_neg (fun hh => hk hh.symm)]
    · unfold queryVersion
      simp only [Map.get_set, if_true]
      rfl

/-- No version is ever removed, and versions keep their number. -/
theorem C67_never_removed (a : Addr) (l1 l2 : List Call) (k : Version) (v : Info)
    (h : queryVersion (run (init a) l1) k = .ok v) :
    ∃ v', queryVersion (run (init a) (l1 ++ l2)) k = .ok v' ∧ v'.version = k := by
  have hq : ∀ (s : State) (v : Info), queryVersion s k = .ok v ↔ s.versions.get k = some v := by
    intro s v
    unfold queryVersion
    cases s.versions.get k with
    | none => simp
    | some x => simp
  have hrun : run (init a) (l1 ++ l2) = run (run (init a) l1) l2 := by unfold run; rw [List.foldl_append]
  have hf : Filed (run (init a) (l1 ++ l2)) := run_filed _ (init_filed a)
  suffices H : ∀ (l : List Call) (s : State) (v : Info), s.versions.get k = some v →
      ∃ v', (run s l).versions.get k = some v' by
    obtain ⟨v', hv'⟩ := H l2 _ v ((hq _ v).1 h)
    rw [← hrun] at hv'
    exact ⟨v', (hq _ v').2 hv', hf k v' hv'⟩
  intro l
  induction l with
  | nil => intro s v h; exact ⟨v, h⟩
  | cons c t ih =>
    intro s v h
    show ∃ v', (run (step s c) t).versions.get k = some v'
    obtain ⟨v1, h1⟩ : ∃ v1, (step s c).versions.get k = some v1 := by
      unfold step
      split
      · rename_i s' hs
        cases hm : c.msg with
        | updateAdmin n =>
          rw [hm] at hs
          obtain ⟨_, rfl⟩ := updateAdmin_ok_iff.1 hs
          exact ⟨v, h⟩
        | addVersion x =>
          rw [hm] at hs
          obtain ⟨_, _, rfl⟩ := addVersion_ok_iff.1 hs
          simp only [Map.get_set]
          split
          · exact ⟨x, rfl⟩
          · exact ⟨v, h⟩
        | editVersion x =>
          rw [hm] at hs
          obtain ⟨_, y, _, rfl⟩ := editVersion_ok_iff.1 hs
          simp only [Map.get_set]
          split
          · exact ⟨_, rfl⟩
          · exact ⟨v, h⟩
      · exact ⟨v, h⟩
    exact ih _ v1 h1

/-- The latest version is the greatest one; there is none exactly if there are no versions. -/
theorem C67_latest (a : Addr) (l : List Call) :
    (∀ v, queryLatest (run (init a) l) = .ok v →
      queryVersion (run (init a) l) v.version = .ok v ∧
      ∀ k w, queryVersion (run (init a) l) k = .ok w → k ≤ v.version) ∧
    ((∃ e, queryLatest (run (init a) l) = .error e) ↔ ∀ k, ∃ e, queryVersion (run (init a) l) k = .error e) := by
  have hf : Filed (run (init a) l) := run_filed _ (init_filed a)
  generalize run (init a) l = s at hf
  have hq : ∀ (k : Version) (v : Info), queryVersion s k = .ok v ↔ s.versions.get k = some v := by
    intro k v
    unfold queryVersion
    cases s.versions.get k with
    | none => simp
    | some x => simp
  have hlast : s.versions.entries.reverse.head? = s.versions.entries.getLast? := List.head?_reverse
  refine ⟨fun v hv => ?_, ?_⟩
  · unfold queryLatest at hv
    rw [hlast] at hv
    split at hv
    · cases hv
    · cases hl : s.versions.entries.getLast? with
      | none => rw [hl] at hv; cases hv
      | some e =>
        rw [hl] at hv
        cases hv
        have hm : s.versions.get e.1 = some e.2 := Map.get_eq_some_iff.2 (List.mem_of_getLast? hl)
        have he := hf _ _ hm
        refine ⟨(hq _ _).2 (by rw [he]; exact hm), fun k w hw => ?_⟩
        rw [he]
        have hw := Map.get_eq_some_iff.1 ((hq _ _).1 hw)
        obtain ⟨ys, hys⟩ := List.getLast?_eq_some_iff.1 hl
        have hs := s.versions.sorted
        rw [hys] at hs hw
        rcases List.mem_append.1 hw with h1 | h1
        · exact le_of_lt ((List.pairwise_append.1 hs).2.2 _ h1 _ (List.mem_singleton.2 rfl))
        · rw [List.mem_singleton] at h1
          rw [← h1]
  · constructor
    · rintro ⟨e, he⟩ k
      unfold queryLatest at he
      rw [hlast] at he
      have hnil : s.versions.entries = [] := by
        split at he
        · rename_i hh; exact List.isEmpty_iff.1 hh
        · cases hl : s.versions.entries.getLast? with
          | none => exact List.getLast?_eq_none_iff.1 hl
          | some e => rw [hl] at he; cases he
      unfold queryVersion
      cases hg : s.versions.get k with
      | none => exact ⟨_, rfl⟩
      | some v =>
        have := Map.get_eq_some_iff.1 hg
        rw [hnil] at this
        cases this
    · intro h
      unfold queryLatest
      cases hl : s.versions.entries with
      | nil => exact ⟨_, rfl⟩
      | cons e t =>
        have hm : s.versions.get e.1 = some e.2 := Map.get_eq_some_iff.2 (by rw [hl]; exact List.mem_cons_self)
        obtain ⟨x, hx⟩ := h e.1
        rw [(hq _ _).2 hm] at hx
        cases hx

/-- Reading page after page, of any positive size, lists each version exactly once, in increasing order; and the
reading comes to an end. -/
theorem C67_paging (a : Addr) (l : List Call) (limit : Option Nat) (hl : limit ≠ some 0) :
    (∃ ps, Reads (fun c => queryVersions (run (init a) l) c limit) (·.version) none ps) ∧
    ∀ ps, Reads (fun c => queryVersions (run (init a) l) c limit) (·.version) none ps →
      ps.flatten.Pairwise (fun x y => x.version < y.version) ∧
      ∀ v, v ∈ ps.flatten ↔ queryVersion (run (init a) l) v.version = .ok v := by
  have hf : Filed (run (init a) l) := run_filed _ (init_filed a)
  generalize run (init a) l = s at hf
  have hn : 0 < min (limit.getD 10) 50 := by
    cases limit with
    | none => decide
    | some n =>
      have : n ≠ 0 := fun h => hl (by rw [h])
      simp only [Option.getD_some]
      omega
  have hg : ∀ e ∈ s.versions.entries, (fun v : Version => v) ((·.version) (Prod.snd e)) = e.1 :=
    fun e he => hf _ _ (Map.get_eq_some_iff.2 he)
  have hid : ∀ c : Option Version, c.map (fun v : Version => v) = c := by intro c; cases c <;> rfl
  have hfun : (fun c => queryVersions s c limit) =
      fun c : Option Version => (s.versions.page (c.map (fun v : Version => v)) (min (limit.getD 10) 50)).map (·.2) := by
    funext c
    rw [hid]
    rfl
  rw [hfun]
  refine ⟨reads_page_exists (emb := fun v : Version => v) hg hn none, fun ps hps => ?_⟩
  have hres := reads_page (emb := fun v : Version => v) hg hn hps
  simp only [Option.map_none, afterL_none] at hres
  rw [hres]
  constructor
  · rw [List.pairwise_map]
    refine List.Pairwise.imp_of_mem ?_ s.versions.sorted
    intro x y hx hy hxy
    rw [hf _ _ (Map.get_eq_some_iff.2 hx), hf _ _ (Map.get_eq_some_iff.2 hy)]
    exact hxy
  · intro v
    unfold queryVersion
    constructor
    · intro hv
      obtain ⟨e, he, rfl⟩ := List.mem_map.1 hv
      have := Map.get_eq_some_iff.2 he
      rw [hf _ _ this, this]
    · intro hv
      cases hk : s.versions.get v.version with
      | none => rw [hk] at hv; cases hv
      | some w =>
        rw [hk] at hv
        cases hv
        exact List.mem_map.2 ⟨_, Map.get_eq_some_iff.1 hk, rfl⟩

/-- A record of a version. -/
def sampleInfo (v : Version) (code : Nat) : Info := ⟨v, 0, 1, code, 3, 4, 5, 6, 7, 8, 9, 10, 11⟩

/-- Versions added in some order, one edited, an intruder. -/
def sampleCalls : List Call :=
  [⟨1, .addVersion (sampleInfo (ver 1 10 0) 20)⟩, ⟨1, .addVersion (sampleInfo (ver 1 2 5) 21)⟩,
   ⟨9, .addVersion (sampleInfo (ver 2 0 0) 66)⟩, ⟨1, .addVersion (sampleInfo (ver 1 2 5) 22)⟩,
   ⟨1, .editVersion ⟨ver 1 2 5, none, none, some 23, none, none, none, none, none, none, none, none, none⟩⟩,
   ⟨1, .updateAdmin 9⟩, ⟨9, .addVersion (sampleInfo (ver 1 2 6) 24)⟩]

example : queryVersions (run (init 1) sampleCalls) none none =
      [sampleInfo (ver 1 2 5) 23, sampleInfo (ver 1 2 6) 24, sampleInfo (ver 1 10 0) 20] ∧
    queryVersions (run (init 1) sampleCalls) (some (ver 1 2 5)) (some 1) = [sampleInfo (ver 1 2 6) 24] ∧
    queryLatest (run (init 1) sampleCalls) = .ok (sampleInfo (ver 1 10 0) 20) ∧
    queryVersion (run (init 1) sampleCalls) (ver 1 2 5) = .ok (sampleInfo (ver 1 2 5) 23) := by decide +kernel

example : Reads (fun c => queryVersions (run (init 1) sampleCalls) c (some 2)) (·.version) none
    [[sampleInfo (ver 1 2 5) 23, sampleInfo (ver 1 2 6) 24], [sampleInfo (ver 1 10 0) 20]] := by
  refine Reads.more (x := sampleInfo (ver 1 2 6) 24) (by decide +kernel) ?_
  refine Reads.more (x := sampleInfo (ver 1 10 0) 20) (by decide +kernel) ?_
  exact Reads.stop (by decide +kernel)

end Verif.Versioning
