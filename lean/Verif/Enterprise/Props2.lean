import Verif.Enterprise.Props

/-!
# The enterprise contract: a DAO goes through the versions in order (C153)
-/

set_option linter.unusedSimpArgs false

namespace Verif.Enterprise
open Verif
open Verif.Versioning (Version Info ver)

/-! ### Specification -/

/-- A DAO and the registry of versions that it uses. -/
structure Pair where
  reg : Versioning.State
  dao : State

/-- What can happen: a message to the registry, or one to the DAO. -/
inductive Happening
  | registry (c : Versioning.Call)
  | dao (sender : Addr) (m : Msg)

/-- The surroundings, but for the content of the registry: address and creator of the DAO, address of the registry, gas. -/
structure Site where
  self : Addr
  creator : Addr
  registry : Addr
  gas : Nat

/-- What the DAO sees when the registry has the content `r`. -/
def Site.env (g : Site) (r : Versioning.State) : Env :=
  ⟨g.self, g.creator, fun a => if a = g.registry then some r else none, g.gas⟩

/-- DAO and registry after a message, and what the DAO sends. A message that fails changes nothing. -/
def happen (g : Site) (w : Pair) : Happening → Pair × List Out
  | .registry c => (⟨Versioning.step w.reg c, w.dao⟩, [])
  | .dao u m =>
    match exec (g.env w.reg) w.dao u m with
    | .ok (s, o) => (⟨w.reg, s⟩, o)
    | .error _ => (w, [])

/-- After a history. -/
def after (g : Site) (w : Pair) : List Happening → Pair
  | [] => w
  | x :: t => after g (happen g w x).1 t

/-- All that the DAO sends in a history. -/
def sent (g : Site) (w : Pair) : List Happening → List Out
  | [] => []
  | x :: t => (happen g w x).2 ++ sent g (happen g w x).1 t

/-- The codes to which the DAO migrates itself, in order. -/
def migrations (g : Site) (l : List Out) : List Nat :=
  l.filterMap (fun o => match o with | .migrate a code _ => if a = g.self then some code else none | _ => none)

/-- The registry has the version. -/
def Registered (r : Versioning.State) (k : Version) : Prop := ∃ v, Versioning.queryVersion r k = .ok v

/-- The history does not move the DAO to another registry. -/
def sameRegistry (h : List Happening) : Prop := ∀ u v f, Happening.dao u (.updateConfig v f) ∈ h → v = none

/-! ### Lemmas -/

theorem registered_iff {r : Versioning.State} {k : Version} : Registered r k ↔ ∃ v, r.versions.get k = some v := by
  unfold Registered Versioning.queryVersion
  cases r.versions.get k with
  | none => simp
  | some v => simp

theorem registered_step {r : Versioning.State} {k : Version} (h : Registered r k) (c : Versioning.Call) :
    Registered (Versioning.step r c) k := by
  rw [registered_iff] at h ⊢
  obtain ⟨v, hv⟩ := h
  have hset : ∀ (j : Version) (x : Info), ∃ v, (r.versions.set j x).get k = some v := by
    intro j x
    rw [Map.get_set]
    by_cases hj : j = k
    · exact ⟨x, if_pos hj⟩
    · exact ⟨v, by rw [if_neg hj]; exact hv⟩
  unfold Versioning.step
  cases he : Versioning.exec r c.sender c.msg with
  | error _ => exact ⟨v, hv⟩
  | ok r' =>
    cases hm : c.msg with
    | updateAdmin n =>
      rw [hm] at he
      obtain ⟨_, rfl⟩ := Versioning.updateAdmin_ok_iff.1 he
      exact ⟨v, hv⟩
    | addVersion i =>
      rw [hm] at he
      obtain ⟨_, _, rfl⟩ := Versioning.addVersion_ok_iff.1 he
      exact hset _ _
    | editVersion i =>
      rw [hm] at he
      obtain ⟨_, x, _, rfl⟩ := Versioning.editVersion_ok_iff.1 he
      exact hset _ _

theorem filed_step {r : Versioning.State} (h : Versioning.Filed r) (c : Versioning.Call) : Versioning.Filed (Versioning.step r c) :=
  Versioning.run_filed [c] h

/-- Messages other than an upgrade. -/
theorem exec_other {e : Env} {s s' : State} {u : Addr} {m : Msg} {o : List Out} (h : exec e s u m = .ok (s', o))
    (hm : ∀ t l, m ≠ .upgradeDao t l) : s'.version = s.version ∧ (∀ g : Site, migrations g o = []) ∧
      ((∀ v f, m = .updateConfig v f → v = none) → s'.versioning = s.versioning) := by
  cases m with
  | upgradeDao t l => exact absurd rfl (hm t l)
  | finalize c =>
    obtain ⟨_, _, rfl, rfl⟩ := (C64_finalize_iff e s u c s' o).1 h
    exact ⟨rfl, fun _ => rfl, fun _ => rfl⟩
  | updateMetadata c =>
    obtain ⟨_, rfl, h1, _⟩ := (C111_metadata_iff e s u c s' o).1 h
    exact ⟨by rw [h1], fun _ => rfl, fun _ => by rw [h1]⟩
  | updateConfig v f =>
    obtain ⟨_, rfl, h1, h2, _⟩ := (C111_settings_iff e s u v f s' o).1 h
    refine ⟨by rw [h1], fun _ => rfl, fun hv => ?_⟩
    rw [hv v f rfl] at h2
    exact h2.2 rfl
  | executeMsgs l =>
    obtain ⟨_, rfl, ns, _, rfl⟩ := (C111_messages_iff e s u l s' o).1 h
    refine ⟨rfl, fun g => ?_, fun _ => rfl⟩
    unfold migrations
    rw [List.filterMap_eq_nil_iff]
    intro x hx
    obtain ⟨n, _, rfl⟩ := List.mem_map.1 hx
    rfl
  | removeAttestation =>
    simp only [exec, bind_ok_iff, pure_ok_iff, Prod.mk.injEq] at h
    obtain ⟨x, h1, rfl, rfl⟩ := h
    unfold removeAttestation at h1
    obtain ⟨c, _, h1⟩ := bind_ok_iff.1 h1
    cases pure_ok_iff.1 h1
    exact ⟨rfl, fun _ => rfl, fun _ => rfl⟩
  | setAttestation t =>
    simp only [exec, bind_ok_iff, pure_ok_iff, Prod.mk.injEq] at h
    obtain ⟨x, h1, rfl, rfl⟩ := h
    refine ⟨rfl, fun g => ?_, fun _ => rfl⟩
    unfold setAttestation at h1
    obtain ⟨c, _, h1⟩ := bind_ok_iff.1 h1
    split at h1
    · cases h1
    · split at h1
      · cases h1
      · cases h1; rfl

/-- The upgrade. -/
theorem exec_upgrade {e : Env} {s s' : State} {u : Addr} {t : Version} {l : List (Version × Nat)} {o : List Out}
    {r : Versioning.State} (hf : Versioning.Filed r) (hr : e.registry s.versioning = some r)
    (h : exec e s u (.upgradeDao t l) = .ok (s', o)) :
    s.version < t ∧ s' = { s with version := t } ∧ ∃ (vs : List Info) (msg : Info → Option Nat),
      o = vs.map (fun v => .migrate e.self v.enterprise (msg v)) ∧ vs.Pairwise (fun x y => x.version < y.version) ∧
      ∀ v, v ∈ vs ↔ Versioning.queryVersion r v.version = .ok v ∧ s.version < v.version ∧ v.version ≤ t := by
  obtain ⟨h0, k, _, _, m, _, r', hr', vs, hvs, rfl, rfl⟩ := upgradeDao_ok_iff.1 h
  rw [hr] at hr'
  cases hr'
  have := versionsBetween_ok hf t e.gas s.version hvs
  subst this
  exact ⟨h0, rfl, _, fun v => m.get v.version, rfl, (after_sorted hf s.version).sublist List.filter_sublist, fun v => mem_between hf⟩

theorem migrations_map (g : Site) (vs : List Info) (msg : Info → Option Nat) :
    migrations g (vs.map (fun v => .migrate g.self v.enterprise (msg v))) = vs.map (·.enterprise) := by
  induction vs with
  | nil => rfl
  | cons v vs ih =>
    unfold migrations at ih ⊢
    simp only [List.map_cons, List.filterMap_cons, if_true, ih]

theorem migrations_append (g : Site) (l l' : List Out) : migrations g (l ++ l') = migrations g l ++ migrations g l' :=
  List.filterMap_append ..

/-- One event. -/
theorem happen_effect {g : Site} {w : Pair} (hf : Versioning.Filed w.reg) (hr : w.dao.versioning = g.registry) {x : Happening}
    (hx : ∀ u v f, x = .dao u (.updateConfig v f) → v = none) :
    Versioning.Filed (happen g w x).1.reg ∧ (happen g w x).1.dao.versioning = g.registry ∧
    w.dao.version ≤ (happen g w x).1.dao.version ∧ (∀ k, Registered w.reg k → Registered (happen g w x).1.reg k) ∧
    ∃ vs : List Info, migrations g (happen g w x).2 = vs.map (·.enterprise) ∧
      vs.Pairwise (fun x y => x.version < y.version) ∧ ∀ k, (∃ v ∈ vs, v.version = k) ↔
        Registered w.reg k ∧ w.dao.version < k ∧ k ≤ (happen g w x).1.dao.version := by
  have hno : ∀ k v : Version, ¬ (v < k ∧ k ≤ v) := fun k v h => absurd h.1 (not_lt.2 h.2)
  have hnil : ∀ (v : Version), ∃ vs : List Info, [] = vs.map (·.enterprise) ∧ vs.Pairwise (fun x y => x.version < y.version) ∧
      ∀ k, (∃ v ∈ vs, v.version = k) ↔ Registered w.reg k ∧ v < k ∧ k ≤ v := by
    intro v
    refine ⟨[], rfl, List.Pairwise.nil, fun k => ?_⟩
    constructor
    · rintro ⟨_, h, _⟩; cases h
    · rintro ⟨_, h⟩; exact absurd h (hno k v)
  cases x with
  | registry c => exact ⟨filed_step hf c, hr, le_refl _, fun k hk => registered_step hk c, hnil _⟩
  | dao u m =>
    cases he : exec (g.env w.reg) w.dao u m with
    | error er =>
      have hh : happen g w (.dao u m) = (w, []) := by simp only [happen, he]
      rw [hh]
      exact ⟨hf, hr, le_refl _, fun _ hk => hk, hnil _⟩
    | ok p =>
      obtain ⟨s', o⟩ := p
      have hh : happen g w (.dao u m) = (⟨w.reg, s'⟩, o) := by simp only [happen, he]
      rw [hh]
      simp only
      by_cases hm : ∃ t l, m = .upgradeDao t l
      · obtain ⟨t, l, rfl⟩ := hm
        have hreg : (g.env w.reg).registry w.dao.versioning = some w.reg := if_pos hr
        obtain ⟨hlt, rfl, vs, msg, rfl, hs, hv⟩ := exec_upgrade hf hreg he
        refine ⟨hf, hr, le_of_lt hlt, fun _ hk => hk, vs, migrations_map g vs msg, hs, fun k => ?_⟩
        constructor
        · rintro ⟨v, hvm, rfl⟩
          obtain ⟨h1, h2, h3⟩ := (hv v).1 hvm
          exact ⟨⟨v, h1⟩, h2, h3⟩
        · rintro ⟨⟨v, h1⟩, h2, h3⟩
          have hk : v.version = k := by
            obtain ⟨v', hv', hq⟩ : ∃ v', w.reg.versions.get k = some v' ∧ v' = v := by
              unfold Versioning.queryVersion at h1
              cases hg : w.reg.versions.get k with
              | none => rw [hg] at h1; cases h1
              | some y => rw [hg] at h1; cases h1; exact ⟨_, rfl, rfl⟩
            subst hq
            exact hf k v' hv'
          exact ⟨v, (hv v).2 ⟨by rw [hk]; exact h1, by rw [hk]; exact h2, by rw [hk]; exact h3⟩, hk⟩
      · obtain ⟨h1, h2, h3⟩ := exec_other he (fun t l hh => hm ⟨t, l, hh⟩)
        rw [h1, h2 g, h3 (fun v f hmm => hx u v f (by rw [hmm]))]
        exact ⟨hf, hr, le_refl _, fun _ hk => hk, hnil _⟩

/-! ### Theorems -/

theorem through (g : Site) : ∀ (h : List Happening) (w : Pair), Versioning.Filed w.reg → w.dao.versioning = g.registry →
    sameRegistry h → w.dao.version ≤ (after g w h).dao.version ∧
    ∃ vs : List Info, migrations g (sent g w h) = vs.map (·.enterprise) ∧ vs.Pairwise (fun x y => x.version < y.version) ∧
      (∀ v ∈ vs, w.dao.version < v.version ∧ v.version ≤ (after g w h).dao.version) ∧
      ∀ k, (∃ v ∈ vs, v.version = k) ↔ k ≤ (after g w h).dao.version ∧
        ∃ h1 h2, h = h1 ++ h2 ∧ (after g w h1).dao.version < k ∧ Registered (after g w h1).reg k
  | [], w, _, _, _ => by
    refine ⟨le_refl _, [], rfl, List.Pairwise.nil, fun _ hv => (by cases hv), fun k => ?_⟩
    constructor
    · rintro ⟨_, h, _⟩; cases h
    · rintro ⟨h1, l1, l2, hl, h2, _⟩
      obtain ⟨rfl, _⟩ := List.append_eq_nil_iff.1 hl.symm
      exact absurd h2 (not_lt.2 h1)
  | x :: h, w, hf, hr, hs => by
    obtain ⟨f1, r1, m1, g1, vs, e1, p1, q1⟩ := happen_effect hf hr (x := x) (fun u v f hx => hs u v f (by rw [hx]; exact List.mem_cons_self ..))
    obtain ⟨m2, vs', e2, p2, b2, q2⟩ := through g h (happen g w x).1 f1 r1 (fun u v f hx => hs u v f (List.mem_cons_of_mem _ hx))
    have hafter : after g w (x :: h) = after g (happen g w x).1 h := rfl
    refine ⟨le_trans m1 m2, vs ++ vs', ?_, ?_, fun v hv => ?_, fun k => ?_⟩
    · show migrations g ((happen g w x).2 ++ sent g (happen g w x).1 h) = _
      rw [migrations_append, e1, e2, List.map_append]
    · refine List.pairwise_append.2 ⟨p1, p2, fun y hy z hz => ?_⟩
      exact lt_of_le_of_lt ((q1 y.version).1 ⟨y, hy, rfl⟩).2.2 (b2 z hz).1
    · rcases List.mem_append.1 hv with hv | hv
      · obtain ⟨_, k1, k2⟩ := (q1 v.version).1 ⟨v, hv, rfl⟩
        exact ⟨k1, le_trans k2 m2⟩
      · exact ⟨lt_of_le_of_lt m1 (b2 v hv).1, (b2 v hv).2⟩
    · constructor
      · rintro ⟨v, hv, rfl⟩
        rcases List.mem_append.1 hv with hv | hv
        · obtain ⟨k0, k1, k2⟩ := (q1 v.version).1 ⟨v, hv, rfl⟩
          exact ⟨le_trans k2 m2, [], x :: h, rfl, k1, k0⟩
        · obtain ⟨k1, l1, l2, rfl, k2, k3⟩ := (q2 v.version).1 ⟨v, hv, rfl⟩
          exact ⟨k1, x :: l1, l2, rfl, k2, k3⟩
      · rintro ⟨k1, l1, l2, hl, k2, k3⟩
        rw [hafter] at k1
        have key : (∃ v ∈ vs, v.version = k) ∨ ∃ v ∈ vs', v.version = k := by
          cases l1 with
          | nil =>
            by_cases hk : k ≤ (happen g w x).1.dao.version
            · exact .inl ((q1 k).2 ⟨k3, k2, hk⟩)
            · exact .inr ((q2 k).2 ⟨k1, [], h, rfl, not_le.1 hk, g1 k k3⟩)
          | cons y l1 =>
            cases hl
            exact .inr ((q2 k).2 ⟨k1, l1, l2, rfl, k2, k3⟩)
        rcases key with ⟨v, hv, hk⟩ | ⟨v, hv, hk⟩
        · exact ⟨v, List.mem_append_left _ hv, hk⟩
        · exact ⟨v, List.mem_append_right _ hv, hk⟩

/-- **Each version once, in order.** Over any history of a DAO and its registry of versions, the DAO migrates through versions in
strictly ascending order, so through each at most once; and through exactly those up to its version that were registered
at a moment when the DAO was still below them. (The DAO stays with that registry.) -/
theorem C153_through {a : Addr} {l : List Versioning.Call} (g : Site) (s : State) (hr : s.versioning = g.registry)
    (h : List Happening) (hs : sameRegistry h) :
    ∃ vs : List Info,
      migrations g (sent g ⟨Versioning.run (Versioning.init a) l, s⟩ h) = vs.map (·.enterprise) ∧
      vs.Pairwise (fun x y => x.version < y.version) ∧
      ∀ k, (∃ v ∈ vs, v.version = k) ↔ k ≤ (after g ⟨Versioning.run (Versioning.init a) l, s⟩ h).dao.version ∧
        ∃ h1 h2, h = h1 ++ h2 ∧ (after g ⟨Versioning.run (Versioning.init a) l, s⟩ h1).dao.version < k ∧
          Registered (after g ⟨Versioning.run (Versioning.init a) l, s⟩ h1).reg k := by
  obtain ⟨_, vs, h1, h2, _, h3⟩ := through g h ⟨Versioning.run (Versioning.init a) l, s⟩
    (Versioning.run_filed l (Versioning.init_filed a)) hr hs
  exact ⟨vs, h1, h2, h3⟩

theorem after_append (g : Site) : ∀ (h1 h2 : List Happening) (w : Pair), after g w (h1 ++ h2) = after g (after g w h1) h2
  | [], _, _ => rfl
  | _ :: h1, h2, _ => after_append g h1 h2 _

theorem registered_after (g : Site) {k : Version} : ∀ (h : List Happening) (w : Pair), Registered w.reg k →
    Registered (after g w h).reg k
  | [], _, hk => hk
  | x :: h, w, hk => by
    refine registered_after g h _ ?_
    cases x with
    | registry c => exact registered_step hk c
    | dao u m =>
      cases he : exec (g.env w.reg) w.dao u m with
      | error _ => simp only [happen, he]; exact hk
      | ok p => simp only [happen, he]; exact hk

/-- **A version that comes too late is never gone through.** If a version is not registered while the DAO is below it, and the
DAO has passed it, then none of its migrations, past or to come, is one to that version: fixes that are registered under a lower
number than a DAO has reach that DAO by no upgrade. -/
theorem C153_missed {a : Addr} {l : List Versioning.Call} (g : Site) (s : State) (hr : s.versioning = g.registry)
    (h h' : List Happening) (hs : sameRegistry (h ++ h')) {k : Version}
    (hk : k ≤ (after g ⟨Versioning.run (Versioning.init a) l, s⟩ h).dao.version)
    (hn : ¬ Registered (after g ⟨Versioning.run (Versioning.init a) l, s⟩ h).reg k) :
    ∃ vs : List Info,
      migrations g (sent g ⟨Versioning.run (Versioning.init a) l, s⟩ (h ++ h')) = vs.map (·.enterprise) ∧
      ∀ v ∈ vs, v.version ≠ k := by
  obtain ⟨vs, h1, _, h3⟩ := C153_through (a := a) (l := l) g s hr (h ++ h') hs
  refine ⟨vs, h1, fun v hv hvk => ?_⟩
  obtain ⟨_, l1, l2, hl, h4, h5⟩ := (h3 k).1 ⟨v, hv, hvk⟩
  have hf := Versioning.run_filed l (Versioning.init_filed a)
  rcases List.append_eq_append_iff.1 hl with ⟨m, rfl, rfl⟩ | ⟨m, rfl, rfl⟩
  · -- the split comes after `h`
    rw [after_append] at h4
    have hsm : sameRegistry m := fun u v f hx => hs u v f (by
      rw [← List.append_assoc]; exact List.mem_append_left _ (List.mem_append_right _ hx))
    have hsh : sameRegistry h := fun u v f hx => hs u v f (List.mem_append_left _ hx)
    have hkeep : ∀ (h : List Happening) (w : Pair), Versioning.Filed w.reg → w.dao.versioning = g.registry → sameRegistry h →
        Versioning.Filed (after g w h).reg ∧ (after g w h).dao.versioning = g.registry := by
      intro h
      induction h with
      | nil => intro w hf hr _; exact ⟨hf, hr⟩
      | cons x h ih =>
        intro w hf hr hs
        obtain ⟨f1, r1, _⟩ := happen_effect hf hr (x := x) (fun u v f hx => hs u v f (by rw [hx]; exact List.mem_cons_self ..))
        exact ih _ f1 r1 (fun u v f hx => hs u v f (List.mem_cons_of_mem _ hx))
    obtain ⟨f2, r2⟩ := hkeep h ⟨Versioning.run (Versioning.init a) l, s⟩ hf hr hsh
    exact absurd (lt_of_le_of_lt (le_trans hk (through g m _ f2 r2 hsm).1) h4) (lt_irrefl _)
  · exact hn (by rw [after_append]; exact registered_after g m _ h5)

/-- **In steps or at once.** With the registry as it is, an upgrade to `t` and one to `t'` after it send what a single upgrade
to `t'` sends, in the same order, and leave the DAO in the same state; each is accepted if the single one is. -/
theorem C153_steps {a : Addr} {l : List Versioning.Call} (e : Env) (s : State) (u : Addr) {t t' : Version}
    (msgs : List (Version × Nat)) (hr : e.registry s.versioning = some (Versioning.run (Versioning.init a) l))
    (hg : (Versioning.run (Versioning.init a) l).versions.size < e.gas) (h1 : s.version < t) (h2 : t < t') {s' : State}
    {o : List Out} (h : exec e s u (.upgradeDao t' msgs) = .ok (s', o)) :
    ∃ s1 o1 o2, exec e s u (.upgradeDao t msgs) = .ok (s1, o1) ∧ exec e s1 u (.upgradeDao t' msgs) = .ok (s', o2) ∧
      o = o1 ++ o2 := by
  have hf := Versioning.run_filed l (Versioning.init_filed a)
  obtain ⟨_, k, hk, hu, m, hm, r, hr', vs, hvs, rfl, rfl⟩ := upgradeDao_ok_iff.1 h
  rw [hr] at hr'
  cases hr'
  obtain ⟨vs1, hvs1⟩ := versionsBetween_exists hf t e.gas s.version (lt_of_le_of_lt (List.length_filter_le _ _) hg)
  obtain ⟨vs2, hvs2⟩ := versionsBetween_exists hf t' e.gas t (lt_of_le_of_lt (List.length_filter_le _ _) hg)
  refine ⟨{ s with version := t }, _, _, upgradeDao_ok_iff.2 ⟨h1, k, hk, hu, m, hm, _, hr, vs1, hvs1, rfl, rfl⟩,
    upgradeDao_ok_iff.2 ⟨h2, k, hk, hu, m, hm, _, hr, vs2, hvs2, rfl, rfl⟩, ?_⟩
  rw [← List.map_append]
  congr 1
  have e0 := versionsBetween_ok hf t' e.gas s.version hvs
  have e1 := versionsBetween_ok hf t e.gas s.version hvs1
  have e2 := versionsBetween_ok hf t' e.gas t hvs2
  have s0 : vs.Pairwise (fun x y => x.version < y.version) := by
    rw [e0]; exact (after_sorted hf s.version).sublist List.filter_sublist
  have s1 : vs1.Pairwise (fun x y => x.version < y.version) := by
    rw [e1]; exact (after_sorted hf s.version).sublist List.filter_sublist
  have s2 : vs2.Pairwise (fun x y => x.version < y.version) := by
    rw [e2]; exact (after_sorted hf t).sublist List.filter_sublist
  have m0 : ∀ v, v ∈ vs ↔ Versioning.queryVersion (Versioning.run (Versioning.init a) l) v.version = .ok v ∧
      s.version < v.version ∧ v.version ≤ t' := by intro v; rw [e0]; exact mem_between hf
  have m1 : ∀ v, v ∈ vs1 ↔ Versioning.queryVersion (Versioning.run (Versioning.init a) l) v.version = .ok v ∧
      s.version < v.version ∧ v.version ≤ t := by intro v; rw [e1]; exact mem_between hf
  have m2 : ∀ v, v ∈ vs2 ↔ Versioning.queryVersion (Versioning.run (Versioning.init a) l) v.version = .ok v ∧
      t < v.version ∧ v.version ≤ t' := by intro v; rw [e2]; exact mem_between hf
  have s12 : (vs1 ++ vs2).Pairwise (fun x y => x.version < y.version) := by
    refine List.pairwise_append.2 ⟨s1, s2, fun x hx y hy => ?_⟩
    exact lt_of_le_of_lt ((m1 x).1 hx).2.2 ((m2 y).1 hy).2.1
  refine List.Perm.eq_of_pairwise (le := fun x y : Info => x.version < y.version) (fun x y _ _ hxy hyx => absurd hxy (lt_asymm hyx)) s0 s12 ?_
  have nd : ∀ {q : List Info}, q.Pairwise (fun x y => x.version < y.version) → q.Nodup := fun hq =>
    hq.imp (fun hxy he => absurd hxy (by rw [he]; exact lt_irrefl _))
  refine (List.perm_ext_iff_of_nodup (nd s0) (nd s12)).2 (fun v => ?_)
  rw [List.mem_append, m0, m1, m2]
  constructor
  · rintro ⟨q, k1, k2⟩
    by_cases hv : v.version ≤ t
    · exact .inl ⟨q, k1, hv⟩
    · exact .inr ⟨q, not_le.1 hv, k2⟩
  · rintro (⟨q, k1, k2⟩ | ⟨q, k1, k2⟩)
    · exact ⟨q, k1, le_trans k2 (le_of_lt h2)⟩
    · exact ⟨q, lt_trans h1 k1, k2⟩

/-! ### Example -/

/-- The sample DAO, its registry and its controller 12. -/
def sampleSite : Site := ⟨10, 2, 3, 100⟩

/-- An upgrade to 1.2.5; then 1.2.4 is registered, too late, and 1.3.0; then upgrades to 1.10.0, one of them refused. -/
def sampleLife : List Happening :=
  [.dao 12 (.upgradeDao (ver 1 2 5) []), .registry ⟨9, .addVersion (Versioning.sampleInfo (ver 1 2 4) 70)⟩,
    .registry ⟨9, .addVersion (Versioning.sampleInfo (ver 1 3 0) 71)⟩, .dao 13 (.upgradeDao (ver 1 10 0) []),
    .dao 12 (.upgradeDao (ver 1 10 0) [])]

/-- Hypotheses met: the DAO goes through the codes of 1.2.5, 1.2.6, 1.3.0 and 1.10.0, not through that of 1.2.4. -/
example : sampleDao.versioning = sampleSite.registry ∧ sameRegistry sampleLife ∧
    migrations sampleSite (sent sampleSite ⟨sampleRegistry, sampleDao⟩ sampleLife) = [23, 24, 71, 20] ∧
    (after sampleSite ⟨sampleRegistry, sampleDao⟩ sampleLife).dao.version = ver 1 10 0 ∧
    ver 1 2 4 ≤ (after sampleSite ⟨sampleRegistry, sampleDao⟩ (sampleLife.take 1)).dao.version ∧
    ¬ Registered (after sampleSite ⟨sampleRegistry, sampleDao⟩ (sampleLife.take 1)).reg (ver 1 2 4) := by
  refine ⟨rfl, fun u v f h => ?_, by decide +kernel, by decide +kernel, by decide +kernel, ?_⟩
  · simp [sampleLife] at h
  · rintro ⟨v, hv⟩
    have : Versioning.queryVersion (after sampleSite ⟨sampleRegistry, sampleDao⟩ (sampleLife.take 1)).reg (ver 1 2 4) =
      .error .versionNotFound := by decide +kernel
    rw [this] at hv
    cases hv

/-- Hypotheses of `C153_steps` met: the sample DAO could go to 1.10.0 at once, or to 1.2.5 first. -/
example : (∃ l, sampleEnv.registry sampleDao.versioning = some (Versioning.run (Versioning.init 1) l) ∧
      (Versioning.run (Versioning.init 1) l).versions.size < sampleEnv.gas) ∧
    sampleDao.version < ver 1 2 5 ∧ ver 1 2 5 < ver 1 10 0 ∧
    ∃ s' o, exec sampleEnv sampleDao 12 (.upgradeDao (ver 1 10 0) []) = .ok (s', o) ∧ o.length = 3 := by
  refine ⟨⟨_, rfl, by decide +kernel⟩, by decide +kernel, by decide +kernel, _, _, rfl, by decide +kernel⟩

end Verif.Enterprise
