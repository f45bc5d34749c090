import Verif.Base.Rename
import Verif.Distributor.Props9

/-!
# Funds distributor: all users are treated alike (C168)
-/

set_option linter.unusedSimpArgs false

namespace Verif.Distributor
open Verif

/-! ## Specification -/

/-- The environment with other names for the sender and the restricted users; assets keep their names. -/
def Env.ren (π : Renaming) (e : Env) : Env :=
  { e with sender := π e.sender, restricted := fun u => e.restricted (π.symm u) }

/-- A list of users and weights, with other names for the users. -/
def listRen (π : Renaming) (l : List (Addr × Nat)) : List (Addr × Nat) := l.map (fun p => (π p.1, p.2))

/-- A message with other names for the users. -/
def Msg.ren (π : Renaming) : Msg → Msg
  | .updateWeights l => .updateWeights (listRen π l)
  | .updateMin m => .updateMin m
  | .distributeNative f => .distributeNative f
  | .claim u d t => .claim (π u) d t
  | .receiveCw20 k a => .receiveCw20 k a

/-- A call with other names for the users. -/
def Call.ren (π : Renaming) (c : Call) : Call := ⟨c.env.ren π, c.msg.ren π, c.delivered⟩

/-- Tokens, which send themselves to the distributor, keep their names. -/
def SendersKept (π : Renaming) (c : Call) : Prop := ∀ k a, c.msg = .receiveCw20 k a → π c.env.sender = c.env.sender

/-! ## The renamed state -/

/-- The ledger with other names for the users. -/
def Ledger.ren (π : Renaming) (L : Ledger) : Ledger := ⟨L.idx, L.dist.rename (lexRen π) id⟩

/-- The state with other names for the users. -/
def State.ren (π : Renaming) (s : State) : State :=
  { admin := π s.admin
    min := s.min
    weights := s.weights.rename π id
    effective := s.effective.rename π id
    total := s.total
    native := s.native.ren π
    cw20 := s.cw20.ren π }

/-- A transfer with another name for the user. -/
def Out.ren (π : Renaming) (o : Out) : Out := ⟨π o.to, o.asset, o.amount⟩

/-- A result with other names for the users. -/
def resRen (π : Renaming) (r : State × List Out) : State × List Out := (r.1.ren π, r.2.map (Out.ren π))

theorem getId {K : Type} [LinearOrder K] (m : Map K V) (σ : K ≃ K) (k : K) : (m.rename σ id).get (σ k) = m.get k := by
  rw [Map.get_rename, Option.map_id]
  rfl

theorem Ledger.ren_get (π : Renaming) (L : Ledger) (u : Addr) (a : Nat) :
    (L.ren π).dist.get (toLex (π u, a)) = L.dist.get (toLex (u, a)) := getId L.dist (lexRen π) (toLex (u, a))

theorem Ledger.ren_set (π : Renaming) (L : Ledger) (u : Addr) (a : Nat) (d : Dist) :
    ({ L with dist := L.dist.set (toLex (u, a)) d } : Ledger).ren π =
      { L.ren π with dist := (L.ren π).dist.set (toLex (π u, a)) d } := by
  unfold Ledger.ren
  congr 1
  exact Map.rename_set L.dist (lexRen π) id (toLex (u, a)) d

theorem ren_settleOne (π : Renaming) (u : Addr) (w : Nat) (L : Ledger) (e : Nat × Nat) :
    Ledger.settleOne (π u) w (L.ren π) e = (Ledger.settleOne u w L e).map (Ledger.ren π) := by
  unfold Ledger.settleOne
  rw [Ledger.ren_get]
  cases reward e.2 (L.dist.get (toLex (u, e.1))) w with
  | error x => rfl
  | ok r => exact congrArg Except.ok (Ledger.ren_set π L u e.1 _).symm

theorem ren_settleL (π : Renaming) (u : Addr) (w : Nat) : ∀ (l : List (Nat × Nat)) (L : Ledger),
    l.foldlM (Ledger.settleOne (π u) w) (L.ren π) = (l.foldlM (Ledger.settleOne u w) L).map (Ledger.ren π)
  | [], _ => rfl
  | e :: t, L => by
    rw [List.foldlM_cons, List.foldlM_cons, ren_settleOne]
    cases Ledger.settleOne u w L e with
    | error x => rfl
    | ok L1 => exact ren_settleL π u w t L1

theorem ren_settle (π : Renaming) (L : Ledger) (u : Addr) (w : Nat) :
    (L.ren π).settle (π u) w = (L.settle u w).map (Ledger.ren π) := ren_settleL π u w L.idx.entries L

theorem ren_initUserL (π : Renaming) (u : Addr) : ∀ (l : List (Nat × Nat)) (L : Ledger),
    l.foldl (Ledger.initOne (π u)) (L.ren π) = (l.foldl (Ledger.initOne u) L).ren π
  | [], _ => rfl
  | e :: t, L => by
    rw [List.foldl_cons, List.foldl_cons, ← ren_initUserL π u t]
    congr 1
    unfold Ledger.initOne
    rw [Ledger.ren_get]
    cases L.dist.get (toLex (u, e.1)) with
    | none => exact (Ledger.ren_set π L u e.1 _).symm
    | some d => exact (Ledger.ren_set π L u e.1 _).symm

theorem ren_initUser (π : Renaming) (L : Ledger) (u : Addr) : (L.ren π).initUser (π u) = (L.initUser u).ren π :=
  ren_initUserL π u L.idx.entries L

theorem ren_effective (π : Renaming) (s : State) (u : Addr) : (s.ren π).effective.get (π u) = s.effective.get u :=
  getId s.effective π u

theorem ren_weights (π : Renaming) (s : State) (u : Addr) : (s.ren π).weights.get (π u) = s.weights.get u :=
  getId s.weights π u

theorem ren_refresh (π : Renaming) (s : State) (u : Addr) :
    refresh (s.ren π) (π u) = (refresh s u).map (fun x => (x.1.ren π, x.2.ren π)) := by
  unfold refresh
  rw [ren_effective]
  cases s.effective.get u with
  | none => exact congrArg Except.ok (Prod.ext (ren_initUser π s.native u) (ren_initUser π s.cw20 u))
  | some old =>
    dsimp only
    rw [show (s.ren π).native = s.native.ren π from rfl, show (s.ren π).cw20 = s.cw20.ren π from rfl, ren_settle, ren_settle]
    cases s.native.settle u old with
    | error x => rfl
    | ok n =>
      show (do let c ← Except.map (Ledger.ren π) (s.cw20.settle u old); _) = Except.map _ (do let c ← s.cw20.settle u old; _)
      cases s.cw20.settle u old <;> rfl

theorem ren_updateOne (π : Renaming) (s : State) (p : Addr × Nat) :
    updateOne (s.ren π) (π p.1, p.2) = (updateOne s p).map (State.ren π) := by
  unfold updateOne
  dsimp only
  rw [ren_refresh, ren_effective]
  cases refresh s p.1 with
  | error x => rfl
  | ok ls =>
    show (do let t ← csub s.total ((s.effective.get p.1).getD 0); _) =
      Except.map (State.ren π) (do let t ← csub s.total ((s.effective.get p.1).getD 0); _)
    cases csub s.total ((s.effective.get p.1).getD 0) with
    | error x => rfl
    | ok t =>
      show (do let t ← cadd128 t (effWeight p.2 s.min); _) = Except.map (State.ren π) (do let t ← cadd128 t (effWeight p.2 s.min); _)
      cases cadd128 t (effWeight p.2 s.min) with
      | error x => rfl
      | ok t' =>
        refine congrArg Except.ok ?_
        symm
        show State.ren π { s with
          native := ls.1, cw20 := ls.2, weights := s.weights.set p.1 p.2,
          effective := s.effective.set p.1 (effWeight p.2 s.min), total := t' } = _
        unfold State.ren
        congr 1
        · exact Map.rename_set s.weights π id p.1 p.2
        · exact Map.rename_set s.effective π id p.1 (effWeight p.2 s.min)

theorem ren_updates (π : Renaming) : ∀ (l : List (Addr × Nat)) (s : State),
    (listRen π l).foldlM updateOne (s.ren π) = (l.foldlM updateOne s).map (State.ren π)
  | [], _ => rfl
  | p :: t, s => by
    show ((π p.1, p.2) :: listRen π t).foldlM _ _ = _
    rw [List.foldlM_cons, List.foldlM_cons, ren_updateOne]
    cases updateOne s p with
    | error x => rfl
    | ok s1 => exact ren_updates π t s1

theorem ren_minOne (π : Renaming) (b : Bool) (s : State) (p : Addr × Nat) :
    minOne b (s.ren π) (π p.1, p.2) = (minOne b s p).map (State.ren π) := by
  unfold minOne
  dsimp only
  rw [ren_effective]
  rw [show (s.ren π).native = s.native.ren π from rfl, show (s.ren π).cw20 = s.cw20.ren π from rfl, ren_settle, ren_settle]
  cases s.native.settle p.1 ((s.effective.get p.1).getD 0) with
  | error x => rfl
  | ok n =>
    show (do let c ← Except.map (Ledger.ren π) (s.cw20.settle p.1 ((s.effective.get p.1).getD 0)); _) =
      Except.map (State.ren π) (do let c ← s.cw20.settle p.1 ((s.effective.get p.1).getD 0); _)
    cases s.cw20.settle p.1 ((s.effective.get p.1).getD 0) with
    | error x => rfl
    | ok c =>
      show (do let t ← csub s.total ((s.effective.get p.1).getD 0); _) =
        Except.map (State.ren π) (do let t ← csub s.total ((s.effective.get p.1).getD 0); _)
      cases csub s.total ((s.effective.get p.1).getD 0) with
      | error x => rfl
      | ok t =>
        show (do let t ← cadd128 t (if b then p.2 else 0); _) =
          Except.map (State.ren π) (do let t ← cadd128 t (if b then p.2 else 0); _)
        cases cadd128 t (if b then p.2 else 0) with
        | error x => rfl
        | ok t' =>
          refine congrArg Except.ok ?_
          symm
          show State.ren π { s with
            native := n, cw20 := c, effective := s.effective.set p.1 (if b then p.2 else 0), total := t' } = _
          unfold State.ren
          congr 1
          exact Map.rename_set s.effective π id p.1 (if b then p.2 else 0)

theorem ren_mins (π : Renaming) (b : Bool) : ∀ (l : List (Addr × Nat)) (s : State),
    (listRen π l).foldlM (minOne b) (s.ren π) = (l.foldlM (minOne b) s).map (State.ren π)
  | [], _ => rfl
  | p :: t, s => by
    show ((π p.1, p.2) :: listRen π t).foldlM _ _ = _
    rw [List.foldlM_cons, List.foldlM_cons, ren_minOne]
    cases minOne b s p with
    | error x => rfl
    | ok s1 => exact ren_mins π b t s1

/-! ### The order in which users are settled when the minimum changes -/

theorem settle_loc' {U : Addr → Prop} {v : Addr} (hv : U v) {w : Nat} {L M L' : Ledger} (h : L.Same U M)
    (hL : L.settle v w = .ok L') : ∃ M', M.settle v w = .ok M' ∧ L'.Same U M' := by
  unfold Ledger.settle at *
  rw [← h.idx]
  exact settle_loc hv _ h hL

theorem minOne_iff {b : Bool} {s s' : State} {p : Addr × Nat} : minOne b s p = .ok s' ↔ ∃ n c : Ledger,
    s.native.settle p.1 (effective s p.1) = .ok n ∧ s.cw20.settle p.1 (effective s p.1) = .ok c ∧
    effective s p.1 ≤ s.total ∧ s.total - effective s p.1 + (if b then p.2 else 0) < M128 ∧
    s' = { s with
      native := n, cw20 := c, effective := s.effective.set p.1 (if b then p.2 else 0),
      total := s.total - effective s p.1 + (if b then p.2 else 0) } := by
  unfold minOne effective
  simp only [bind_ok_iff, pure_ok_iff, csub_ok, cadd128_ok]
  constructor
  · rintro ⟨n, h1, c, h2, t, ⟨h3, rfl⟩, t', ⟨h4, rfl⟩, rfl⟩
    exact ⟨n, c, h1, h2, h3, h4, rfl⟩
  · rintro ⟨n, c, h1, h2, h3, h4, rfl⟩
    exact ⟨n, h1, c, h2, _, ⟨h3, rfl⟩, _, ⟨h4, rfl⟩, rfl⟩

theorem minOne_comm {b : Bool} {s s1 s2 : State} {p q : Addr × Nat} (hpq : p.1 ≠ q.1)
    (hs : s.total < M128) (hb : b = true → effective s p.1 = 0 ∧ effective s q.1 = 0)
    (h1 : minOne b s p = .ok s1) (h2 : minOne b s1 q = .ok s2) :
    ∃ t, minOne b s q = .ok t ∧ minOne b t p = .ok s2 := by
  obtain ⟨n1, c1, a1, a2, a3, a4, rfl⟩ := minOne_iff.1 h1
  obtain ⟨n2, c2, b1, b2, b3, b4, rfl⟩ := minOne_iff.1 h2
  have eq1 : effective ({ s with
      native := n1, cw20 := c1, effective := s.effective.set p.1 (if b then p.2 else 0),
      total := s.total - effective s p.1 + (if b then p.2 else 0) } : State) q.1 = effective s q.1 := by
    unfold effective
    dsimp only
    rw [Map.get_set_ne _ _ hpq]
  rw [eq1] at b1 b2 b3 b4
  dsimp only at b1 b2 b3 b4
  -- settling in the other order
  have key : ∀ {L L1 L2 : Ledger}, L.settle p.1 (effective s p.1) = .ok L1 → L1.settle q.1 (effective s q.1) = .ok L2 →
      ∃ M, L.settle q.1 (effective s q.1) = .ok M ∧ M.settle p.1 (effective s p.1) = .ok L2 := by
    intro L L1 L2 k1 k2
    have f1 : L.Same (· ≠ p.1) L1 := settle_frame _ k1
    have f2 : L1.Same (· ≠ q.1) L2 := settle_frame _ k2
    obtain ⟨M, m1, m2⟩ := settle_loc' (U := (· ≠ p.1)) (fun h => hpq h.symm) f1.symm k2
    have f3 : L.Same (· ≠ q.1) M := settle_frame _ m1
    obtain ⟨N, m3, m4⟩ := settle_loc' (U := (· = p.1)) rfl (f3.mono (fun w hw => by rw [hw]; exact hpq)) k1
    refine ⟨M, m1, ?_⟩
    have f4 : M.Same (· ≠ p.1) N := settle_frame _ m3
    have e1 : N.Same (· = p.1) L2 := m4.symm.trans (f2.mono (fun w hw => by rw [hw]; exact hpq))
    have e2 : N.Same (· ≠ p.1) L2 := f4.symm.trans m2.symm
    rw [m3, Ledger.Same.eq e1 e2]
  obtain ⟨N, k1, k2⟩ := key a1 b1
  obtain ⟨C, k3, k4⟩ := key a2 b2
  have hz : ∀ x : Nat, b = false → (if b then x else 0) = 0 := fun x h => by rw [h]; rfl
  have bnd : effective s q.1 ≤ s.total ∧ s.total - effective s q.1 + (if b then q.2 else 0) < M128 ∧
      effective s p.1 ≤ s.total - effective s q.1 + (if b then q.2 else 0) ∧
      s.total - effective s q.1 + (if b then q.2 else 0) - effective s p.1 + (if b then p.2 else 0) =
        s.total - effective s p.1 + (if b then p.2 else 0) - effective s q.1 + (if b then q.2 else 0) := by
    cases b with
    | true =>
      obtain ⟨z1, z2⟩ := hb rfl
      simp only [if_true] at *
      omega
    | false =>
      simp only [Bool.false_eq_true, if_false] at *
      omega
  obtain ⟨g1, g2, g3, g4⟩ := bnd
  refine ⟨_, minOne_iff.2 ⟨N, C, k1, k3, g1, g2, rfl⟩, ?_⟩
  have eq2 : effective ({ s with
      native := N, cw20 := C, effective := s.effective.set q.1 (if b then q.2 else 0),
      total := s.total - effective s q.1 + (if b then q.2 else 0) } : State) p.1 = effective s p.1 := by
    unfold effective
    dsimp only
    rw [Map.get_set_ne _ _ (fun h => hpq h.symm)]
  refine minOne_iff.2 ⟨n2, c2, ?_, ?_, ?_, ?_, ?_⟩
  · rw [eq2]; exact k2
  · rw [eq2]; exact k4
  · rw [eq2]; exact g3
  · rw [eq2]
    show s.total - effective s q.1 + (if b then q.2 else 0) - effective s p.1 + (if b then p.2 else 0) < M128
    rw [g4]; exact b4
  · rw [eq1, eq2]
    dsimp only
    rw [g4, Map.set_comm _ _ _ hpq]

theorem minOne_small {b : Bool} {s s' : State} {p : Addr × Nat} (h : minOne b s p = .ok s') : s'.total < M128 := by
  obtain ⟨n, c, _, _, _, h4, rfl⟩ := minOne_iff.1 h
  exact h4

theorem mins_perm {b : Bool} {l l' : List (Addr × Nat)} (hp : l.Perm l') : ∀ {s s' : State}, s.total < M128 → (l.map (·.1)).Nodup →
    (b = true → ∀ p ∈ l, effective s p.1 = 0) → l.foldlM (minOne b) s = .ok s' → l'.foldlM (minOne b) s = .ok s' := by
  have keep : ∀ {s s1 : State} {p q : Addr × Nat}, q.1 ≠ p.1 → minOne b s p = .ok s1 → effective s1 q.1 = effective s q.1 := by
    intro s s1 p q hne h
    obtain ⟨n, c, _, _, _, _, rfl⟩ := minOne_iff.1 h
    unfold effective
    dsimp only
    rw [Map.get_set_ne _ _ (fun h => hne h.symm)]
  induction hp with
  | nil => exact fun _ _ _ h => h
  | cons p _ ih =>
    intro s s' hs hn hb h
    obtain ⟨s1, h1, h⟩ := foldlM_cons_ok_iff.1 h
    rw [List.map_cons, List.nodup_cons] at hn
    refine foldlM_cons_ok_iff.2 ⟨s1, h1, ih (minOne_small h1) hn.2 (fun hbt q hq => ?_) h⟩
    rw [keep (fun hqp => hn.1 (hqp ▸ List.mem_map_of_mem hq)) h1]
    exact hb hbt q (List.mem_cons_of_mem _ hq)
  | swap p q l =>
    intro s s' hs hn hb h
    obtain ⟨s1, h1, h⟩ := foldlM_cons_ok_iff.1 h
    obtain ⟨s2, h2, h⟩ := foldlM_cons_ok_iff.1 h
    simp only [List.map_cons, List.nodup_cons, List.mem_cons, not_or] at hn
    obtain ⟨t, k1, k2⟩ := minOne_comm hn.1.1 hs
      (fun hbt => ⟨hb hbt q List.mem_cons_self, hb hbt p (List.mem_cons_of_mem _ List.mem_cons_self)⟩) h1 h2
    exact foldlM_cons_ok_iff.2 ⟨t, k1, foldlM_cons_ok_iff.2 ⟨s2, k2, h⟩⟩
  | trans h1 h2 ih1 ih2 =>
    intro s s' hs hn hb h
    refine ih2 hs ((h1.map _).nodup_iff.1 hn) (fun hbt p hp => hb hbt p (h1.mem_iff.2 hp)) (ih1 hs hn hb h)

/-- The users settled when the minimum changes are the same, maybe in another order. -/
theorem ren_affected (π : Renaming) (s : State) (a b : Nat) :
    (affected (s.ren π) a b).Perm (listRen π (affected s a b)) := by
  have h1 := affected_nodup (s.ren π) a b
  have h2 : ((listRen π (affected s a b)).map (·.1)).Nodup := by
    unfold listRen
    rw [List.map_map]
    have := (affected_nodup s a b).map π.injective
    rwa [List.map_map] at this
  refine (List.perm_ext_iff_of_nodup (List.Nodup.of_map _ h1) (List.Nodup.of_map _ h2)).2 ?_
  rintro ⟨k, w⟩
  unfold affected listRen
  simp only [List.mem_filter, List.mem_map, Prod.mk.injEq]
  show ((k, w) ∈ (s.weights.rename π id).entries ∧ _) ↔ _
  rw [Map.mem_rename]
  constructor
  · rintro ⟨⟨x, hx, rfl⟩, hc⟩
    exact ⟨(π.symm k, x), ⟨hx, hc⟩, Equiv.apply_symm_apply _ _, rfl⟩
  · rintro ⟨⟨u, x⟩, ⟨hx, hc⟩, rfl, rfl⟩
    exact ⟨⟨x, by rwa [Equiv.symm_apply_apply], rfl⟩, hc⟩

theorem ren_eff (π : Renaming) (s : State) (u : Addr) : effective (s.ren π) (π u) = effective s u := by
  unfold effective
  rw [ren_effective]

theorem affected_zero {s : State} (hi : Inv s) {new : Nat} (hn : new < s.min) : ∀ p ∈ affected s s.min new, effective s p.1 = 0 := by
  intro p hp
  unfold affected at hp
  obtain ⟨h1, h2⟩ := List.mem_filter.1 hp
  have hg : s.weights.get p.1 = some p.2 := Map.get_eq_some_iff.2 h1
  rw [if_neg (by omega)] at h2
  simp only [Bool.and_eq_true, decide_eq_true_eq] at h2
  unfold effective
  rw [hi.eff, hg]
  show effWeight p.2 s.min = 0
  unfold effWeight
  rw [if_neg (by omega)]

theorem ren_updateMin (π : Renaming) {s : State} (hi : Inv s) (hs : s.total < M128) (e : Env) (new : Nat) (y : State) :
    updateMin (s.ren π) (e.ren π) new = .ok y ↔ (updateMin s e new).map (State.ren π) = .ok y := by
  unfold updateMin
  show (if π e.sender ≠ π s.admin then _ else if s.min = new then _ else _) = _ ↔ _
  by_cases h : e.sender = s.admin
  · rw [if_neg (not_not.2 (congrArg π h)), if_neg (not_not.2 h)]
    by_cases hm : s.min = new
    · rw [if_pos hm, if_pos hm]
      exact Iff.rfl
    · rw [if_neg hm, if_neg hm]
      have hz : decide (s.min > new) = true → ∀ p ∈ affected s s.min new, effective s p.1 = 0 :=
        fun hd => affected_zero hi (of_decide_eq_true hd)
      have hz' : decide (s.min > new) = true → ∀ p ∈ listRen π (affected s s.min new), effective (s.ren π) p.1 = 0 := by
        intro hd p hp
        obtain ⟨q, hq, rfl⟩ := List.mem_map.1 hp
        rw [ren_eff]
        exact hz hd q hq
      have hperm := ren_affected π s s.min new
      have hnd := affected_nodup (s.ren π) s.min new
      have hnd' : ((listRen π (affected s s.min new)).map (·.1)).Nodup := (hperm.map _).nodup_iff.1 hnd
      have hfold : ∀ z, (affected (s.ren π) s.min new).foldlM (minOne (decide (s.min > new))) (s.ren π) = .ok z ↔
          (listRen π (affected s s.min new)).foldlM (minOne (decide (s.min > new))) (s.ren π) = .ok z := fun z =>
        ⟨mins_perm hperm hs hnd (fun hd p hp => hz' hd p (hperm.mem_iff.1 hp)), mins_perm hperm.symm hs hnd' hz'⟩
      show (do let s' ← (affected (s.ren π) s.min new).foldlM (minOne (decide (s.min > new))) (s.ren π); _) = _ ↔
        Except.map (State.ren π) (do let s' ← (affected s s.min new).foldlM (minOne (decide (s.min > new))) s; _) = _
      rw [ren_mins] at hfold
      rw [bind_ok_iff]
      simp only [hfold]
      cases (affected s s.min new).foldlM (minOne (decide (s.min > new))) s with
      | error x =>
        simp only [Except.map]
        constructor
        · rintro ⟨z, hz, _⟩
          cases hz
        · intro hz
          cases hz
      | ok z =>
        simp only [Except.map]
        constructor
        · rintro ⟨z', hz, hy⟩
          cases hz
          exact hy
        · intro hy
          exact ⟨z.ren π, rfl, hy⟩
  · rw [if_pos (by simpa using h), if_pos h]
    exact Iff.rfl

/-! ### The other messages -/

theorem Ledger.ren_global (π : Renaming) (L : Ledger) (a : Nat) : (L.ren π).global a = L.global a := rfl

theorem ren_claimOne (π : Renaming) (u : Addr) (w : Nat) (x : Ledger × List (Nat × Nat)) (a : Nat) :
    Ledger.claimOne (π u) w (x.1.ren π, x.2) a = (Ledger.claimOne u w x a).map (fun y => (y.1.ren π, y.2)) := by
  unfold Ledger.claimOne
  dsimp only
  rw [Ledger.ren_global, Ledger.ren_get]
  split
  · rfl
  cases reward (x.1.global a) (x.1.dist.get (toLex (u, a))) w with
  | error e => rfl
  | ok r =>
    show (if r = 0 then _ else _) = Except.map _ (if r = 0 then _ else _)
    split
    · rfl
    · exact congrArg (fun L => Except.ok (L, x.2 ++ [(a, r)])) (Ledger.ren_set π x.1 u a _).symm

theorem ren_claims (π : Renaming) (u : Addr) (w : Nat) : ∀ (l : List Nat) (x : Ledger × List (Nat × Nat)),
    l.foldlM (Ledger.claimOne (π u) w) (x.1.ren π, x.2) =
      (l.foldlM (Ledger.claimOne u w) x).map (fun y => (y.1.ren π, y.2))
  | [], _ => rfl
  | a :: t, x => by
    rw [List.foldlM_cons, List.foldlM_cons, ren_claimOne]
    cases Ledger.claimOne u w x a with
    | error e => rfl
    | ok x1 => exact ren_claims π u w t x1

theorem ren_claim (π : Renaming) (s : State) (e : Env) (u : Addr) (d t : List Nat) :
    claim (s.ren π) (e.ren π) (π u) d t = (claim s e u d t).map (resRen π) := by
  unfold claim
  rw [show (e.ren π).restricted (π u) = e.restricted u from congrArg e.restricted (Equiv.symm_apply_apply π u),
    ren_effective, show (s.ren π).native = s.native.ren π from rfl, show (s.ren π).cw20 = s.cw20.ren π from rfl]
  split
  · rfl
  show (if π e.sender ≠ π u then _ else _) = _
  by_cases h : e.sender = u
  · rw [if_neg (by simp [h]), if_neg (by simp [h])]
    dsimp only
    have h1 := ren_claims π u ((s.effective.get u).getD 0) d (s.native, [])
    have h2 := ren_claims π u ((s.effective.get u).getD 0) t (s.cw20, [])
    dsimp only at h1 h2
    rw [h1, h2]
    cases d.foldlM (Ledger.claimOne u ((s.effective.get u).getD 0)) (s.native, []) with
    | error x => rfl
    | ok n =>
      let X := t.foldlM (Ledger.claimOne u ((s.effective.get u).getD 0)) (s.cw20, [])
      show (do let c ← Except.map _ X; _) = Except.map _ (do let c ← X; _)
      cases X with
      | error x => rfl
      | ok c =>
        refine congrArg Except.ok (Prod.ext rfl ?_)
        show _ = List.map (Out.ren π) (_ ++ _)
        rw [List.map_append, List.map_map, List.map_map]
        rfl
  · rw [if_pos (by simpa using h), if_pos h]
    rfl

theorem ren_distributeOne (π : Renaming) (n : Nat) (L : Ledger) (f : Nat × Nat) :
    Ledger.distributeOne n (L.ren π) f = (Ledger.distributeOne n L f).map (Ledger.ren π) := by
  unfold Ledger.distributeOne
  rw [Ledger.ren_global]
  cases fromRatio f.2 n with
  | error e => rfl
  | ok r =>
    show (do let g ← cadd128 (L.global f.1) r; _) = Except.map _ (do let g ← cadd128 (L.global f.1) r; _)
    cases cadd128 (L.global f.1) r <;> rfl

theorem ren_distributes (π : Renaming) (n : Nat) : ∀ (l : List (Nat × Nat)) (L : Ledger),
    l.foldlM (Ledger.distributeOne n) (L.ren π) = (l.foldlM (Ledger.distributeOne n) L).map (Ledger.ren π)
  | [], _ => rfl
  | f :: t, L => by
    rw [List.foldlM_cons, List.foldlM_cons, ren_distributeOne]
    cases Ledger.distributeOne n L f with
    | error e => rfl
    | ok L1 => exact ren_distributes π n t L1

theorem ren_distributeNative (π : Renaming) (s : State) (e : Env) (f : List (Nat × Nat)) :
    distributeNative (s.ren π) (e.ren π) f = (distributeNative s e f).map (State.ren π) := by
  unfold distributeNative
  rw [show assertWhitelisted (e.ren π) = assertWhitelisted e from rfl, show (s.ren π).total = s.total from rfl,
    show (s.ren π).native = s.native.ren π from rfl, ren_distributes]
  cases assertWhitelisted e (f.map (fun f => .native f.1)) with
  | error x => rfl
  | ok x =>
    show (if s.total = 0 then _ else _) = Except.map _ (if s.total = 0 then _ else _)
    split
    · rfl
    · cases f.foldlM (Ledger.distributeOne s.total) s.native <;> rfl

theorem ren_receiveCw20 (π : Renaming) (s : State) (e : Env) (k : Bool) (a : Nat) (he : π e.sender = e.sender) :
    receiveCw20 (s.ren π) (e.ren π) k a = (receiveCw20 s e k a).map (State.ren π) := by
  unfold receiveCw20
  rw [show assertWhitelisted (e.ren π) = assertWhitelisted e from rfl, show (s.ren π).total = s.total from rfl,
    show (s.ren π).cw20 = s.cw20.ren π from rfl, show (e.ren π).sender = e.sender from he, ren_distributeOne]
  split
  · rfl
  cases assertWhitelisted e [.cw20 e.sender] with
  | error x => rfl
  | ok x =>
    show (if s.total = 0 then _ else _) = Except.map _ (if s.total = 0 then _ else _)
    split
    · rfl
    · cases Ledger.distributeOne s.total s.cw20 (e.sender, a) <;> rfl

theorem ren_exec (π : Renaming) {s : State} (hi : Inv s) (hs : s.total < M128) (c : Call) (hc : SendersKept π c) (y : State × List Out) :
    exec (s.ren π) (c.env.ren π) (c.msg.ren π) = .ok y ↔ (exec s c.env c.msg).map (resRen π) = .ok y := by
  obtain ⟨e, m, d⟩ := c
  have lift : ∀ {X Y : Except Err State}, X = Y.map (State.ren π) →
      (do let s' ← X; pure (s', ([] : List Out)) : Except Err (State × List Out)) =
        Except.map (resRen π) (do let s' ← Y; pure (s', [])) := by
    intro X Y h
    rw [h]
    cases Y <;> rfl
  cases m with
  | updateWeights l =>
    refine Eq.congr_left (lift ?_)
    unfold updateWeights
    show (if π e.sender ≠ π s.admin then _ else _) = _
    by_cases h : e.sender = s.admin
    · rw [if_neg (by simp [h]), if_neg (by simp [h])]
      exact ren_updates π l s
    · rw [if_pos (by simpa using h), if_pos h]
      rfl
  | updateMin m =>
    show (do let s' ← updateMin (s.ren π) (e.ren π) m; pure (s', [])) = _ ↔
      Except.map (resRen π) (do let s' ← updateMin s e m; pure (s', [])) = _
    rw [bind_ok_iff]
    simp only [ren_updateMin π hi hs e m]
    cases updateMin s e m with
    | error x =>
      constructor
      · rintro ⟨z, hz, _⟩
        cases hz
      · intro hz
        cases hz
    | ok z =>
      constructor
      · rintro ⟨z', hz, hy⟩
        cases hz
        exact hy
      · intro hy
        exact ⟨z.ren π, rfl, hy⟩
  | distributeNative f => exact Eq.congr_left (lift (ren_distributeNative π s e f))
  | claim u d t => exact Eq.congr_left (ren_claim π s e u d t)
  | receiveCw20 k a => exact Eq.congr_left (lift (ren_receiveCw20 π s e k a (hc k a rfl)))

theorem ren_step (π : Renaming) {s : State} (hi : Inv s) (hs : s.total < M128) (c : Call) (hc : SendersKept π c) :
    step (s.ren π) (c.ren π) = resRen π (step s c) := by
  have h := ren_exec π hi hs c hc
  unfold step
  show (match exec (s.ren π) (c.env.ren π) (c.msg.ren π) with | .ok r => if c.delivered then r else _ | .error _ => _) = _
  cases hx : exec s c.env c.msg with
  | error e =>
    rw [hx] at h
    cases hy : exec (s.ren π) (c.env.ren π) (c.msg.ren π) with
    | error e' => rfl
    | ok y =>
      have := (h y).1 hy
      cases this
  | ok r =>
    rw [hx] at h
    rw [(h (resRen π r)).2 rfl]
    show (if c.delivered then resRen π r else (s.ren π, [])) = resRen π (if c.delivered then r else (s, []))
    split <;> rfl

/-! ### The total stays below 2^128 -/

theorem fold_small {α : Type} {f : State → α → Except Err State} (hf : ∀ s x s', f s x = .ok s' → s'.total < M128) :
    ∀ (l : List α) {s s' : State}, s.total < M128 → l.foldlM f s = .ok s' → s'.total < M128
  | [], s, s', hs, h => by
    rw [foldlM_nil_ok_iff] at h
    exact h ▸ hs
  | x :: t, s, s', hs, h => by
    obtain ⟨s1, h1, h⟩ := foldlM_cons_ok_iff.1 h
    exact fold_small hf t (hf _ _ _ h1) h

theorem init_small {ad : Addr} {m : Option Nat} {l : List (Addr × Nat)} {s : State} (h : init ad m l = .ok s) :
    s.total < M128 := by
  refine fold_small (fun s x s' hx => ?_) l ?_ h
  · unfold initOne at hx
    split at hx
    · cases hx
    · simp only [bind_ok_iff, pure_ok_iff, cadd128_ok] at hx
      obtain ⟨t, ⟨h1, rfl⟩, rfl⟩ := hx
      exact h1
  · show 0 < M128
    unfold M128
    omega

theorem step_small {s : State} (hs : s.total < M128) (c : Call) : (step s c).1.total < M128 := by
  unfold step
  cases hx : exec s c.env c.msg with
  | error e => exact hs
  | ok x =>
    show (if c.delivered then x else (s, [])).1.total < M128
    split
    · obtain ⟨e, m, d⟩ := c
      cases m with
      | updateWeights l =>
        obtain ⟨_, h, _⟩ := exec_report_iff.1 hx
        refine fold_small (fun s p s' hp => ?_) l hs h
        obtain ⟨y, _, _, h3, rfl⟩ := updateOne_iff.1 hp
        exact h3
      | updateMin m =>
        simp only [exec, bind_ok_iff, pure_ok_iff] at hx
        obtain ⟨s', hx, rfl⟩ := hx
        unfold updateMin at hx
        split at hx
        · cases hx
        split at hx
        · cases hx
          exact hs
        · simp only [bind_ok_iff, pure_ok_iff] at hx
          obtain ⟨s1, h1, rfl⟩ := hx
          show s1.total < M128
          exact fold_small (f := minOne _) (fun _ _ _ hp => minOne_small hp) _ hs h1
      | distributeNative f =>
        obtain ⟨_, _, n, _, rfl⟩ := exec_native_iff.1 hx
        exact hs
      | claim u ds ts =>
        obtain ⟨_, _, n, c, _, _, rfl⟩ := claim_ok_iff.1 hx
        exact hs
      | receiveCw20 k a =>
        obtain ⟨_, _, _, c, _, rfl⟩ := exec_token_iff.1 hx
        exact hs
    · exact hs

theorem run_small : ∀ (h : List Call) {s : State}, s.total < M128 → (run s h).total < M128
  | [], _, hs => hs
  | c :: t, _, hs => run_small t (step_small hs c)

/-! ### Histories -/

theorem ren_initOne (π : Renaming) (s : State) (p : Addr × Nat) :
    initOne (s.ren π) (π p.1, p.2) = (initOne s p).map (State.ren π) := by
  unfold initOne
  dsimp only
  rw [show (s.ren π).weights.has (π p.1) = s.weights.has p.1 from Map.has_rename s.weights π id p.1,
    show (s.ren π).effective.has (π p.1) = s.effective.has p.1 from Map.has_rename s.effective π id p.1]
  split
  · rfl
  show (do let t ← cadd128 s.total (effWeight p.2 s.min); _) =
    Except.map (State.ren π) (do let t ← cadd128 s.total (effWeight p.2 s.min); _)
  cases cadd128 s.total (effWeight p.2 s.min) with
  | error x => rfl
  | ok t =>
    refine congrArg Except.ok ?_
    symm
    show State.ren π { s with
      weights := s.weights.set p.1 p.2, effective := s.effective.set p.1 (effWeight p.2 s.min), total := t } = _
    unfold State.ren
    congr 1
    · exact Map.rename_set s.weights π id p.1 p.2
    · exact Map.rename_set s.effective π id p.1 (effWeight p.2 s.min)

theorem ren_inits (π : Renaming) : ∀ (l : List (Addr × Nat)) (s : State),
    (listRen π l).foldlM initOne (s.ren π) = (l.foldlM initOne s).map (State.ren π)
  | [], _ => rfl
  | p :: t, s => by
    show ((π p.1, p.2) :: listRen π t).foldlM _ _ = _
    rw [List.foldlM_cons, List.foldlM_cons, ren_initOne]
    cases initOne s p with
    | error x => rfl
    | ok s1 => exact ren_inits π t s1

theorem ren_init (π : Renaming) (a : Addr) (m : Option Nat) (l : List (Addr × Nat)) :
    init (π a) m (listRen π l) = (init a m l).map (State.ren π) :=
  ren_inits π l ⟨a, m.getD 0, Map.empty, Map.empty, 0, Ledger.empty, Ledger.empty⟩

theorem ren_paid (π : Renaming) (u : Addr) (a : AssetInfo) (o : List Out) :
    paid (π u) a (o.map (Out.ren π)) = paid u a o := by
  unfold paid
  rw [List.map_map]
  congr 1
  refine List.map_congr_left fun x _ => ?_
  show (if π x.to = π u ∧ x.asset = a then x.amount else 0) = _
  simp

theorem ren_run (π : Renaming) : ∀ (h : List Call) {s : State}, Inv s → s.total < M128 → (∀ c ∈ h, SendersKept π c) →
    run (s.ren π) (h.map (Call.ren π)) = (run s h).ren π ∧
    ∀ u a, claimed (π u) a (s.ren π) (h.map (Call.ren π)) = claimed u a s h
  | [], _, _, _, _ => ⟨rfl, fun _ _ => rfl⟩
  | c :: t, s, hi, hs, hc => by
    have ih := ren_run π t (step_inv hi c).1 (step_small hs c) (fun x hx => hc x (List.mem_cons_of_mem _ hx))
    have h1 := ren_step π hi hs c (hc c List.mem_cons_self)
    rw [List.map_cons]
    show run (step (s.ren π) (c.ren π)).1 _ = _ ∧ ∀ u a, paid (π u) a (step (s.ren π) (c.ren π)).2 +
      claimed (π u) a (step (s.ren π) (c.ren π)).1 _ = paid u a (step s c).2 + _
    rw [h1]
    refine ⟨ih.1, fun u a => ?_⟩
    show paid (π u) a ((step s c).2.map (Out.ren π)) + _ = _
    rw [ren_paid]
    exact congrArg _ (ih.2 u a)

theorem ren_rewards (π : Renaming) (L : Ledger) (u : Addr) (w : Nat) : ∀ (l seen : List Nat),
    (L.ren π).rewards (π u) w seen l = L.rewards u w seen l
  | [], _ => rfl
  | a :: t, seen => by
    unfold Ledger.rewards
    rw [Ledger.ren_global, Ledger.ren_get, ren_rewards π L u w t seen, ren_rewards π L u w t (a :: seen)]

/-! ## C168 -/

/-- Funds distributor: if all the users get other names, in the initial list and in all the messages, then the same
messages are accepted; everyone has under the new name the weight, the rewards to claim and the amounts claimed there were
under the old one. -/
theorem C168_distributor (π : Renaming) (a : Addr) (m : Option Nat) (l : List (Addr × Nat)) (h : List Call)
    (hk : ∀ c ∈ h, SendersKept π c) (s0 : State) (h0 : init a m l = .ok s0) :
    ∃ s0', init (π a) m (listRen π l) = .ok s0' ∧
      let s := run s0 h
      let s' := run s0' (h.map (Call.ren π))
      (∀ u, weight s' (π u) = weight s u ∧ effective s' (π u) = effective s u) ∧ s'.total = s.total ∧ s'.min = s.min ∧
      (∀ u d t, queryRewards s' (π u) d t = queryRewards s u d t) ∧
      (∀ u x, claimed (π u) x s0' (h.map (Call.ren π)) = claimed u x s0 h) ∧
      ∀ c, SendersKept π c → (accepted s' (c.ren π) ↔ accepted s c) := by
  obtain ⟨i0, _⟩ := init_inv h0
  have hm0 := init_small h0
  refine ⟨s0.ren π, by rw [ren_init, h0]; rfl, ?_⟩
  intro s s'
  obtain ⟨hs, ho⟩ := ren_run π h i0 hm0 hk
  have hs' : s' = s.ren π := hs
  rw [hs']
  have hi : Inv s := (run_inv h i0).1
  have hsm : s.total < M128 := run_small h hm0
  refine ⟨fun u => ⟨?_, ren_eff π s u⟩, rfl, rfl, fun u d t => ?_, ho, fun c hc => ?_⟩
  · unfold weight
    rw [ren_weights]
  · unfold queryRewards
    rw [ren_effective, show (s.ren π).native = s.native.ren π from rfl, show (s.ren π).cw20 = s.cw20.ren π from rfl]
    dsimp only
    rw [ren_rewards, ren_rewards]
  · have hx := ren_exec π hi hsm c hc
    unfold accepted
    refine and_congr Iff.rfl ?_
    show (∃ r, exec (s.ren π) (c.env.ren π) (c.msg.ren π) = .ok r) ↔ _
    constructor
    · rintro ⟨r, hr⟩
      have := (hx r).1 hr
      cases hy : exec s c.env c.msg with
      | ok y => exact ⟨y, rfl⟩
      | error e =>
        rw [hy] at this
        cases this
    · rintro ⟨r, hr⟩
      exact ⟨resRen π r, (hx _).2 (by rw [hr]; rfl)⟩

/-- The sample history with users 1 and 2 exchanged: what user 2 claims now, user 1 claims then. -/
example : (∀ c ∈ exHistory, SendersKept (swap2 1 2) c) ∧
    init 10 (some 1) (listRen (swap2 1 2) [(1, 1), (2, 2), (3, 0)]) = .ok (exInit.ren (swap2 1 2)) ∧
    claimable (run (exInit.ren (swap2 1 2)) (exHistory.map (Call.ren (swap2 1 2)))) 1 (.native 5) = 6 ∧
    claimable (run exInit exHistory) 2 (.native 5) = 6 ∧ claimable (run exInit exHistory) 1 (.native 5) = 0 := by
  refine ⟨?_, by decide +kernel, by decide +kernel, by decide +kernel, by decide +kernel⟩
  intro c hc k a hm
  simp only [exHistory, List.mem_cons, List.not_mem_nil, or_false] at hc
  rcases hc with rfl | rfl | rfl | rfl <;> first | rfl | (cases hm)

end Verif.Distributor
