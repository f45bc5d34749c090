import Verif.Staking.Props3
import Mathlib.Data.Multiset.Filter
import Mathlib.Data.Multiset.Count
import Mathlib.Algebra.BigOperators.Group.Multiset.Basic

/-!
# Token and denom staking: the order of messages within a block (C162)
-/

set_option linter.unusedSimpArgs false

namespace Verif.Staking
open Verif

/-! ## Specification -/

/-- The one user whose stake or claims the message is about: the user staked for, or the sender who unstakes or claims.
Imports and configuration messages are about no single user. -/
def concerns (c : Call) : Option Addr :=
  match c.msg with
  | .receive _ (.stake u) => some u
  | .stakeDenom _ u => some (u.getD c.env.sender)
  | .unstake _ => some c.env.sender
  | .claim _ => some c.env.sender
  | _ => none

/-- Every message of the list is accepted, one after the other. -/
def allAccepted (k : Kind) (s : State) : List Call → Prop
  | [] => True
  | c :: t => accepted k s c ∧ allAccepted k (step k s c).1 t

instance allAcceptedDecidable (k : Kind) : (s : State) → (l : List Call) → Decidable (allAccepted k s l)
  | _, [] => isTrue trivial
  | s, c :: t => by
    have := allAcceptedDecidable k (step k s c).1 t
    unfold allAccepted
    infer_instance

/-- How many outstanding claims of user `u` over `a` with release `r` there are. -/
def howMany (s : State) (u : Addr) (a : Nat) (r : ReleaseAt) : Nat :=
  s.claims.sum (fun _ c => if c.user = u ∧ c.amount = a ∧ c.release = r then 1 else 0)

/-- The same weights, totals at all times, hooks and configuration, and the same claims but for their ids. -/
def SameButIds (s t : State) : Prop :=
  s.mem = t.mem ∧ s.asset = t.asset ∧ s.unlocking = t.unlocking ∧ s.nextClaim = t.nextClaim ∧
    ∀ u a r, howMany s u a r = howMany t u a r

/-- The same messages, in an order that keeps the order of the messages of each user. -/
def Interleaved (l l' : List Call) : Prop :=
  ∀ u, l.filter (fun c => decide (concerns c = some u)) = l'.filter (fun c => decide (concerns c = some u))

/-! ## The state without the ids of claims -/

/-- A claim without its id. -/
abbrev Shape := Addr × Nat × ReleaseAt

/-- Owner, amount and release of a claim. -/
def shape (c : Claim) : Shape := (c.user, c.amount, c.release)

/-- Everything a staking contract stores, with claims counted by owner, amount and release. -/
structure Abs where
  mem : Members
  shapes : Multiset Shape
  next : Nat
  asset : Addr
  unlocking : Duration

/-- The claims without their ids, each as often as there are such claims. -/
def shapes (s : State) : Multiset Shape := (s.claims.values.map shape : List Shape)

/-- The state without the ids of claims. -/
def abs (s : State) : Abs := ⟨s.mem, shapes s, s.nextClaim, s.asset, s.unlocking⟩

/-- Whether the claim can be taken by `u` at block `b`. -/
def shapeDue (u : Addr) (b : Block) (x : Shape) : Bool := takes u b ⟨0, x.1, x.2.1, x.2.2⟩

theorem shapeDue_shape (u : Addr) (b : Block) (c : Claim) : shapeDue u b (shape c) = takes u b c := rfl

theorem shapeDue_user {u : Addr} {b : Block} {x : Shape} (h : x.1 ≠ u) : shapeDue u b x = false := by
  unfold shapeDue takes
  simp [h]

theorem count_shapes (s : State) (x : Shape) :
    (shapes s).count x = s.claims.sum (fun _ c => if shape c = x then 1 else 0) := by
  unfold shapes Map.values Map.sum
  rw [Multiset.coe_count]
  induction s.claims.entries with
  | nil => rfl
  | cons e t ih =>
    simp only [List.map_cons, List.sum_cons, List.count_cons, ih, beq_iff_eq]
    omega

theorem howMany_count (s : State) (u : Addr) (a : Nat) (r : ReleaseAt) :
    howMany s u a r = (shapes s).count (u, a, r) := by
  rw [count_shapes]
  unfold howMany
  refine Map.sum_congr (fun i c _ => ?_)
  simp [shape]

theorem sameButIds_iff {s t : State} : SameButIds s t ↔ abs s = abs t := by
  unfold SameButIds abs
  rw [Abs.mk.injEq]
  simp only [howMany_count]
  constructor
  · rintro ⟨h1, h2, h3, h4, h5⟩
    exact ⟨h1, Multiset.ext.2 (fun x => h5 x.1 x.2.1 x.2.2), h4, h2, h3⟩
  · rintro ⟨h1, h2, h3, h4, h5⟩
    exact ⟨h1, h4, h5, h3, fun u a r => by rw [h2]⟩

/-- What one message does: a stake, an unstake, a claim. -/
inductive Act
  | stake (u : Addr) (a : Nat)
  | unstake (u : Addr) (a : Nat)
  | take (u : Addr)

/-- The user concerned. -/
def Act.user : Act → Addr
  | .stake u _ => u
  | .unstake u _ => u
  | .take u => u

/-- The amount staked. -/
def Act.brought : Act → Nat
  | .stake _ a => a
  | _ => 0

/-- What `u` can claim at block `b`. -/
def Abs.due (x : Abs) (u : Addr) (b : Block) : Nat := ((x.shapes.filter (fun y => shapeDue u b y = true)).map (·.2.1)).sum

/-- When the act is possible. -/
def Abs.guard (x : Abs) (b : Block) : Act → Prop
  | .stake u a => x.mem.weight u + a < M128 ∧ x.mem.total + a < M128
  | .unstake u a => a ≤ x.mem.weight u ∧ a ≤ x.mem.total ∧ x.next + 1 < M64
  | .take u => x.due u b < M128

/-- The state after the act. -/
def Abs.eff (x : Abs) (b : Block) : Act → Abs
  | .stake u a => { x with mem := (x.mem.setWeight u (x.mem.weight u + a)).saveTotal (x.mem.total + a) b }
  | .unstake u a => { x with
      mem := (x.mem.setWeight u (x.mem.weight u - a)).saveTotal (x.mem.total - a) b
      next := x.next + 1
      shapes := (u, a, releaseAt x.unlocking b) ::ₘ x.shapes }
  | .take u => { x with shapes := x.shapes.filter (fun y => ¬ shapeDue u b y = true) }

/-- What the act sends. -/
def Abs.out (x : Abs) (b : Block) : Act → List Out
  | .stake u a => x.mem.report [⟨u, x.mem.weight u, x.mem.weight u + a⟩]
  | .unstake u a => x.mem.report [⟨u, x.mem.weight u, x.mem.weight u - a⟩]
  | .take u => [.pay u (x.due u b)]

/-- The act of a message, as far as it does not depend on weights and claims. -/
def acts (k : Kind) (asset : Addr) (c : Call) : Act → Prop
  | .stake u a => c.env.restricted u = false ∧
      ((k = .token ∧ c.env.sender = asset ∧ c.msg = .receive a (.stake u)) ∨
       (k = .denom ∧ ∃ o, c.msg = .stakeDenom [⟨asset, a⟩] o ∧ o.getD c.env.sender = u))
  | .unstake u a => c.msg = .unstake a ∧ u = c.env.sender
  | .take u => (∃ o, c.msg = .claim o ∧ o.getD c.env.sender = c.env.sender) ∧ u = c.env.sender

theorem acts_user {k : Kind} {asset : Addr} {c : Call} {x : Act} (h : acts k asset c x) : concerns c = some x.user := by
  unfold concerns
  cases x with
  | stake u a =>
    obtain ⟨_, ⟨_, _, h⟩ | ⟨_, o, h, ho⟩⟩ := h
    · rw [h]; rfl
    · rw [h]; simp only [ho]; rfl
  | unstake u a => obtain ⟨h, rfl⟩ := h; rw [h]; rfl
  | take u => obtain ⟨⟨o, h, _⟩, rfl⟩ := h; rw [h]; rfl

theorem acts_brought {k : Kind} {asset : Addr} {c : Call} {x : Act} (h : acts k asset c x) :
    x.brought = c.msg.transferred asset := by
  cases x with
  | stake u a =>
    obtain ⟨_, ⟨_, _, h⟩ | ⟨_, o, h, ho⟩⟩ := h
    · rw [h]; rfl
    · rw [h]; simp [Msg.transferred, Act.brought]
  | unstake u a => obtain ⟨h, rfl⟩ := h; rw [h]; rfl
  | take u => obtain ⟨⟨o, h, _⟩, rfl⟩ := h; rw [h]; rfl

theorem shapes_set {s : State} {i : Nat} (hn : s.claims.get i = none) (c : Claim) (s' : State)
    (hs' : s'.claims = s.claims.set i c) : shapes s' = shape c ::ₘ shapes s := by
  refine Multiset.ext.2 (fun x => ?_)
  rw [count_shapes, hs', Multiset.count_cons, count_shapes]
  have h := s.claims.sum_set (fun _ c => if shape c = x then 1 else 0) i c
  rw [hn, Map.contrib_none] at h
  by_cases hx : shape c = x
  · rw [if_pos hx.symm]; rw [if_pos hx] at h; omega
  · rw [if_neg (fun h => hx h.symm)]; rw [if_neg hx] at h; omega

theorem shapes_filter (s : State) (p : Shape → Bool) (s' : State)
    (hs' : s'.claims = s.claims.filter (fun _ c => p (shape c))) : shapes s' = (shapes s).filter (fun y => p y = true) := by
  unfold shapes Map.values
  rw [hs']
  unfold Map.filter
  rw [Multiset.filter_coe]
  congr 1
  simp only [List.filter_map, List.map_map]
  congr 2
  funext e
  simp [Function.comp]

theorem due_eq (s : State) (u : Addr) (b : Block) :
    (abs s).due u b = s.claims.sum fun _ c => if takes u b c then c.amount else 0 := by
  unfold Abs.due abs shapes Map.values Map.sum
  simp only [Multiset.filter_coe, Multiset.map_coe, Multiset.sum_coe]
  induction s.claims.entries with
  | nil => rfl
  | cons e t ih =>
    simp only [List.map_cons, List.sum_cons, List.filter_cons, shapeDue_shape] at ih ⊢
    rw [← ih]
    by_cases hd : takes u b e.2 = true
    · simp [hd, shape]
    · simp [hd]

/-- A message about one user, in terms of the state without ids. -/
theorem exec_act {k : Kind} {s : State} (hi : Inv s) {c : Call} {r : State × List Out} {u : Addr}
    (hc : concerns c = some u) (hr : exec k s c.env c.msg = .ok r) :
    ∃ x, acts k s.asset c x ∧ (abs s).guard c.env.block x ∧ abs r.1 = (abs s).eff c.env.block x ∧
      r.2 = (abs s).out c.env.block x := by
  obtain ⟨e, m, d⟩ := c
  simp only at hr ⊢
  have hstake : ∀ {v a}, stakeFor s e v a = .ok r → e.restricted v = false ∧ (abs s).guard e.block (.stake v a) ∧
      abs r.1 = (abs s).eff e.block (.stake v a) ∧ r.2 = (abs s).out e.block (.stake v a) := by
    intro v a h
    obtain ⟨h0, h1, h2, rfl⟩ := stakeFor_ok_iff.1 h
    exact ⟨h0, ⟨h1, h2⟩, rfl, rfl⟩
  cases m with
  | receive a h =>
    cases h with
    | stake v =>
      simp only [exec] at hr
      split at hr
      · rename_i hk
        simp only [receive] at hr
        rw [ite_ok_iff, not_not] at hr
        obtain ⟨h0, h1⟩ := hr
        obtain ⟨h2, h3⟩ := hstake h1
        exact ⟨.stake v a, ⟨h2, .inl ⟨hk, h0, rfl⟩⟩, h3⟩
      · cases hr
    | addStakes l => cases hc
    | addClaims l => cases hc
    | unknown => cases hc
  | stakeDenom f o =>
    simp only [exec] at hr
    split at hr
    · rename_i hk
      simp only [stakeDenom] at hr
      match f, hr with
      | [⟨dn, a⟩], hr =>
        simp only at hr
        rw [ite_ok_iff, not_not] at hr
        obtain ⟨h0, h1⟩ := hr
        obtain ⟨h2, h3⟩ := hstake h1
        refine ⟨.stake (o.getD e.sender) a, ⟨h2, .inr ⟨hk, o, ?_, rfl⟩⟩, h3⟩
        rw [h0]
    · cases hr
  | unstake a =>
    simp only [exec] at hr
    obtain ⟨h1, h2, h3, rfl⟩ := unstake_ok_iff.1 hr
    refine ⟨.unstake e.sender a, ⟨rfl, rfl⟩, ⟨h1, h2, h3⟩, ?_, rfl⟩
    have hn : s.claims.get s.nextClaim = none := by
      cases hg : s.claims.get s.nextClaim with
      | none => rfl
      | some d => have := (hi.ids _ _ hg).2; omega
    unfold abs Abs.eff
    simp only [Abs.mk.injEq, true_and, and_true]
    exact shapes_set hn ⟨_, _, _, _⟩ _ rfl
  | claim o =>
    simp only [exec] at hr
    obtain ⟨h1, h2, rfl⟩ := (claim_ok_iff hi).1 hr
    refine ⟨.take e.sender, ⟨⟨o, rfl, h1⟩, rfl⟩, ?_, ?_, ?_⟩
    · simp only [Abs.guard, due_eq]
      exact h2
    · unfold abs Abs.eff
      simp only [Abs.mk.injEq, true_and, and_true]
      rw [shapes_filter s (fun y => !shapeDue e.sender e.block y) _ rfl]
      congr 1
      funext y
      simp
    · simp only [Abs.out, due_eq]
  | updateUnlocking p => cases hc
  | addHook h => cases hc
  | removeHook h => cases hc

/-- Conversely, when the guard of its act holds, the message is accepted. -/
theorem exec_of_act {k : Kind} {s : State} (hi : Inv s) {c : Call} {x : Act}
    (ha : acts k s.asset c x) (hg : (abs s).guard c.env.block x) : ∃ r, exec k s c.env c.msg = .ok r := by
  obtain ⟨e, m, d⟩ := c
  cases x with
  | stake u a =>
    obtain ⟨h0, h1⟩ := ha
    have hs : ∃ r, stakeFor s e u a = .ok r := ⟨_, stakeFor_ok_iff.2 ⟨h0, hg.1, hg.2, rfl⟩⟩
    obtain ⟨r, hs⟩ := hs
    refine ⟨r, ?_⟩
    obtain ⟨rfl, h2, h3⟩ | ⟨rfl, o, h2, rfl⟩ := h1
    · simp only at h2 h3 ⊢
      rw [h3]
      simp only [exec, receive, if_true]
      rw [if_neg (not_not.2 h2)]
      exact hs
    · simp only at h2 ⊢
      rw [h2]
      simp only [exec, stakeDenom, if_true]
      rw [if_neg (not_not.2 rfl)]
      exact hs
  | unstake u a =>
    obtain ⟨h0, rfl⟩ := ha
    simp only at h0 ⊢
    rw [h0]
    exact ⟨_, unstake_ok_iff.2 ⟨hg.1, hg.2.1, hg.2.2, rfl⟩⟩
  | take u =>
    obtain ⟨⟨o, h0, h1⟩, rfl⟩ := ha
    simp only at h0 ⊢
    rw [h0]
    simp only [Abs.guard, due_eq] at hg
    exact ⟨_, (claim_ok_iff hi).2 ⟨h1, hg, rfl⟩⟩

theorem save_save (s : Snap) (v w h : Nat) : (s.save v h).save w h = s.save w h := by
  unfold Snap.save
  by_cases hh : s.log.has h = true
  · simp [hh]
  · simp [hh, Map.has_set]

theorem mem_comm (m : Members) {u v : Addr} (h : u ≠ v) (x y p q t : Nat) (b : Block) :
    (((m.setWeight u x).saveTotal p b).setWeight v y).saveTotal t b =
      (((m.setWeight v y).saveTotal q b).setWeight u x).saveTotal t b := by
  unfold Members.setWeight Members.saveTotal
  simp only [Members.mk.injEq, save_save, and_true]
  exact Map.set_comm _ _ _ h

theorem weight_ne {m : Members} {u v : Addr} (h : u ≠ v) (x p : Nat) (b : Block) :
    ((m.setWeight u x).saveTotal p b).weight v = m.weight v := by
  rw [Members.saveTotal_weight, Members.weight_setWeight, if_neg (fun h' => h h'.symm)]

theorem due_cons_ne (x : Abs) {u v : Addr} (h : u ≠ v) (b : Block) (a : Nat) (r : ReleaseAt) (n : Nat) (m : Members) :
    ({ x with mem := m, next := n, shapes := (v, a, r) ::ₘ x.shapes } : Abs).due u b = x.due u b := by
  unfold Abs.due
  simp only
  rw [Multiset.filter_cons_of_neg]
  rw [shapeDue_user (fun h' => h h'.symm)]
  decide

theorem due_take_ne (x : Abs) {u v : Addr} (h : u ≠ v) (b : Block) : (x.eff b (.take v)).due u b = x.due u b := by
  unfold Abs.due Abs.eff
  simp only
  rw [Multiset.filter_filter]
  congr 2
  refine Multiset.filter_congr (fun y _ => ?_)
  constructor
  · exact fun h' => h'.1
  · intro h'
    refine ⟨h', fun h'' => h ?_⟩
    unfold shapeDue takes at h' h''
    simp only [Bool.and_eq_true, decide_eq_true_eq] at h' h''
    exact h'.1.symm.trans h''.1

/-- Acts of different users in one block commute, in the state without ids. -/
theorem swap_abs {x : Abs} {b : Block} {p q : Act} (hne : p.user ≠ q.user) (hw : ∀ u, x.mem.weight u ≤ x.mem.total)
    (hroom : x.mem.total + p.brought + q.brought < M128)
    (h1 : x.guard b p) (h2 : (x.eff b p).guard b q) :
    x.guard b q ∧ (x.eff b q).guard b p ∧ (x.eff b p).eff b q = (x.eff b q).eff b p ∧
      (x.eff b p).out b q = x.out b q ∧ (x.eff b q).out b p = x.out b p := by
  have hne' := hne.symm
  cases p with
  | stake u a =>
    cases q with
    | stake v c =>
      simp only [Act.user, Act.brought] at hne hne' hroom
      have hv := hw v
      simp only [Abs.guard, Abs.eff, Abs.out, weight_ne hne, weight_ne hne', Members.saveTotal_total] at h1 h2 ⊢
      refine ⟨⟨by omega, by omega⟩, ⟨h1.1, by omega⟩, ?_, by trivial, by trivial⟩
      simp only [Abs.mk.injEq, and_true]
      rw [Nat.add_right_comm x.mem.total c a]
      exact mem_comm _ hne _ _ _ _ _ _
    | unstake v c =>
      simp only [Act.user, Act.brought] at hne hne' hroom
      have hv := hw v
      simp only [Abs.guard, Abs.eff, Abs.out, weight_ne hne, weight_ne hne', Members.saveTotal_total] at h1 h2 ⊢
      refine ⟨⟨h2.1, by omega, h2.2.2⟩, ⟨h1.1, by omega⟩, ?_, by trivial, by trivial⟩
      simp only [Abs.mk.injEq, and_true, true_and]
      rw [show x.mem.total - c + a = x.mem.total + a - c by omega]
      exact mem_comm _ hne _ _ _ _ _ _
    | take v =>
      simp only [Abs.guard, Abs.eff, Abs.out] at h1 h2 ⊢
      exact ⟨h2, h1, by trivial, by trivial, by trivial⟩
  | unstake u a =>
    cases q with
    | stake v c =>
      simp only [Act.user, Act.brought] at hne hne' hroom
      have hv := hw v
      simp only [Abs.guard, Abs.eff, Abs.out, weight_ne hne, weight_ne hne', Members.saveTotal_total] at h1 h2 ⊢
      refine ⟨⟨by omega, by omega⟩, ⟨h1.1, by omega, h1.2.2⟩, ?_, by trivial, by trivial⟩
      simp only [Abs.mk.injEq, and_true, true_and]
      rw [show x.mem.total - a + c = x.mem.total + c - a by omega]
      exact mem_comm _ hne _ _ _ _ _ _
    | unstake v c =>
      simp only [Act.user, Act.brought] at hne hne' hroom
      have hv := hw v
      simp only [Abs.guard, Abs.eff, Abs.out, weight_ne hne, weight_ne hne', Members.saveTotal_total] at h1 h2 ⊢
      refine ⟨⟨h2.1, by omega, by omega⟩, ⟨h1.1, by omega, by omega⟩, ?_, by trivial, by trivial⟩
      simp only [Abs.mk.injEq, and_true, true_and]
      refine ⟨?_, Multiset.cons_swap _ _ _⟩
      rw [show x.mem.total - c - a = x.mem.total - a - c by omega]
      exact mem_comm _ hne _ _ _ _ _ _
    | take v =>
      simp only [Act.user] at hne hne'
      have hd : (x.eff b (.unstake u a)).due v b = x.due v b := due_cons_ne x hne' b _ _ _ _
      simp only [Abs.guard, Abs.out] at h1 h2 ⊢
      rw [hd] at h2 ⊢
      refine ⟨h2, h1, ?_, by trivial, by trivial⟩
      simp only [Abs.eff, Abs.mk.injEq, and_true, true_and]
      rw [Multiset.filter_cons_of_pos]
      rw [shapeDue_user hne]
      decide
  | take u =>
    cases q with
    | stake v c =>
      simp only [Abs.guard, Abs.eff, Abs.out] at h1 h2 ⊢
      exact ⟨h2, h1, by trivial, by trivial, by trivial⟩
    | unstake v c =>
      simp only [Act.user] at hne hne'
      have hd : (x.eff b (.unstake v c)).due u b = x.due u b := due_cons_ne x hne b _ _ _ _
      simp only [Abs.guard, Abs.out] at h1 h2 ⊢
      rw [hd]
      refine ⟨h2, h1, ?_, by trivial, by trivial⟩
      simp only [Abs.eff, Abs.mk.injEq, and_true, true_and]
      rw [Multiset.filter_cons_of_pos]
      rw [shapeDue_user hne']
      decide
    | take v =>
      simp only [Act.user] at hne hne'
      simp only [Abs.guard, Abs.out, due_take_ne x hne, due_take_ne x hne'] at h1 h2 ⊢
      refine ⟨h2, h1, ?_, by trivial, by trivial⟩
      simp only [Abs.eff, Abs.mk.injEq, and_true, true_and, Multiset.filter_filter]
      refine Multiset.filter_congr (fun y _ => and_comm)

/-! ## Histories -/

theorem step_of_ok {k : Kind} {s : State} {c : Call} {r : State × List Out} (hd : c.delivered = true)
    (hr : exec k s c.env c.msg = .ok r) : step k s c = r := by
  unfold step
  rw [hr]
  simp [hd]

theorem acts_unique {k : Kind} {asset : Addr} {c : Call} {x y : Act} (hx : acts k asset c x) (hy : acts k asset c y) :
    x = y := by
  cases x with
  | stake u a =>
    cases y with
    | stake v d =>
      obtain ⟨_, ⟨h1, _, h2⟩ | ⟨h1, o, h2, h3⟩⟩ := hx <;> obtain ⟨_, ⟨h1', _, h2'⟩ | ⟨h1', o', h2', h3'⟩⟩ := hy
      · rw [h2] at h2'; cases h2'; rfl
      · rw [h1] at h1'; cases h1'
      · rw [h1] at h1'; cases h1'
      · rw [h2] at h2'; cases h2'; rw [← h3, ← h3']
    | unstake v d =>
      obtain ⟨h2', _⟩ := hy
      obtain ⟨_, ⟨h1, _, h2⟩ | ⟨h1, o, h2, h3⟩⟩ := hx <;> rw [h2] at h2' <;> cases h2'
    | take v =>
      obtain ⟨⟨o', h2', _⟩, _⟩ := hy
      obtain ⟨_, ⟨h1, _, h2⟩ | ⟨h1, o, h2, h3⟩⟩ := hx <;> rw [h2] at h2' <;> cases h2'
  | unstake u a =>
    obtain ⟨h2, rfl⟩ := hx
    cases y with
    | stake v d =>
      obtain ⟨_, ⟨h1', _, h2'⟩ | ⟨h1', o', h2', h3'⟩⟩ := hy <;> rw [h2] at h2' <;> cases h2'
    | unstake v d => obtain ⟨h2', rfl⟩ := hy; rw [h2] at h2'; cases h2'; rfl
    | take v => obtain ⟨⟨o', h2', _⟩, _⟩ := hy; rw [h2] at h2'; cases h2'
  | take u =>
    obtain ⟨⟨o, h2, _⟩, rfl⟩ := hx
    cases y with
    | stake v d =>
      obtain ⟨_, ⟨h1', _, h2'⟩ | ⟨h1', o', h2', h3'⟩⟩ := hy <;> rw [h2] at h2' <;> cases h2'
    | unstake v d => obtain ⟨h2', rfl⟩ := hy; rw [h2] at h2'; cases h2'
    | take v => obtain ⟨⟨o', h2', _⟩, rfl⟩ := hy; rfl

theorem accepted_act {k : Kind} {s : State} (hi : Inv s) {c : Call} (hc : concerns c ≠ none) (ha : accepted k s c) :
    ∃ x, acts k s.asset c x ∧ (abs s).guard c.env.block x ∧ abs (step k s c).1 = (abs s).eff c.env.block x ∧
      (step k s c).2 = (abs s).out c.env.block x := by
  obtain ⟨hd, r, hr⟩ := ha
  obtain ⟨u, hu⟩ := Option.ne_none_iff_exists'.1 hc
  rw [step_of_ok hd hr]
  exact exec_act hi hu hr

theorem act_accepted {k : Kind} {s : State} (hi : Inv s) {c : Call} (hd : c.delivered = true) {x : Act}
    (hx : acts k s.asset c x) (hg : (abs s).guard c.env.block x) :
    accepted k s c ∧ abs (step k s c).1 = (abs s).eff c.env.block x ∧ (step k s c).2 = (abs s).out c.env.block x := by
  have ha : accepted k s c := ⟨hd, exec_of_act hi hx hg⟩
  have hc : concerns c ≠ none := by rw [acts_user hx]; exact Option.some_ne_none _
  obtain ⟨y, hy, _, h2, h3⟩ := accepted_act hi hc ha
  rw [acts_unique hx hy]
  exact ⟨ha, h2, h3⟩

theorem abs_asset {s t : State} (h : abs s = abs t) : s.asset = t.asset := congrArg Abs.asset h

theorem bisim_step {k : Kind} {s t : State} (hs : Inv s) (ht : Inv t) (h : abs s = abs t) {c : Call}
    (hc : concerns c ≠ none) (ha : accepted k s c) :
    accepted k t c ∧ abs (step k s c).1 = abs (step k t c).1 ∧ (step k s c).2 = (step k t c).2 := by
  obtain ⟨x, h1, h2, h3, h4⟩ := accepted_act hs hc ha
  rw [abs_asset h] at h1
  rw [h] at h2 h3 h4
  obtain ⟨h5, h6, h7⟩ := act_accepted ht ha.1 h1 h2
  exact ⟨h5, h3.trans h6.symm, h4.trans h7.symm⟩

theorem bisim_run {k : Kind} : ∀ (l : List Call) {s t : State}, Inv s → Inv t → abs s = abs t →
    (∀ c ∈ l, concerns c ≠ none) → allAccepted k s l →
    allAccepted k t l ∧ abs (run k s l) = abs (run k t l) ∧ sent k s l = sent k t l
  | [], _, _, _, _, h, _, _ => ⟨trivial, h, rfl⟩
  | c :: l, s, t, hs, ht, h, hc, ha => by
    obtain ⟨h1, h2, h3⟩ := bisim_step hs ht h (hc c (by simp)) ha.1
    obtain ⟨h4, h5, h6⟩ := bisim_run l (inv_step hs c) (inv_step ht c) h2 (fun d hd => hc d (by simp [hd])) ha.2
    refine ⟨⟨h1, h4⟩, h5, ?_⟩
    unfold sent
    rw [h3, h6]

theorem eff_total {x : Abs} {b : Block} {p : Act} : (x.eff b p).mem.total ≤ x.mem.total + p.brought := by
  cases p with
  | stake u a => exact Nat.le_refl _
  | unstake u a => show x.mem.total - a ≤ _; omega
  | take u => exact Nat.le_add_right _ _

theorem eff_asset {x : Abs} {b : Block} {p : Act} : (x.eff b p).asset = x.asset := by
  cases p <;> rfl

/-- The total stays within 128 bits whatever the order of the messages. -/
def Room (s : State) (l : List Call) : Prop := s.mem.total + (l.map (fun c => c.msg.transferred s.asset)).sum < M128

theorem Room.step {k : Kind} {s : State} (hi : Inv s) {c : Call} {l : List Call} (hr : Room s (c :: l))
    (hc : concerns c ≠ none) (ha : accepted k s c) : Room (step k s c).1 l := by
  obtain ⟨x, h1, h2, h3, h4⟩ := accepted_act hi hc ha
  have he : (Staking.step k s c).1.asset = s.asset := by
    have := congrArg Abs.asset h3
    rw [eff_asset] at this
    exact this
  have ht : (Staking.step k s c).1.mem.total ≤ s.mem.total + x.brought := by
    have := congrArg (fun y : Abs => y.mem.total) h3
    have h5 := eff_total (x := abs s) (b := c.env.block) (p := x)
    rw [← this] at h5
    exact h5
  rw [acts_brought h1] at ht
  unfold Room at hr ⊢
  rw [he]
  simp only [List.map_cons, List.sum_cons] at hr
  omega

theorem weight_le_total {s : State} (hi : Inv s) (u : Addr) : s.mem.weight u ≤ s.mem.total := by
  rw [hi.total]
  exact Members.weight_le_wsum _ _

theorem swap_step {k : Kind} {s : State} (hi : Inv s) {c d : Call} {l : List Call} (hb : c.env.block = d.env.block)
    (hc : concerns c ≠ none) (hd : concerns d ≠ none) (hne : concerns c ≠ concerns d) (hr : Room s (c :: d :: l))
    (h1 : accepted k s c) (h2 : accepted k (step k s c).1 d) :
    accepted k s d ∧ accepted k (step k s d).1 c ∧
      abs (step k (step k s c).1 d).1 = abs (step k (step k s d).1 c).1 ∧
      (step k (step k s c).1 d).2 = (step k s d).2 ∧ (step k (step k s d).1 c).2 = (step k s c).2 := by
  obtain ⟨x, hx, gx, ex, ox⟩ := accepted_act hi hc h1
  obtain ⟨y, hy, gy, ey, oy⟩ := accepted_act (inv_step hi c) hd h2
  rw [ex] at gy ey oy
  rw [show (step k s c).1.asset = s.asset from (congrArg Abs.asset ex).trans eff_asset] at hy
  rw [← hb] at gy ey oy
  have hu : x.user ≠ y.user := by
    intro h
    rw [acts_user hx, acts_user hy, h] at hne
    exact hne rfl
  have hroom : (abs s).mem.total + x.brought + y.brought < M128 := by
    rw [acts_brought hx, acts_brought hy]
    unfold Room at hr
    simp only [List.map_cons, List.sum_cons] at hr
    show s.mem.total + _ + _ < _
    omega
  obtain ⟨g1, g2, e1, o1, o2⟩ := swap_abs hu (fun u => weight_le_total hi u) hroom gx gy
  rw [hb] at g1
  obtain ⟨a1, a2, a3⟩ := act_accepted hi h2.1 hy g1
  rw [← hb] at a2 a3
  rw [← a2] at g2
  have hx' : acts k (step k s d).1.asset c x := by
    rw [show (step k s d).1.asset = s.asset from (congrArg Abs.asset a2).trans eff_asset]
    exact hx
  obtain ⟨b1, b2, b3⟩ := act_accepted (inv_step hi d) h1.1 hx' g2
  refine ⟨a1, b1, ?_, ?_, ?_⟩
  · rw [ey, b2, a2, e1]
  · rw [oy, o1, a3]
  · rw [b3, a2, o2, ox]

/-- The first message can be sent after messages of other users. -/
theorem move_back {k : Kind} {b : Block} {c : Call} {q : List Call} : ∀ (p : List Call) {s : State}, Inv s →
    (∀ d ∈ c :: (p ++ q), d.env.block = b ∧ concerns d ≠ none) → (∀ d ∈ p, concerns d ≠ concerns c) →
    Room s (c :: (p ++ q)) → allAccepted k s (c :: (p ++ q)) →
    allAccepted k s (p ++ c :: q) ∧ abs (run k s (c :: (p ++ q))) = abs (run k s (p ++ c :: q)) ∧
      (sent k s (c :: (p ++ q))).Perm (sent k s (p ++ c :: q))
  | [], s, _, _, _, _, ha => ⟨ha, rfl, .refl _⟩
  | d :: p, s, hi, hall, hne, hr, ha => by
    simp only [List.cons_append] at hall hr ha ⊢
    have hc := hall c (by simp)
    have hd := hall d (by simp)
    obtain ⟨h1, h2, h3, h4, h5⟩ := swap_step hi (hc.1.trans hd.1.symm) hc.2 hd.2 (fun h => hne d (by simp) h.symm) hr
      ha.1 ha.2.1
    obtain ⟨h6, h7, h8⟩ := bisim_run (k := k) (p ++ q) (inv_step (inv_step hi c) d) (inv_step (inv_step hi d) c) h3
      (fun e he => (hall e (by simp only [List.mem_append] at he; simp; tauto)).2) ha.2.2
    have hr' : Room s (d :: c :: (p ++ q)) := by
      unfold Room at hr ⊢
      simp only [List.map_cons, List.sum_cons] at hr ⊢
      omega
    obtain ⟨h9, h10, h11⟩ := move_back p (inv_step (k := k) hi d)
      (fun e he => hall e (by simp only [List.mem_cons, List.mem_append] at he; simp; tauto))
      (fun e he => hne e (by simp [he])) (hr'.step hi hd.2 h1) ⟨h2, h6⟩
    refine ⟨⟨h1, h9⟩, ?_, ?_⟩
    · show abs (run k (step k (step k s c).1 d).1 (p ++ q)) = abs (run k (step k s d).1 (p ++ c :: q))
      rw [← h10, h7]
      rfl
    · show ((step k s c).2 ++ ((step k (step k s c).1 d).2 ++ sent k (step k (step k s c).1 d).1 (p ++ q))).Perm
        ((step k s d).2 ++ sent k (step k s d).1 (p ++ c :: q))
      refine List.Perm.trans ?_ (List.Perm.append_left _ h11)
      show _root_.List.Perm _ ((step k s d).2 ++ ((step k (step k s d).1 c).2 ++ sent k (step k (step k s d).1 c).1 (p ++ q)))
      rw [h4, h5, h8, ← List.append_assoc, ← List.append_assoc]
      exact List.Perm.append_right _ List.perm_append_comm

theorem order_abs {k : Kind} {b : Block} : ∀ (l l' : List Call) {s : State}, Inv s →
    (∀ c ∈ l, c.env.block = b ∧ concerns c ≠ none) → (∀ c ∈ l', concerns c ≠ none) → Interleaved l l' → Room s l →
    allAccepted k s l →
    l.Perm l' ∧ allAccepted k s l' ∧ abs (run k s l) = abs (run k s l') ∧ (sent k s l).Perm (sent k s l')
  | [], l', s, _, _, hl', hil, _, _ => by
    have : l' = [] := by
      cases l' with
      | nil => rfl
      | cons d t =>
        obtain ⟨u, hu⟩ := Option.ne_none_iff_exists'.1 (hl' d (by simp))
        have := hil u
        simp [hu] at this
    subst this
    exact ⟨.refl _, trivial, rfl, .refl _⟩
  | c :: t, l', s, hi, hl, hl', hil, hr, ha => by
    obtain ⟨u, hu⟩ := Option.ne_none_iff_exists'.1 (hl c (by simp)).2
    have hf := hil u
    rw [List.filter_cons_of_pos (by simpa using hu), eq_comm, List.filter_eq_cons_iff] at hf
    obtain ⟨p, q, rfl, hp, _, hq⟩ := hf
    have hp' : ∀ d ∈ p, concerns d ≠ some u := by
      intro d hd
      have := hp d hd
      simpa using this
    have hil' : Interleaved t (p ++ q) := by
      intro v
      by_cases hv : v = u
      · subst hv
        have hp0 : p.filter (fun c => decide (concerns c = some v)) = [] :=
          List.filter_eq_nil_iff.2 (fun d hd => by simpa using hp' d hd)
        rw [List.filter_append, hp0, hq]
        rfl
      · have := hil v
        rw [List.filter_cons_of_neg (by rw [hu]; simpa using fun h : u = v => hv h.symm), List.filter_append,
          List.filter_cons_of_neg (by rw [hu]; simpa using fun h : u = v => hv h.symm), ← List.filter_append] at this
        exact this
    obtain ⟨h0, h1, h2, h3⟩ := order_abs t (p ++ q) (inv_step (k := k) hi c) (fun d hd => hl d (by simp [hd]))
      (fun d hd => hl' d (by simp only [List.mem_append] at hd; simp; tauto)) hil' (hr.step hi (hl c (by simp)).2 ha.1) ha.2
    have hmem : ∀ d ∈ c :: (p ++ q), d.env.block = b ∧ concerns d ≠ none := by
      intro d hd
      rcases List.mem_cons.1 hd with rfl | hd
      · exact hl d (by simp)
      · exact hl d (List.mem_cons_of_mem _ (h0.mem_iff.2 hd))
    have hr' : Room s (c :: (p ++ q)) := by
      unfold Room at hr ⊢
      simp only [List.map_cons, List.sum_cons] at hr ⊢
      rw [← (h0.map (fun c => c.msg.transferred s.asset)).sum_eq]
      exact hr
    obtain ⟨h4, h5, h6⟩ := move_back p hi hmem (fun d hd h => hp' d hd (h.trans hu)) hr' ⟨ha.1, h1⟩
    refine ⟨(h0.cons c).trans List.perm_middle.symm, h4, ?_, ?_⟩
    · rw [← h5]
      exact h2
    · exact (List.Perm.append_left _ h3).trans h6

/-! ## C162 -/

/-- Messages of one block, each about one user, sent in another order that keeps the order of the messages of each user:
if they are accepted in one order they are accepted in the other, they send the same notifications and payments, and the
state is the same but for the ids of the claims. The total must have room for everything that is staked in the block. -/
theorem C162_order {k : Kind} {s : State} (h : Reachable k s) {b : Block} {l l' : List Call}
    (hl : ∀ c ∈ l, c.env.block = b ∧ concerns c ≠ none) (hl' : ∀ c ∈ l', concerns c ≠ none) (hil : Interleaved l l')
    (hroom : queryTotal s .never + (l.map (fun c => c.msg.transferred s.asset)).sum < 2 ^ 128)
    (ha : allAccepted k s l) :
    allAccepted k s l' ∧ SameButIds (run k s l) (run k s l') ∧ (sent k s l).Perm (sent k s l') := by
  obtain ⟨_, h1, h2, h3⟩ := order_abs l l' h.inv hl hl' hil hroom ha
  exact ⟨h1, sameButIds_iff.2 h2, h3⟩

/-- The sample block: a stake for user 1, and user 2, who has 50 staked, unstakes twice; user 1 claims. -/
def smpBlock : List Call :=
  [⟨smpEnv 20 2, .unstake 30, true⟩, ⟨smpEnv 20 5, .receive 25 (.stake 1), true⟩, ⟨smpEnv 20 1, .unstake 5, true⟩,
   ⟨smpEnv 20 2, .unstake 7, true⟩, ⟨smpEnv 20 3, .claim none, true⟩]

/-- The same messages in another order. -/
def smpBlock' : List Call :=
  [⟨smpEnv 20 3, .claim none, true⟩, ⟨smpEnv 20 5, .receive 25 (.stake 1), true⟩, ⟨smpEnv 20 2, .unstake 30, true⟩,
   ⟨smpEnv 20 2, .unstake 7, true⟩, ⟨smpEnv 20 1, .unstake 5, true⟩]

example : (∀ c ∈ smpBlock, c.env.block = ⟨20, 20 * 10 ^ 9⟩ ∧ concerns c ≠ none) ∧ (∀ c ∈ smpBlock', concerns c ≠ none) ∧
    allAccepted .token (run .token smpInit (smpToken.take 4)) smpBlock ∧
    Interleaved smpBlock smpBlock' ∧
    (run .token (run .token smpInit (smpToken.take 4)) smpBlock).claims ≠
      (run .token (run .token smpInit (smpToken.take 4)) smpBlock').claims := by
  refine ⟨by decide +kernel, by decide +kernel, by decide +kernel, ?_, by decide +kernel⟩
  intro u
  by_cases h1 : u = 1
  · subst h1; rfl
  by_cases h2 : u = 2
  · subst h2; rfl
  by_cases h3 : u = 3
  · subst h3; rfl
  have e1 : ¬ 1 = u := fun h => h1 h.symm
  have e2 : ¬ 2 = u := fun h => h2 h.symm
  have e3 : ¬ 3 = u := fun h => h3 h.symm
  simp [smpBlock, smpBlock', concerns, smpEnv, e1, e2, e3]

/-- Without room the order can matter: with almost 2^128 staked, a stake is accepted after an unstake of another user and
refused before it. -/
theorem C162_room_witness : ∃ s c d, Reachable .token s ∧ concerns c = some 1 ∧ concerns d = some 2 ∧
    c.env.block = d.env.block ∧ allAccepted .token s [c, d] ∧ ¬ allAccepted .token s [d, c] :=
  ⟨run .token smpInit [⟨smpEnv 11 5, .receive (2 ^ 128 - 1) (.stake 1), true⟩], ⟨smpEnv 20 1, .unstake 10, true⟩,
    ⟨smpEnv 20 5, .receive 10 (.stake 2), true⟩, ⟨_, _, _, _, _, _, _, rfl⟩, rfl, rfl, rfl, by decide +kernel,
    by decide +kernel⟩

/-- States that differ only in the ids of claims cannot be told apart by later messages of users: these are accepted in both
or in neither, send the same notifications and payments, and leave states that differ only in the ids of claims. -/
theorem C162_ids {k : Kind} {s t : State} (hs : Reachable k s) (ht : Reachable k t) (h : SameButIds s t) {l : List Call}
    (hl : ∀ c ∈ l, concerns c ≠ none) :
    (allAccepted k s l ↔ allAccepted k t l) ∧
    (allAccepted k s l → SameButIds (run k s l) (run k t l) ∧ sent k s l = sent k t l) := by
  have h' := sameButIds_iff.1 h
  refine ⟨⟨fun ha => (bisim_run l hs.inv ht.inv h' hl ha).1, fun ha => (bisim_run l ht.inv hs.inv h'.symm hl ha).1⟩, ?_⟩
  intro ha
  obtain ⟨_, h1, h2⟩ := bisim_run l hs.inv ht.inv h' hl ha
  exact ⟨sameButIds_iff.2 h1, h2⟩

example : allAccepted .token (run .token (run .token smpInit (smpToken.take 4)) smpBlock) [⟨smpEnv 200 2, .claim none, true⟩] ∧
    sent .token (run .token (run .token smpInit (smpToken.take 4)) smpBlock) [⟨smpEnv 200 2, .claim none, true⟩] =
      [.pay 2 37] := by decide +kernel

end Verif.Staking
