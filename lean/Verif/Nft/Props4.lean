import Verif.Nft.Props3
import Verif.Staking.Props4
import Mathlib.Data.Multiset.Bind

/-!
# NFT staking: the order of messages within a block (C165)
-/

set_option linter.unusedSimpArgs false

namespace Verif.Nft
open Verif
open Verif.Staking (Duration ReleaseAt releaseAt)

/-! ## Specification -/

/-- The one user whose stake or claims the message is about: the user staked for or given a claim, or the sender who
unstakes or claims. Configuration messages are about no user. -/
def concerns (c : Call) : Option Addr :=
  match c.msg with
  | .receiveNft _ (.stake u) => some u
  | .receiveNft _ (.addClaim u _) => some u
  | .unstake _ => some c.env.env.sender
  | .claim _ => some c.env.env.sender
  | _ => none

/-- The message stakes token `t`. -/
def stakesToken (t : Nat) (c : Call) : Prop := ∃ u, c.msg = .receiveNft t (.stake u)

/-- The message unstakes token `t`. -/
def unstakesToken (t : Nat) (c : Call) : Prop := ∃ l, c.msg = .unstake l ∧ t ∈ l

/-- No token is unstaked by one user and staked for another. -/
def Apart (l : List Call) : Prop :=
  ∀ c ∈ l, ∀ d ∈ l, concerns c ≠ concerns d → ∀ t, stakesToken t c → ¬ unstakesToken t d

/-- Every message of the list is accepted, one after the other. -/
def allAccepted (s : State) : List Call → Prop
  | [] => True
  | c :: t => accepted s c ∧ allAccepted (step s c).1 t

instance allAcceptedDecidable : (s : State) → (l : List Call) → Decidable (allAccepted s l)
  | _, [] => isTrue trivial
  | s, c :: t => by
    have := allAcceptedDecidable (step s c).1 t
    unfold allAccepted
    infer_instance

/-- How many outstanding claims of user `u` for the tokens `l` with release `r` there are. -/
def howMany (s : State) (u : Addr) (l : List Nat) (r : ReleaseAt) : Nat :=
  s.claims.sum (fun _ c => if c.user = u ∧ c.nfts = l ∧ c.release = r then 1 else 0)

/-- The same weights, totals at all times, hooks, staked tokens and configuration, and the same claims but for their
ids. -/
def SameButIds (s t : State) : Prop :=
  s.mem = t.mem ∧ s.stakes = t.stakes ∧ s.nft = t.nft ∧ s.unlocking = t.unlocking ∧ s.nextClaim = t.nextClaim ∧
    ∀ u l r, howMany s u l r = howMany t u l r

/-- The same messages, in an order that keeps the order of the messages of each user. -/
def Interleaved (l l' : List Call) : Prop :=
  ∀ u, l.filter (fun c => decide (concerns c = some u)) = l'.filter (fun c => decide (concerns c = some u))

/-! ## The state without the ids of claims -/

/-- A claim without its id. -/
abbrev Shape := Addr × List Nat × ReleaseAt

/-- Owner, tokens and release of a claim. -/
def shape (c : Claim) : Shape := (c.user, c.nfts, c.release)

/-- Everything an NFT staking contract stores, with claims counted by owner, tokens and release. -/
structure Abs where
  mem : Members
  stakes : Map Nat Addr
  shapes : Multiset Shape
  next : Nat
  nft : NftAddr
  unlocking : Duration

/-- The claims without their ids, each as often as there are such claims. -/
def shapes (s : State) : Multiset Shape := (s.claims.values.map shape : List Shape)

/-- The state without the ids of claims. -/
def abs (s : State) : Abs := ⟨s.mem, s.stakes, shapes s, s.nextClaim, s.nft, s.unlocking⟩

/-- Whether the claim can be taken by `u` at block `b`. -/
def shapeDue (u : Addr) (b : Block) (x : Shape) : Bool := takes u b ⟨0, x.1, x.2.1, x.2.2⟩

theorem shapeDue_shape (u : Addr) (b : Block) (c : Claim) : shapeDue u b (shape c) = takes u b c := by
  rw [Bool.eq_iff_iff]
  unfold shapeDue takes
  simp only [decide_eq_true_eq]
  exact Iff.rfl

theorem shapeDue_user {u : Addr} {b : Block} {x : Shape} (h : x.1 ≠ u) : shapeDue u b x = false := by
  unfold shapeDue takes
  exact decide_eq_false (fun h' => h h'.1)

theorem count_shapes (s : State) (x : Shape) :
    (shapes s).count x = s.claims.sum (fun _ c => if shape c = x then 1 else 0) := by
  unfold shapes Map.values Map.sum
  rw [Multiset.coe_count]
  induction s.claims.entries with
  | nil => rfl
  | cons e t ih =>
    simp only [List.map_cons, List.sum_cons, List.count_cons, ih, beq_iff_eq]
    omega

theorem howMany_count (s : State) (u : Addr) (l : List Nat) (r : ReleaseAt) :
    howMany s u l r = (shapes s).count (u, l, r) := by
  rw [count_shapes]
  unfold howMany
  refine Map.sum_congr (fun i c _ => ?_)
  simp [shape]

theorem sameButIds_iff {s t : State} : SameButIds s t ↔ abs s = abs t := by
  unfold SameButIds abs
  rw [Abs.mk.injEq]
  simp only [howMany_count]
  constructor
  · rintro ⟨h1, h2, h3, h4, h5, h6⟩
    exact ⟨h1, h2, Multiset.ext.2 (fun x => h6 x.1 x.2.1 x.2.2), h5, h3, h4⟩
  · rintro ⟨h1, h2, h3, h4, h5, h6⟩
    exact ⟨h1, h2, h5, h6, h4, fun u a r => by rw [h3]⟩

/-- What one message does: a stake, an unstake, the import of a claim, a claim. -/
inductive Act
  | stake (u : Addr) (t : Nat)
  | unstake (u : Addr) (l : List Nat)
  | grant (u : Addr) (t : Nat) (r : ReleaseAt)
  | take (u : Addr)

/-- The user concerned. -/
def Act.user : Act → Addr
  | .stake u _ => u
  | .unstake u _ => u
  | .grant u _ _ => u
  | .take u => u

/-- When the act is possible. -/
def Abs.guard (x : Abs) : Act → Prop
  | .stake u t => x.stakes.get t = none ∧ x.mem.weight u + 1 < M128 ∧ x.mem.total + 1 < M128
  | .unstake u l => l.Nodup ∧ (∀ t ∈ l, x.stakes.get t = some u) ∧ l.length ≤ x.mem.weight u ∧
      l.length ≤ x.mem.total ∧ x.next + 1 < M64
  | .grant _ _ _ => x.next + 1 < M64
  | .take _ => True

/-- The state after the act. -/
def Abs.eff (x : Abs) (b : Block) : Act → Abs
  | .stake u t => { x with
      mem := (x.mem.setWeight u (x.mem.weight u + 1)).saveTotal (x.mem.total + 1) b
      stakes := x.stakes.set t u }
  | .unstake u l => { x with
      mem := (x.mem.setWeight u (x.mem.weight u - l.length)).saveTotal (x.mem.total - l.length) b
      stakes := l.foldl (fun m t => m.remove t) x.stakes
      next := x.next + 1
      shapes := (u, l, releaseAt x.unlocking b) ::ₘ x.shapes }
  | .grant u t r => { x with next := x.next + 1, shapes := (u, [t], r) ::ₘ x.shapes }
  | .take u => { x with shapes := x.shapes.filter (fun y => ¬ shapeDue u b y = true) }

/-- The tokens that a claim of `u` sends. -/
def Abs.due (x : Abs) (u : Addr) (b : Block) : Multiset Out :=
  (x.shapes.filter (fun y => shapeDue u b y = true)).bind (fun y => (y.2.1.map (fun t => Out.sendNft u t) : List Out))

/-- What the act sends. -/
def Abs.out (x : Abs) (b : Block) : Act → Multiset Out
  | .stake u _ => (x.mem.report [⟨u, x.mem.weight u, x.mem.weight u + 1⟩] : List Out)
  | .unstake u l => (x.mem.report [⟨u, x.mem.weight u, x.mem.weight u - l.length⟩] : List Out)
  | .grant _ _ _ => 0
  | .take u => x.due u b

/-- The act of a message. -/
def actOf (c : Call) : Option Act :=
  match c.msg with
  | .receiveNft t (.stake u) => some (.stake u t)
  | .receiveNft t (.addClaim u r) => some (.grant u t r)
  | .unstake l => some (.unstake c.env.env.sender l)
  | .claim _ => some (.take c.env.env.sender)
  | _ => none

/-- What the message must satisfy whatever the stakes and claims; `a` is the collection. -/
def allowed (a : Addr) (c : Call) : Prop :=
  match c.msg with
  | .receiveNft _ (.stake u) => c.env.env.sender = a ∧ c.env.env.restricted u = false
  | .receiveNft _ (.addClaim _ _) => c.env.env.sender = a
  | .claim o => o.getD c.env.env.sender = c.env.env.sender
  | _ => True

theorem concerns_eq (c : Call) : concerns c = (actOf c).map Act.user := by
  unfold concerns actOf
  obtain ⟨e, m, d⟩ := c
  cases m with
  | receiveNft t h => cases h <;> rfl
  | unstake l => rfl
  | claim o => rfl
  | updateUnlocking p => rfl
  | addHook h => rfl
  | removeHook h => rfl

theorem actOf_some {c : Call} (h : concerns c ≠ none) : ∃ x, actOf c = some x ∧ concerns c = some x.user := by
  rw [concerns_eq] at h ⊢
  cases hx : actOf c with
  | none => rw [hx] at h; exact absurd rfl h
  | some x => exact ⟨x, rfl, rfl⟩

theorem shapes_set {s : State} {i : Nat} (hn : s.claims.get i = none) (c : Claim) (s' : State)
    (hs' : s'.claims = s.claims.set i c) : shapes s' = shape c ::ₘ shapes s := by
  refine Multiset.ext.2 (fun x => ?_)
  rw [count_shapes, hs', Multiset.count_cons, count_shapes]
  have h := s.claims.sum_set (fun _ c => if shape c = x then 1 else 0) i c
  rw [hn, Map.contrib_none] at h
  by_cases hx : shape c = x
  · rw [if_pos hx.symm]; rw [if_pos hx] at h; omega
  · rw [if_neg (fun h => hx h.symm)]; rw [if_neg hx] at h; omega

theorem shapes_filter (s : State) (p : Shape → Bool) (s' : State)
    (hs' : s'.claims = s.claims.filter (fun _ c => p (shape c))) : shapes s' = (shapes s).filter (fun y => p y = true) := by
  unfold shapes Map.values
  rw [hs']
  unfold Map.filter
  rw [Multiset.filter_coe]
  congr 1
  simp only [List.filter_map, List.map_map]
  congr 2
  funext e
  simp [Function.comp]

theorem due_eq (s : State) (u : Addr) (b : Block) :
    (abs s).due u b = (((s.claims.filter (fun _ c => takes u b c)).values.flatMap (·.nfts)).map
      (fun t => Out.sendNft u t) : List Out) := by
  unfold Abs.due abs shapes Map.values Map.filter
  simp only [Multiset.filter_coe]
  rw [Multiset.coe_bind]
  congr 1
  induction s.claims.entries with
  | nil => rfl
  | cons e t ih =>
    simp only [List.map_cons, List.filter_cons, shapeDue_shape] at ih ⊢
    by_cases hd : takes u b e.2 = true
    · simp only [hd, if_true, decide_true, List.flatMap_cons, List.map_cons, List.map_append]
      rw [← ih]
      rfl
    · simpa [hd] using ih

theorem has_eq_false {m : Map Nat Addr} {t : Nat} : m.has t = false ↔ m.get t = none := by
  cases h : m.get t with
  | none => unfold Map.has; rw [h]; simp
  | some v => unfold Map.has; rw [h]; simp

/-- A message about one user, in terms of the state without ids. -/
theorem exec_act {s : State} (hi : Inv s) {a : Addr} (hn : s.nft = .cw721 a) {c : Call} {x : Act} (hc : actOf c = some x) :
    ((∃ r, exec s c.env c.msg = .ok r) ↔ allowed a c ∧ (abs s).guard x) ∧
    ∀ r, exec s c.env c.msg = .ok r → abs r.1 = (abs s).eff c.env.env.block x ∧
      (r.2 : Multiset Out) = (abs s).out c.env.env.block x := by
  obtain ⟨e, m, d⟩ := c
  have hnc : nftContract s e.proxyNft = some a := by unfold nftContract; rw [hn]
  cases m with
  | receiveNft t h =>
    cases h with
    | stake u =>
      cases hc
      have hs : ∀ v, v = a → { s with nft := NftAddr.cw721 v } = s := by
        rintro v rfl
        rw [← hn]
      constructor
      · simp only [exec, receiveNft_ok_iff, hnc, allowed, Abs.guard, abs]
        constructor
        · rintro ⟨r, h1, ⟨v, h2, h3⟩ | ⟨v, dd, h2, h3⟩⟩
          · cases h2
            cases h1
            obtain ⟨h4, h5, h6, h7, _⟩ := stakeNft_ok_iff.1 h3
            exact ⟨⟨rfl, h4⟩, has_eq_false.1 h5, h6, h7⟩
          · cases h2
        · rintro ⟨⟨rfl, h2⟩, h3, h4, h5⟩
          exact ⟨_, rfl, .inl ⟨u, rfl, stakeNft_ok_iff.2 ⟨h2, has_eq_false.2 h3, h4, h5, rfl⟩⟩⟩
      · intro r hr
        simp only [exec, receiveNft_ok_iff, hnc] at hr
        obtain ⟨h1, ⟨v, h2, h3⟩ | ⟨v, dd, h2, h3⟩⟩ := hr
        · cases h2
          cases h1
          rw [hs _ rfl] at h3
          obtain ⟨_, _, _, _, rfl⟩ := stakeNft_ok_iff.1 h3
          exact ⟨rfl, rfl⟩
        · cases h2
    | addClaim u r0 =>
      cases hc
      have hs : ∀ v, v = a → { s with nft := NftAddr.cw721 v } = s := by
        rintro v rfl
        rw [← hn]
      constructor
      · simp only [exec, receiveNft_ok_iff, hnc, allowed, Abs.guard, abs]
        constructor
        · rintro ⟨r, h1, ⟨v, h2, h3⟩ | ⟨v, dd, h2, h3⟩⟩
          · cases h2
          · cases h2
            cases h1
            exact ⟨rfl, (addNftClaim_ok_iff.1 h3).1⟩
        · rintro ⟨rfl, h3⟩
          exact ⟨_, rfl, .inr ⟨u, r0, rfl, addNftClaim_ok_iff.2 ⟨h3, rfl⟩⟩⟩
      · intro r hr
        simp only [exec, receiveNft_ok_iff, hnc] at hr
        obtain ⟨h1, ⟨v, h2, h3⟩ | ⟨v, dd, h2, h3⟩⟩ := hr
        · cases h2
        · cases h2
          cases h1
          rw [hs _ rfl] at h3
          obtain ⟨_, rfl⟩ := addNftClaim_ok_iff.1 h3
          refine ⟨?_, rfl⟩
          unfold abs Abs.eff
          simp only [Abs.mk.injEq, true_and, and_true]
          exact shapes_set hi.fresh ⟨_, _, _, _⟩ _ rfl
    | unknown => cases hc
  | unstake l =>
    cases hc
    constructor
    · simp only [exec, unstake_ok_iff, allowed, Abs.guard, abs, true_and]
      constructor
      · rintro ⟨r, h1, h2, h3, h4, h5, _⟩
        exact ⟨h1, h2, h3, h4, h5⟩
      · rintro ⟨h1, h2, h3, h4, h5⟩
        exact ⟨_, h1, h2, h3, h4, h5, rfl⟩
    · intro r hr
      simp only [exec] at hr
      obtain ⟨_, _, _, _, _, rfl⟩ := unstake_ok_iff.1 hr
      refine ⟨?_, rfl⟩
      unfold abs Abs.eff
      simp only [Abs.mk.injEq, true_and, and_true]
      exact shapes_set hi.fresh ⟨_, _, _, _⟩ _ rfl
  | claim o =>
    cases hc
    constructor
    · simp only [exec, claim_ok_iff hi, allowed, Abs.guard, and_true]
      constructor
      · rintro ⟨r, _, h1, _⟩
        exact h1
      · intro h1
        exact ⟨_, ⟨a, hn⟩, h1, rfl⟩
    · intro r hr
      simp only [exec] at hr
      obtain ⟨_, _, rfl⟩ := (claim_ok_iff hi).1 hr
      refine ⟨?_, ?_⟩
      · unfold abs Abs.eff
        simp only [Abs.mk.injEq, true_and, and_true]
        rw [shapes_filter s (fun y => !shapeDue e.env.sender e.env.block y) _ (by
          simp only [shapeDue_shape])]
        congr 1
        funext y
        simp
      · simp only [Abs.out, due_eq]
  | updateUnlocking p => cases hc
  | addHook h => cases hc
  | removeHook h => cases hc

/-! ## Acts of different users commute -/

theorem due_cons_ne (x : Abs) {u v : Addr} (h : u ≠ v) (b : Block) (l : List Nat) (r : ReleaseAt) (n : Nat) (m : Members)
    (st : Map Nat Addr) :
    ({ x with mem := m, stakes := st, next := n, shapes := (v, l, r) ::ₘ x.shapes } : Abs).due u b = x.due u b := by
  unfold Abs.due
  simp only
  rw [Multiset.filter_cons_of_neg]
  rw [shapeDue_user (fun h' => h h'.symm)]
  decide

theorem due_take_ne (x : Abs) {u v : Addr} (h : u ≠ v) (b : Block) : (x.eff b (.take v)).due u b = x.due u b := by
  unfold Abs.due Abs.eff
  simp only
  rw [Multiset.filter_filter]
  congr 1
  refine Multiset.filter_congr (fun y _ => ?_)
  constructor
  · exact fun h' => h'.1
  · intro h'
    refine ⟨h', fun h'' => h ?_⟩
    unfold shapeDue takes at h' h''
    exact (of_decide_eq_true h').1.symm.trans (of_decide_eq_true h'').1

theorem filter_cons_other {u v : Addr} (h : v ≠ u) (b : Block) (l : List Nat) (r : ReleaseAt) (m : Multiset Shape) :
    ((v, l, r) ::ₘ m).filter (fun y => ¬ shapeDue u b y = true) =
      (v, l, r) ::ₘ m.filter (fun y => ¬ shapeDue u b y = true) := by
  rw [Multiset.filter_cons_of_pos]
  rw [shapeDue_user h]
  decide

/-- The two acts do not stake and unstake the same token. -/
def apart : Act → Act → Prop
  | .stake _ t, .unstake _ l => t ∉ l
  | .unstake _ l, .stake _ t => t ∉ l
  | _, _ => True

theorem removes_comm (l l' : List Nat) (m : Map Nat Addr) :
    l.foldl (fun m t => m.remove t) (l'.foldl (fun m t => m.remove t) m) =
      l'.foldl (fun m t => m.remove t) (l.foldl (fun m t => m.remove t) m) := by
  refine Map.ext_get (fun i => ?_)
  simp only [get_removes]
  by_cases h1 : i ∈ l <;> by_cases h2 : i ∈ l' <;> simp [h1, h2]

theorem removes_set {l : List Nat} {t : Nat} (h : t ∉ l) (m : Map Nat Addr) (u : Addr) :
    l.foldl (fun m t => m.remove t) (m.set t u) = (l.foldl (fun m t => m.remove t) m).set t u := by
  refine Map.ext_get (fun i => ?_)
  rw [get_removes]
  by_cases hi : i = t
  · subst hi
    rw [if_neg h, Map.get_set_self, Map.get_set_self]
  · rw [Map.get_set_ne _ _ (fun h' => hi h'.symm), Map.get_set_ne _ _ (fun h' => hi h'.symm), get_removes]

/-- Acts of different users in one block commute, in the state without ids. -/
theorem swap_abs {x : Abs} {b : Block} {p q : Act} (hne : p.user ≠ q.user) (hap : apart p q)
    (hw : ∀ u, x.mem.weight u ≤ x.mem.total) (hroom : x.mem.total + 2 < M128)
    (h1 : x.guard p) (h2 : (x.eff b p).guard q) :
    x.guard q ∧ (x.eff b q).guard p ∧ (x.eff b p).eff b q = (x.eff b q).eff b p ∧
      (x.eff b p).out b q = x.out b q ∧ (x.eff b q).out b p = x.out b p := by
  have hne' := hne.symm
  cases p with
  | stake u a =>
    cases q with
    | stake v c =>
      simp only [Act.user] at hne hne'
      have hv := hw v
      simp only [Abs.guard, Abs.eff, Abs.out, Staking.weight_ne hne, Staking.weight_ne hne', Members.saveTotal_total] at h1 h2 ⊢
      have hac : a ≠ c := by
        rintro rfl
        rw [Map.get_set_self] at h2
        cases h2.1
      rw [Map.get_set_ne _ _ hac] at h2
      refine ⟨⟨h2.1, by omega, by omega⟩, ⟨?_, h1.2.1, by omega⟩, ?_, by trivial, by trivial⟩
      · rw [Map.get_set_ne _ _ hac.symm]; exact h1.1
      · simp only [Abs.mk.injEq, and_true]
        exact ⟨Staking.mem_comm _ hne _ _ _ _ _ _, Map.set_comm _ _ _ hac⟩
    | unstake v c =>
      simp only [Act.user, apart] at hne hne' hap
      have hv := hw v
      simp only [Abs.guard, Abs.eff, Abs.out, Staking.weight_ne hne, Staking.weight_ne hne', Members.saveTotal_total] at h1 h2 ⊢
      obtain ⟨g1, g2, g3, g4, g5⟩ := h2
      refine ⟨⟨g1, fun t ht => ?_, g3, by omega, g5⟩, ⟨?_, h1.2.1, by omega⟩, ?_, by trivial, by trivial⟩
      · have := g2 t ht
        rwa [Map.get_set_ne _ _ (by rintro rfl; exact hap ht)] at this
      · rw [get_removes, if_neg hap]; exact h1.1
      · simp only [Abs.mk.injEq, and_true, true_and]
        refine ⟨?_, removes_set hap _ _⟩
        rw [show x.mem.total - c.length + 1 = x.mem.total + 1 - c.length by omega]
        exact Staking.mem_comm _ hne _ _ _ _ _ _
    | grant v c r => exact ⟨h2, h1, rfl, rfl, rfl⟩
    | take v => exact ⟨h2, h1, rfl, rfl, rfl⟩
  | unstake u a =>
    cases q with
    | stake v c =>
      simp only [Act.user, apart] at hne hne' hap
      have hv := hw v
      simp only [Abs.guard, Abs.eff, Abs.out, Staking.weight_ne hne, Staking.weight_ne hne', Members.saveTotal_total] at h1 h2 ⊢
      obtain ⟨g1, g2, g3, g4, g5⟩ := h1
      rw [get_removes, if_neg hap] at h2
      refine ⟨⟨h2.1, by omega, by omega⟩, ⟨g1, fun t ht => ?_, g3, by omega, g5⟩, ?_, by trivial, by trivial⟩
      · rw [Map.get_set_ne _ _ (by rintro rfl; exact hap ht)]
        exact g2 t ht
      · simp only [Abs.mk.injEq, and_true, true_and]
        refine ⟨?_, (removes_set hap _ _).symm⟩
        rw [show x.mem.total - a.length + 1 = x.mem.total + 1 - a.length by omega]
        exact Staking.mem_comm _ hne _ _ _ _ _ _
    | unstake v c =>
      simp only [Act.user] at hne hne'
      have hv := hw v
      simp only [Abs.guard, Abs.eff, Abs.out, Staking.weight_ne hne, Staking.weight_ne hne', Members.saveTotal_total] at h1 h2 ⊢
      obtain ⟨g1, g2, g3, g4, g5⟩ := h1
      obtain ⟨k1, k2, k3, k4, k5⟩ := h2
      have hk : ∀ t ∈ c, x.stakes.get t = some v := by
        intro t ht
        have := k2 t ht
        rw [get_removes] at this
        split at this
        · cases this
        · exact this
      refine ⟨⟨k1, hk, k3, by omega, by omega⟩, ⟨g1, fun t ht => ?_, g3, by omega, by omega⟩, ?_, by trivial, by trivial⟩
      · rw [get_removes, if_neg]
        · exact g2 t ht
        · intro htc
          have := hk t htc
          rw [g2 t ht] at this
          cases this
          exact hne rfl
      · simp only [Abs.mk.injEq, and_true, true_and]
        refine ⟨?_, removes_comm _ _ _, Multiset.cons_swap _ _ _⟩
        rw [show x.mem.total - c.length - a.length = x.mem.total - a.length - c.length by omega]
        exact Staking.mem_comm _ hne _ _ _ _ _ _
    | grant v c r =>
      simp only [Act.user] at hne hne'
      simp only [Abs.guard, Abs.eff, Abs.out] at h1 h2 ⊢
      obtain ⟨g1, g2, g3, g4, g5⟩ := h1
      refine ⟨by omega, ⟨g1, g2, g3, g4, by omega⟩, ?_, by trivial, by trivial⟩
      simp only [Abs.mk.injEq, and_true, true_and]
      exact Multiset.cons_swap _ _ _
    | take v =>
      simp only [Act.user] at hne hne'
      have hd : (x.eff b (.unstake u a)).due v b = x.due v b := due_cons_ne x hne' b _ _ _ _ _
      simp only [Abs.guard, Abs.out] at h1 h2 ⊢
      rw [hd]
      refine ⟨h2, h1, ?_, by trivial, by trivial⟩
      simp only [Abs.eff, Abs.mk.injEq, and_true, true_and]
      exact filter_cons_other hne _ _ _ _
  | grant u a r =>
    cases q with
    | stake v c => exact ⟨h2, h1, rfl, rfl, rfl⟩
    | unstake v c =>
      simp only [Act.user] at hne hne'
      simp only [Abs.guard, Abs.eff, Abs.out] at h1 h2 ⊢
      obtain ⟨g1, g2, g3, g4, g5⟩ := h2
      refine ⟨⟨g1, g2, g3, g4, by omega⟩, by omega, ?_, by trivial, by trivial⟩
      simp only [Abs.mk.injEq, and_true, true_and]
      exact Multiset.cons_swap _ _ _
    | grant v c r' =>
      simp only [Abs.guard, Abs.eff, Abs.out] at h1 h2 ⊢
      refine ⟨h1, h2, ?_, by trivial, by trivial⟩
      simp only [Abs.mk.injEq, and_true, true_and]
      exact Multiset.cons_swap _ _ _
    | take v =>
      simp only [Act.user] at hne hne'
      have hd : (x.eff b (.grant u a r)).due v b = x.due v b := due_cons_ne x hne' b _ _ _ _ _
      simp only [Abs.guard, Abs.out] at h1 h2 ⊢
      rw [hd]
      refine ⟨h2, h1, ?_, by trivial, by trivial⟩
      simp only [Abs.eff, Abs.mk.injEq, and_true, true_and]
      exact filter_cons_other hne _ _ _ _
  | take u =>
    cases q with
    | stake v c => exact ⟨h2, h1, rfl, rfl, rfl⟩
    | unstake v c =>
      simp only [Act.user] at hne hne'
      have hd : (x.eff b (.unstake v c)).due u b = x.due u b := due_cons_ne x hne b _ _ _ _ _
      simp only [Abs.guard, Abs.out] at h1 h2 ⊢
      rw [hd]
      refine ⟨h2, h1, ?_, by trivial, by trivial⟩
      simp only [Abs.eff, Abs.mk.injEq, and_true, true_and]
      exact (filter_cons_other hne' _ _ _ _).symm
    | grant v c r =>
      simp only [Act.user] at hne hne'
      have hd : (x.eff b (.grant v c r)).due u b = x.due u b := due_cons_ne x hne b _ _ _ _ _
      simp only [Abs.guard, Abs.out] at h1 h2 ⊢
      rw [hd]
      refine ⟨h2, h1, ?_, by trivial, by trivial⟩
      simp only [Abs.eff, Abs.mk.injEq, and_true, true_and]
      exact (filter_cons_other hne' _ _ _ _).symm
    | take v =>
      simp only [Act.user] at hne hne'
      simp only [Abs.guard, Abs.out, due_take_ne x hne, due_take_ne x hne'] at h1 h2 ⊢
      refine ⟨h2, h1, ?_, by trivial, by trivial⟩
      simp only [Abs.eff, Abs.mk.injEq, and_true, true_and, Multiset.filter_filter]
      refine Multiset.filter_congr (fun y _ => and_comm)

/-! ## Histories -/

theorem step_of_ok {s : State} {c : Call} {r : State × List Out} (hd : c.delivered = true)
    (hr : exec s c.env c.msg = .ok r) : step s c = r := by
  unfold step
  rw [hr]
  simp [hd]

theorem accepted_act {s : State} (hi : Inv s) {a : Addr} (hn : s.nft = .cw721 a) {c : Call} {x : Act}
    (hc : actOf c = some x) (ha : accepted s c) :
    allowed a c ∧ (abs s).guard x ∧ abs (step s c).1 = (abs s).eff c.env.env.block x ∧
      ((step s c).2 : Multiset Out) = (abs s).out c.env.env.block x := by
  obtain ⟨hd, r, hr⟩ := ha
  obtain ⟨h1, h2⟩ := exec_act hi hn hc
  obtain ⟨h3, h4⟩ := h1.1 ⟨r, hr⟩
  rw [step_of_ok hd hr]
  exact ⟨h3, h4, h2 r hr⟩

theorem act_accepted {s : State} (hi : Inv s) {a : Addr} (hn : s.nft = .cw721 a) {c : Call} (hd : c.delivered = true)
    {x : Act} (hc : actOf c = some x) (hl : allowed a c) (hg : (abs s).guard x) :
    accepted s c ∧ abs (step s c).1 = (abs s).eff c.env.env.block x ∧
      ((step s c).2 : Multiset Out) = (abs s).out c.env.env.block x := by
  have ha : accepted s c := ⟨hd, (exec_act hi hn hc).1.2 ⟨hl, hg⟩⟩
  exact ⟨ha, (accepted_act hi hn hc ha).2.2⟩

theorem eff_nft (x : Abs) (b : Block) (p : Act) : (x.eff b p).nft = x.nft := by cases p <;> rfl

theorem abs_nft {s t : State} (h : abs s = abs t) : s.nft = t.nft := congrArg Abs.nft h

theorem nft_kept {s : State} (hi : Inv s) {a : Addr} (hn : s.nft = .cw721 a) {c : Call} (hc : concerns c ≠ none)
    (ha : accepted s c) : (step s c).1.nft = .cw721 a := by
  obtain ⟨x, hx, _⟩ := actOf_some hc
  obtain ⟨_, _, h3, _⟩ := accepted_act hi hn hx ha
  have := congrArg Abs.nft h3
  rw [eff_nft] at this
  exact this.trans hn

theorem bisim_step {s t : State} (hs : Inv s) (ht : Inv t) {a : Addr} (hn : s.nft = .cw721 a) (h : abs s = abs t) {c : Call}
    (hc : concerns c ≠ none) (ha : accepted s c) :
    accepted t c ∧ abs (step s c).1 = abs (step t c).1 ∧ (step s c).2.Perm (step t c).2 := by
  obtain ⟨x, hx, _⟩ := actOf_some hc
  obtain ⟨h1, h2, h3, h4⟩ := accepted_act hs hn hx ha
  rw [h] at h2 h3 h4
  obtain ⟨h5, h6, h7⟩ := act_accepted ht ((abs_nft h).symm.trans hn) ha.1 hx h1 h2
  exact ⟨h5, h3.trans h6.symm, Multiset.coe_eq_coe.1 (h4.trans h7.symm)⟩

theorem bisim_run {a : Addr} : ∀ (l : List Call) {s t : State}, Inv s → Inv t → s.nft = .cw721 a → abs s = abs t →
    (∀ c ∈ l, concerns c ≠ none) → allAccepted s l →
    allAccepted t l ∧ abs (run s l) = abs (run t l) ∧ (sent s l).Perm (sent t l)
  | [], _, _, _, _, _, h, _, _ => ⟨trivial, h, .refl _⟩
  | c :: l, s, t, hs, ht, hn, h, hc, ha => by
    obtain ⟨h1, h2, h3⟩ := bisim_step hs ht hn h (hc c (by simp)) ha.1
    obtain ⟨h4, h5, h6⟩ := bisim_run l (inv_step hs c) (inv_step ht c) (nft_kept hs hn (hc c (by simp)) ha.1) h2
      (fun d hd => hc d (by simp [hd])) ha.2
    exact ⟨⟨h1, h4⟩, h5, h3.append h6⟩

/-- Room in the total for the messages to come. -/
def Room (s : State) (l : List Call) : Prop := s.mem.total + l.length < M128

theorem weight_le_total {s : State} (hi : Inv s) (u : Addr) : s.mem.weight u ≤ s.mem.total := by
  rw [hi.weight, hi.total, size_eq_sum]
  refine Map.sum_le_sum (fun t v _ => ?_)
  split <;> omega

theorem eff_total {x : Abs} (b : Block) (p : Act) : (x.eff b p).mem.total ≤ x.mem.total + 1 := by
  cases p with
  | stake u t => simp only [Abs.eff, Members.saveTotal_total]; omega
  | unstake u l => simp only [Abs.eff, Members.saveTotal_total]; omega
  | grant u t r => simp only [Abs.eff]; omega
  | take u => simp only [Abs.eff]; omega

theorem Room.step {s : State} (hi : Inv s) {a : Addr} (hn : s.nft = .cw721 a) {c : Call} {l : List Call}
    (hr : Room s (c :: l)) (hc : concerns c ≠ none) (ha : accepted s c) : Room (step s c).1 l := by
  obtain ⟨x, hx, _⟩ := actOf_some hc
  obtain ⟨_, _, h3, _⟩ := accepted_act hi hn hx ha
  have h4 := eff_total (x := abs s) c.env.env.block x
  rw [← h3] at h4
  unfold Room at hr ⊢
  simp only [List.length_cons] at hr
  have h5 : (abs s).mem.total = s.mem.total := rfl
  have h6 : (abs (Verif.Nft.step s c).1).mem.total = (Verif.Nft.step s c).1.mem.total := rfl
  omega

theorem apart_of {l : List Call} (h : Apart l) {c d : Call} (hc : c ∈ l) (hd : d ∈ l) (hne : concerns c ≠ concerns d)
    {x y : Act} (hx : actOf c = some x) (hy : actOf d = some y) : apart x y := by
  have hst : ∀ {c : Call} {u t}, actOf c = some (.stake u t) → stakesToken t c := by
    rintro ⟨e, m, dl⟩ u t h
    cases m with
    | receiveNft t' hk => cases hk <;> cases h; exact ⟨_, rfl⟩
    | _ => cases h
  have hun : ∀ {c : Call} {u l}, actOf c = some (.unstake u l) → c.msg = .unstake l := by
    rintro ⟨e, m, dl⟩ u t h
    cases m with
    | receiveNft t' hk => cases hk <;> cases h
    | unstake l => cases h; rfl
    | _ => cases h
  cases x with
  | stake u t =>
    cases y with
    | unstake v m => exact fun ht => h c hc d hd hne t (hst hx) ⟨m, hun hy, ht⟩
    | _ => trivial
  | unstake u m =>
    cases y with
    | stake v t => exact fun ht => h d hd c hc hne.symm t (hst hy) ⟨m, hun hx, ht⟩
    | _ => trivial
  | _ => trivial

theorem swap_step {s : State} (hi : Inv s) {a : Addr} (hn : s.nft = .cw721 a) {c d : Call} {l : List Call}
    (hb : c.env.env.block = d.env.env.block) (hc : concerns c ≠ none) (hd : concerns d ≠ none)
    (hne : concerns c ≠ concerns d) (hap : Apart (c :: d :: l)) (hr : Room s (c :: d :: l)) (h1 : accepted s c)
    (h2 : accepted (step s c).1 d) :
    accepted s d ∧ accepted (step s d).1 c ∧ abs (step (step s c).1 d).1 = abs (step (step s d).1 c).1 ∧
      (step (step s c).1 d).2.Perm (step s d).2 ∧ (step (step s d).1 c).2.Perm (step s c).2 := by
  obtain ⟨x, hx, hux⟩ := actOf_some hc
  obtain ⟨y, hy, huy⟩ := actOf_some hd
  obtain ⟨a1, a2, a3, a4⟩ := accepted_act hi hn hx h1
  have hi1 := inv_step hi c
  have hn1 := nft_kept hi hn hc h1
  obtain ⟨b1, b2, b3, b4⟩ := accepted_act hi1 hn1 hy h2
  rw [a3] at b2 b3 b4
  rw [← hb] at b3 b4
  have huser : x.user ≠ y.user := by
    intro h
    rw [hux, huy, h] at hne
    exact hne rfl
  have hroom : (abs s).mem.total + 2 < M128 := by
    unfold Room at hr
    simp only [List.length_cons] at hr
    show s.mem.total + 2 < M128
    omega
  obtain ⟨e1, e2, e3, e4, e5⟩ := swap_abs (b := c.env.env.block) huser
    (apart_of hap (by simp) (by simp) hne hx hy) (weight_le_total hi) hroom a2 b2
  obtain ⟨f1, f2, f3⟩ := act_accepted hi hn h2.1 hy b1 e1
  rw [← hb] at f2 f3
  have hi2 := inv_step hi d
  have hn2 := nft_kept hi hn hd f1
  obtain ⟨g1, g2, g3⟩ := act_accepted hi2 hn2 h1.1 hx a1 (by rw [f2]; exact e2)
  rw [f2] at g2 g3
  refine ⟨f1, g1, ?_, ?_, ?_⟩
  · rw [b3, g2, e3]
  · exact Multiset.coe_eq_coe.1 (by rw [b4, f3, e4])
  · exact Multiset.coe_eq_coe.1 (by rw [g3, a4, e5])

theorem Apart.mono {l l' : List Call} (h : Apart l) (hs : ∀ c ∈ l', c ∈ l) : Apart l' :=
  fun c hc d hd => h c (hs c hc) d (hs d hd)

/-- The first message can be sent after messages of other users. -/
theorem move_back {b : Block} {a : Addr} {c : Call} {q : List Call} : ∀ (p : List Call) {s : State}, Inv s →
    s.nft = .cw721 a → (∀ d ∈ c :: (p ++ q), d.env.env.block = b ∧ concerns d ≠ none) →
    (∀ d ∈ p, concerns d ≠ concerns c) → Apart (c :: (p ++ q)) →
    Room s (c :: (p ++ q)) → allAccepted s (c :: (p ++ q)) →
    allAccepted s (p ++ c :: q) ∧ abs (run s (c :: (p ++ q))) = abs (run s (p ++ c :: q)) ∧
      (sent s (c :: (p ++ q))).Perm (sent s (p ++ c :: q))
  | [], s, _, _, _, _, _, _, ha => ⟨ha, rfl, .refl _⟩
  | d :: p, s, hi, hn, hall, hne, hap, hr, ha => by
    simp only [List.cons_append] at hall hap hr ha ⊢
    have hc := hall c (by simp)
    have hd := hall d (by simp)
    obtain ⟨h1, h2, h3, h4, h5⟩ := swap_step hi hn (hc.1.trans hd.1.symm) hc.2 hd.2 (fun h => hne d (by simp) h.symm) hap hr
      ha.1 ha.2.1
    obtain ⟨h6, h7, h8⟩ := bisim_run (p ++ q) (inv_step (inv_step hi c) d) (inv_step (inv_step hi d) c)
      (nft_kept (inv_step hi c) (nft_kept hi hn hc.2 ha.1) hd.2 ha.2.1) h3
      (fun e he => (hall e (by simp only [List.mem_append] at he; simp; tauto)).2) ha.2.2
    have hr' : Room s (d :: c :: (p ++ q)) := hr
    have hap' : Apart (c :: (p ++ q)) :=
      hap.mono (fun e he => by simp only [List.mem_cons, List.mem_append] at he; simp; tauto)
    obtain ⟨h9, h10, h11⟩ := move_back p (inv_step hi d) (nft_kept hi hn hd.2 h1)
      (fun e he => hall e (by simp only [List.mem_cons, List.mem_append] at he; simp; tauto))
      (fun e he => hne e (by simp [he])) hap' (hr'.step hi hn hd.2 h1) ⟨h2, h6⟩
    refine ⟨⟨h1, h9⟩, ?_, ?_⟩
    · show abs (run (step (step s c).1 d).1 (p ++ q)) = abs (run (step s d).1 (p ++ c :: q))
      rw [← h10, h7]
      rfl
    · show ((step s c).2 ++ ((step (step s c).1 d).2 ++ sent (step (step s c).1 d).1 (p ++ q))).Perm
        ((step s d).2 ++ sent (step s d).1 (p ++ c :: q))
      refine List.Perm.trans ?_ (List.Perm.append_left _ h11)
      show _root_.List.Perm _ ((step s d).2 ++ ((step (step s d).1 c).2 ++ sent (step (step s d).1 c).1 (p ++ q)))
      rw [← List.append_assoc, ← List.append_assoc]
      refine List.Perm.append ?_ h8
      exact List.perm_append_comm.trans (h4.append h5.symm)

theorem order_abs {b : Block} {a : Addr} : ∀ (l l' : List Call) {s : State}, Inv s → s.nft = .cw721 a →
    (∀ c ∈ l, c.env.env.block = b ∧ concerns c ≠ none) → (∀ c ∈ l', concerns c ≠ none) → Interleaved l l' → Apart l →
    Room s l → allAccepted s l →
    l.Perm l' ∧ allAccepted s l' ∧ abs (run s l) = abs (run s l') ∧ (sent s l).Perm (sent s l')
  | [], l', s, _, _, _, hl', hil, _, _, _ => by
    have : l' = [] := by
      cases l' with
      | nil => rfl
      | cons d t =>
        obtain ⟨u, hu⟩ := Option.ne_none_iff_exists'.1 (hl' d (by simp))
        have := hil u
        simp [hu] at this
    subst this
    exact ⟨.refl _, trivial, rfl, .refl _⟩
  | c :: t, l', s, hi, hn, hl, hl', hil, hap, hr, ha => by
    obtain ⟨u, hu⟩ := Option.ne_none_iff_exists'.1 (hl c (by simp)).2
    have hf := hil u
    rw [List.filter_cons_of_pos (by simpa using hu), eq_comm, List.filter_eq_cons_iff] at hf
    obtain ⟨p, q, rfl, hp, _, hq⟩ := hf
    have hp' : ∀ d ∈ p, concerns d ≠ some u := by
      intro d hd
      have := hp d hd
      simpa using this
    have hil' : Interleaved t (p ++ q) := by
      intro v
      by_cases hv : v = u
      · subst hv
        have hp0 : p.filter (fun c => decide (concerns c = some v)) = [] :=
          List.filter_eq_nil_iff.2 (fun d hd => by simpa using hp' d hd)
        rw [List.filter_append, hp0, hq]
        rfl
      · have := hil v
        rw [List.filter_cons_of_neg (by rw [hu]; simpa using fun h : u = v => hv h.symm), List.filter_append,
          List.filter_cons_of_neg (by rw [hu]; simpa using fun h : u = v => hv h.symm), ← List.filter_append] at this
        exact this
    obtain ⟨h0, h1, h2, h3⟩ := order_abs t (p ++ q) (inv_step hi c) (nft_kept hi hn (hl c (by simp)).2 ha.1)
      (fun d hd => hl d (by simp [hd]))
      (fun d hd => hl' d (by simp only [List.mem_append] at hd; simp; tauto)) hil'
      (hap.mono (fun e he => by simp [he])) (hr.step hi hn (hl c (by simp)).2 ha.1) ha.2
    have hsub : ∀ d ∈ c :: (p ++ q), d ∈ c :: t := by
      intro d hd
      rcases List.mem_cons.1 hd with rfl | hd
      · simp
      · exact List.mem_cons_of_mem _ (h0.mem_iff.2 hd)
    have hr' : Room s (c :: (p ++ q)) := by
      unfold Room at hr ⊢
      simp only [List.length_cons] at hr ⊢
      rw [← h0.length_eq]
      exact hr
    obtain ⟨h4, h5, h6⟩ := move_back p hi hn (fun d hd => hl d (hsub d hd)) (fun d hd h => hp' d hd (h.trans hu))
      (hap.mono hsub) hr' ⟨ha.1, h1⟩
    refine ⟨(h0.cons c).trans List.perm_middle.symm, h4, ?_, ?_⟩
    · rw [← h5]
      exact h2
    · exact (List.Perm.append_left _ h3).trans h6

/-! ## Honest collections -/

/-- The token is in a claim that was made in block `b` or could have been. -/
def gone (b : Block) (s : State) (t : Nat) : Prop :=
  ∃ i c, s.claims.get i = some c ∧ t ∈ c.nfts ∧ c.release = releaseAt s.unlocking b

theorem not_due {d : Duration} {b : Block} (hf : Staking.Fits d b) (he : ¬ Staking.Elapsed d b b) {u : Addr} {c : Claim}
    (hc : c.release = releaseAt d b) : takes u b c = false := by
  refine decide_eq_false (fun hd => he ?_)
  unfold Due at hd
  rw [hc] at hd
  unfold Staking.Fits at hf
  unfold Staking.Elapsed
  cases d with
  | height n =>
    simp only at hf ⊢
    have : wadd64 b.height n = b.height + n := by unfold wadd64 M64; exact Nat.mod_eq_of_lt hf
    simp only [releaseAt, this] at hd
    obtain ⟨_, ⟨h, h1, h2⟩ | ⟨h, h1, h2⟩⟩ := hd
    · cases h1; exact h2
    · cases h1
  | time n =>
    simp only at hf ⊢
    have h5 : n * 10 ^ 9 % M64 = n * 10 ^ 9 := by unfold M64; apply Nat.mod_eq_of_lt; omega
    have : wadd64 b.time (n * 10 ^ 9) = b.time + n * 10 ^ 9 := by unfold wadd64 M64; exact Nat.mod_eq_of_lt hf
    simp only [releaseAt, h5, this] at hd
    obtain ⟨_, ⟨h, h1, h2⟩ | ⟨h, h1, h2⟩⟩ := hd
    · cases h1
    · cases h1; exact h2

/-- What an accepted message of the block does to the staked tokens; claims made in the block stay. -/
theorem block_effect {s : State} (hi : Inv s) {c : Call} (hc : concerns c ≠ none) (ha : accepted s c) {b : Block}
    (hb : c.env.env.block = b) (hf : Staking.Fits s.unlocking b) (he : ¬ Staking.Elapsed s.unlocking b b) :
    (step s c).1.unlocking = s.unlocking ∧ (∀ t, gone b s t → gone b (step s c).1 t) ∧
    ((∃ u t, c.msg = .receiveNft t (.stake u) ∧ s.stakes.get t = none ∧ (step s c).1.stakes = s.stakes.set t u) ∨
     (∃ l, c.msg = .unstake l ∧ (∀ t ∈ l, s.stakes.get t = concerns c ∧ gone b (step s c).1 t) ∧
       (step s c).1.stakes = l.foldl (fun m t => m.remove t) s.stakes) ∨
     ((∀ t, ¬ stakesToken t c ∧ ¬ unstakesToken t c) ∧ (step s c).1.stakes = s.stakes)) := by
  have keep : ∀ {s' : State} {x : Claim}, s'.unlocking = s.unlocking → s'.claims = s.claims.set s.nextClaim x →
      ∀ t, gone b s t → gone b s' t := by
    rintro s' x h1 h2 t ⟨i, d, h3, h4, h5⟩
    refine ⟨i, d, ?_, h4, by rw [h1]; exact h5⟩
    have := (hi.ids _ _ h3).2
    rw [h2, Map.get_set_ne _ _ (by omega)]
    exact h3
  obtain ⟨hd, r, hr⟩ := ha
  rw [step_of_ok hd hr]
  obtain ⟨e, m, dl⟩ := c
  simp only at hb hr
  cases m with
  | receiveNft t hk =>
    simp only [exec] at hr
    obtain ⟨_, ⟨u, rfl, h1⟩ | ⟨u, d, rfl, h1⟩⟩ := receiveNft_ok_iff.1 hr
    · obtain ⟨_, h2, _, _, rfl⟩ := stakeNft_ok_iff.1 h1
      exact ⟨rfl, fun _ h => h, .inl ⟨u, t, rfl, has_eq_false.1 h2, rfl⟩⟩
    · obtain ⟨_, rfl⟩ := addNftClaim_ok_iff.1 h1
      refine ⟨rfl, keep rfl rfl, .inr (.inr ⟨fun t' => ⟨?_, ?_⟩, rfl⟩)⟩
      · rintro ⟨v, h⟩; cases h
      · rintro ⟨v, h, _⟩; cases h
  | unstake l =>
    simp only [exec] at hr
    obtain ⟨_, h2, _, _, _, rfl⟩ := unstake_ok_iff.1 hr
    refine ⟨rfl, keep rfl rfl, .inr (.inl ⟨l, rfl, fun t ht => ⟨h2 t ht, ?_⟩, rfl⟩)⟩
    exact ⟨s.nextClaim, _, Map.get_set_self _ _ _, ht, by rw [hb]⟩
  | claim o =>
    simp only [exec] at hr
    obtain ⟨_, _, rfl⟩ := (claim_ok_iff hi).1 hr
    refine ⟨rfl, ?_, .inr (.inr ⟨fun t' => ⟨?_, ?_⟩, rfl⟩)⟩
    · rintro t ⟨i, d, h3, h4, h5⟩
      refine ⟨i, d, ?_, h4, h5⟩
      rw [Map.get_filter, h3]
      simp [Option.filter, hb, not_due hf he h5]
    · rintro ⟨v, h⟩; cases h
    · rintro ⟨v, h, _⟩; cases h
  | updateUnlocking p => exact absurd rfl hc
  | addHook h => exact absurd rfl hc
  | removeHook h => exact absurd rfl hc

theorem owed_step {s : State} (hi : Inv s) {held : Nat → Bool} (h0 : ∀ t, owed s t = if held t then 1 else 0) {c : Call}
    {l : List Call} (hh : Honest s held (c :: l)) : ∀ t, owed (step s c).1 t = if heldAfter s held c t then 1 else 0 :=
  fun t => custody_run hi held [c] h0 ⟨hh.1, trivial⟩ t

theorem held_of_gone {b : Block} {s : State} {held : Nat → Bool} (h0 : ∀ t, owed s t = if held t then 1 else 0) {t : Nat}
    (hg : gone b s t) : held t = true := by
  obtain ⟨i, c, h1, h2, _⟩ := hg
  have h3 := count_le_sum h1 t
  have h4 := List.count_pos_iff.2 h2
  have h5 := h0 t
  unfold owed at h5
  cases hb : held t with
  | true => rfl
  | false => rw [hb] at h5; simp at h5; omega

/-- A token that was unstaked in the block is not staked again in the block. -/
theorem no_stake {b : Block} {t : Nat} : ∀ (l : List Call) {s : State} {held : Nat → Bool}, Inv s →
    (∀ t, owed s t = if held t then 1 else 0) → Honest s held l → Staking.Fits s.unlocking b →
    ¬ Staking.Elapsed s.unlocking b b → (∀ c ∈ l, c.env.env.block = b ∧ concerns c ≠ none) → allAccepted s l →
    gone b s t → ∀ c ∈ l, ¬ stakesToken t c
  | [], _, _, _, _, _, _, _, _, _, _, c, hc => absurd hc (List.not_mem_nil)
  | d :: l, s, held, hi, h0, hh, hf, he, hl, ha, hg, c, hc => by
    obtain ⟨h1, h2, _⟩ := block_effect hi (hl d (by simp)).2 ha.1 (hl d (by simp)).1 hf he
    rcases List.mem_cons.1 hc with rfl | hc
    · rintro ⟨u, hu⟩
      have := hh.1 t _ hu ha.1
      rw [held_of_gone h0 hg] at this
      cases this
    · exact no_stake l (inv_step hi d) (owed_step hi h0 hh) hh.2 (by rw [h1]; exact hf) (by rw [h1]; exact he)
        (fun e h => hl e (by simp [h])) ha.2 (h2 t hg) c hc

/-- A token that `u` has staked, or that was unstaked in the block, is not unstaked by others in the block. -/
theorem no_unstake {b : Block} {t : Nat} {u : Addr} : ∀ (l : List Call) {s : State} {held : Nat → Bool}, Inv s →
    (∀ t, owed s t = if held t then 1 else 0) → Honest s held l → Staking.Fits s.unlocking b →
    ¬ Staking.Elapsed s.unlocking b b → (∀ c ∈ l, c.env.env.block = b ∧ concerns c ≠ none) → allAccepted s l →
    (s.stakes.get t = some u ∨ s.stakes.get t = none ∧ gone b s t) → ∀ c ∈ l, unstakesToken t c → concerns c = some u
  | [], _, _, _, _, _, _, _, _, _, _, c, hc => absurd hc (List.not_mem_nil)
  | d :: l, s, held, hi, h0, hh, hf, he, hl, ha, hg, c, hc => by
    obtain ⟨h1, h2, h3⟩ := block_effect hi (hl d (by simp)).2 ha.1 (hl d (by simp)).1 hf he
    rcases List.mem_cons.1 hc with rfl | hc
    · rintro ⟨m, hm, htm⟩
      obtain ⟨v, t', h4, _⟩ | ⟨m', h4, h5, _⟩ | ⟨h4, _⟩ := h3
      · rw [hm] at h4; cases h4
      · rw [hm] at h4
        cases h4
        have h6 := (h5 t htm).1
        rcases hg with hg | hg
        · rw [← h6, hg]
        · rw [hg.1] at h6
          exact absurd h6.symm (hl c (by simp)).2
      · exact absurd ⟨m, hm, htm⟩ (h4 t).2
    · have hstake := no_stake (t := t) (d :: l) hi h0 hh hf he hl ha
      refine no_unstake l (inv_step hi d) (owed_step hi h0 hh) hh.2 (by rw [h1]; exact hf) (by rw [h1]; exact he)
        (fun e h => hl e (by simp [h])) ha.2 ?_ c hc
      obtain ⟨v, t', h4, h5, h6⟩ | ⟨m', h4, h5, h6⟩ | ⟨h4, h6⟩ := h3
      · rw [h6]
        have htt : t' ≠ t := by
          rintro rfl
          rcases hg with hg | hg
          · rw [hg] at h5; cases h5
          · exact hstake hg.2 d (by simp) ⟨v, h4⟩
        rw [Map.get_set_ne _ _ htt]
        exact hg.imp id (fun h => ⟨h.1, h2 t h.2⟩)
      · rw [h6, get_removes]
        by_cases htm : t ∈ m'
        · rw [if_pos htm]
          exact .inr ⟨rfl, (h5 t htm).2⟩
        · rw [if_neg htm]
          exact hg.imp id (fun h => ⟨h.1, h2 t h.2⟩)
      · rw [h6]
        exact hg.imp id (fun h => ⟨h.1, h2 t h.2⟩)

theorem apart_honest {b : Block} : ∀ (l : List Call) {s : State} {held : Nat → Bool}, Inv s →
    (∀ t, owed s t = if held t then 1 else 0) → Honest s held l → Staking.Fits s.unlocking b →
    ¬ Staking.Elapsed s.unlocking b b → (∀ c ∈ l, c.env.env.block = b ∧ concerns c ≠ none) → allAccepted s l → Apart l
  | [], _, _, _, _, _, _, _, _, _ => fun c hc => absurd hc (List.not_mem_nil)
  | e :: l, s, held, hi, h0, hh, hf, he, hl, ha => by
    obtain ⟨h1, h2, h3⟩ := block_effect hi (hl e (by simp)).2 ha.1 (hl e (by simp)).1 hf he
    have hf' : Staking.Fits (step s e).1.unlocking b := by rw [h1]; exact hf
    have he' : ¬ Staking.Elapsed (step s e).1.unlocking b b := by rw [h1]; exact he
    have hl' : ∀ c ∈ l, c.env.env.block = b ∧ concerns c ≠ none := fun c hc => hl c (by simp [hc])
    have h0' := owed_step hi h0 hh
    have ih := apart_honest l (inv_step hi e) h0' hh.2 hf' he' hl' ha.2
    intro c hc d hd hne t hs hu
    rcases List.mem_cons.1 hc with rfl | hc'
    · rcases List.mem_cons.1 hd with rfl | hd'
      · exact hne rfl
      · obtain ⟨u, hs⟩ := hs
        obtain ⟨v, t', h4, h5, h6⟩ | ⟨m', h4, h5, h6⟩ | ⟨h4, h6⟩ := h3
        · rw [hs] at h4
          cases h4
          have := no_unstake l (inv_step hi c) h0' hh.2 hf' he' hl' ha.2 (u := u) (.inl (by rw [h6]; exact Map.get_set_self _ _ _))
            d hd' hu
          refine hne ?_
          rw [this]
          unfold concerns
          rw [hs]
        · rw [hs] at h4; cases h4
        · exact (h4 t).1 ⟨u, hs⟩
    · rcases List.mem_cons.1 hd with rfl | hd'
      · obtain ⟨m, hm, htm⟩ := hu
        obtain ⟨v, t', h4, h5, h6⟩ | ⟨m', h4, h5, h6⟩ | ⟨h4, h6⟩ := h3
        · rw [hm] at h4; cases h4
        · rw [hm] at h4
          cases h4
          exact no_stake l (inv_step hi d) h0' hh.2 hf' he' hl' ha.2 (h5 t htm).2 c hc' hs
        · exact (h4 t).2 ⟨m, hm, htm⟩
      · exact ih c hc' d hd' hne t hs hu

theorem honest_append : ∀ (h l : List Call) {s : State} {held : Nat → Bool}, Honest s held (h ++ l) →
    Honest s held h ∧ Honest (run s h) (custody s held h) l
  | [], _, _, _, hh => ⟨trivial, hh⟩
  | _ :: h, l, _, _, hh => by
    obtain ⟨h1, h2⟩ := honest_append h l hh.2
    exact ⟨⟨hh.1, h1⟩, h2⟩

/-! ## C165 -/

/-- Messages of one block, each about one user, sent in another order that keeps the order of the messages of each user,
with no token that is unstaked by one user and staked for another: if they are accepted in one order they are accepted in
the other, they send the same notifications and tokens, and the state is the same but for the ids of the claims. The
collection must be known, as it is from the first token received on. -/
theorem C165_order {s : State} (h : Reachable s) {a : Addr} (hn : s.nft = .cw721 a) {b : Block} {l l' : List Call}
    (hl : ∀ c ∈ l, c.env.env.block = b ∧ concerns c ≠ none) (hl' : ∀ c ∈ l', concerns c ≠ none) (hil : Interleaved l l')
    (hap : Apart l) (hroom : stakedCount s + l.length < 2 ^ 128) (ha : allAccepted s l) :
    allAccepted s l' ∧ SameButIds (run s l) (run s l') ∧ (sent s l).Perm (sent s l') := by
  have hr : Room s l := by
    unfold Room
    rw [h.inv.total]
    exact hroom
  obtain ⟨_, h1, h2, h3⟩ := order_abs l l' h.inv hn hl hl' hil hap hr ha
  exact ⟨h1, sameButIds_iff.2 h2, h3⟩

/-- The sample block: user 1, who has staked 101 and 102, unstakes both, a token is staked for user 2, another one comes
with a claim for user 3, who then claims, and user 2 unstakes 103. -/
def smpBlock : List Call :=
  [⟨smpEnv 20 1, .unstake [102], true⟩, ⟨smpEnv 20 5, .receiveNft 110 (.stake 2), true⟩,
   ⟨smpEnv 20 5, .receiveNft 111 (.addClaim 3 (.height 20)), true⟩, ⟨smpEnv 20 2, .unstake [103, 110], true⟩,
   ⟨smpEnv 20 1, .unstake [101], true⟩, ⟨smpEnv 20 3, .claim none, true⟩]

/-- The same messages in another order. -/
def smpBlock' : List Call :=
  [⟨smpEnv 20 5, .receiveNft 110 (.stake 2), true⟩, ⟨smpEnv 20 2, .unstake [103, 110], true⟩,
   ⟨smpEnv 20 5, .receiveNft 111 (.addClaim 3 (.height 20)), true⟩, ⟨smpEnv 20 3, .claim none, true⟩,
   ⟨smpEnv 20 1, .unstake [102], true⟩, ⟨smpEnv 20 1, .unstake [101], true⟩]

example : (run smpInit (smp.take 5)).nft = .cw721 5 ∧
    (∀ c ∈ smpBlock, c.env.env.block = ⟨20, 20 * 10 ^ 9⟩ ∧ concerns c ≠ none) ∧ (∀ c ∈ smpBlock', concerns c ≠ none) ∧
    Apart smpBlock ∧ allAccepted (run smpInit (smp.take 5)) smpBlock ∧ Interleaved smpBlock smpBlock' ∧
    (run (run smpInit (smp.take 5)) smpBlock).claims ≠ (run (run smpInit (smp.take 5)) smpBlock').claims := by
  refine ⟨by decide +kernel, by decide +kernel, by decide +kernel, ?_, by decide +kernel, ?_, by decide +kernel⟩
  · intro c hc d hd hne t hs hu
    obtain ⟨u, hs⟩ := hs
    obtain ⟨m, hu, hm⟩ := hu
    simp only [smpBlock, List.mem_cons, List.not_mem_nil, or_false] at hc hd
    rcases hc with rfl | rfl | rfl | rfl | rfl | rfl <;> cases hs
    rcases hd with rfl | rfl | rfl | rfl | rfl | rfl <;> cases hu
    · exact absurd hm (by decide)
    · exact hne rfl
    · exact absurd hm (by decide)
  · intro u
    by_cases h1 : u = 1
    · subst h1; rfl
    by_cases h2 : u = 2
    · subst h2; rfl
    by_cases h3 : u = 3
    · subst h3; rfl
    have e1 : ¬ 1 = u := fun h => h1 h.symm
    have e2 : ¬ 2 = u := fun h => h2 h.symm
    have e3 : ¬ 3 = u := fun h => h3 h.symm
    simp [smpBlock, smpBlock', concerns, smpEnv, e1, e2, e3]

/-- With a collection that announces only tokens that the contract does not hold, and an unlocking period that does not
end in the block in which it starts, no token passes from one user to another within a block: then the order of different
users' messages never matters. -/
theorem C165_honest (b0 : Block) (nft : NftAddr) (u : Duration) (hooks : List Addr) (x y : List (Nat × Nat)) (h : List Call)
    {s : State} (hs : s = run (init b0 nft u hooks x y) h) {a : Addr} (hn : s.nft = .cw721 a) {b : Block} {l l' : List Call}
    (hh : Honest (init b0 nft u hooks x y) (fun _ => false) (h ++ l))
    (hf : Staking.Fits s.unlocking b) (he : ¬ Staking.Elapsed s.unlocking b b)
    (hl : ∀ c ∈ l, c.env.env.block = b ∧ concerns c ≠ none) (hl' : ∀ c ∈ l', concerns c ≠ none) (hil : Interleaved l l')
    (hroom : stakedCount s + l.length < 2 ^ 128) (ha : allAccepted s l) :
    allAccepted s l' ∧ SameButIds (run s l) (run s l') ∧ (sent s l).Perm (sent s l') := by
  obtain ⟨h1, h2⟩ := honest_append h l hh
  subst hs
  have hr : Reachable (run (init b0 nft u hooks x y) h) := ⟨_, _, _, _, _, _, _, rfl⟩
  exact C165_order hr hn hl hl' hil (apart_honest l hr.inv (C29_custody b0 nft u hooks x y h h1) h2 hf he hl ha) hroom ha

example : Honest smpInit (fun _ => false) (smp.take 5 ++ smpBlock) ∧
    Staking.Fits (run smpInit (smp.take 5)).unlocking ⟨20, 20 * 10 ^ 9⟩ ∧
    ¬ Staking.Elapsed (run smpInit (smp.take 5)).unlocking ⟨20, 20 * 10 ^ 9⟩ ⟨20, 20 * 10 ^ 9⟩ := by
  refine ⟨?_, by decide +kernel⟩
  refine ⟨?_, ?_, ?_, ?_, ?_, ?_, ?_, ?_, ?_, ?_, ?_, trivial⟩ <;> intro tok h hm <;> cases hm <;> decide +kernel

/-- With a token that passes from one user to another within the block, which needs an unlocking period of zero, the order
matters: user 1 unstakes token 101 and gets it back, then it is staked for user 2. The stake is refused if it comes
first. -/
theorem C165_passed_on_witness : ∃ s c d e, Reachable s ∧ s.nft = .cw721 5 ∧ concerns c = some 1 ∧ concerns d = some 1 ∧
    concerns e = some 2 ∧ c.env.env.block = e.env.env.block ∧ d.env.env.block = e.env.env.block ∧
    allAccepted s [c, d, e] ∧ ¬ allAccepted s [e, c, d] :=
  ⟨run (init ⟨10, 10 * 10 ^ 9⟩ (.cw721 5) (.time 0) [7, 8] [] []) [⟨smpEnv 11 5, .receiveNft 101 (.stake 1), true⟩],
    ⟨smpEnv 20 1, .unstake [101], true⟩, ⟨smpEnv 20 1, .claim none, true⟩, ⟨smpEnv 20 5, .receiveNft 101 (.stake 2), true⟩,
    ⟨_, _, _, _, _, _, _, rfl⟩, rfl, rfl, rfl, rfl, rfl, rfl, by decide +kernel, by decide +kernel⟩

/-- Before the collection is known the order matters too: with an ICS721 proxy configured, a claim is refused until the
first token has been received. -/
theorem C165_unknown_collection_witness : ∃ s c d, Reachable s ∧ concerns c = some 1 ∧ concerns d = some 2 ∧
    c.env.env.block = d.env.env.block ∧ allAccepted s [c, d] ∧ ¬ allAccepted s [d, c] :=
  ⟨smpInit, ⟨smpEnv 20 5, .receiveNft 101 (.stake 1), true⟩, ⟨smpEnv 20 2, .claim none, true⟩,
    ⟨_, _, _, _, _, _, [], rfl⟩, rfl, rfl, rfl, by decide +kernel, by decide +kernel⟩

/-- States that differ only in the ids of claims cannot be told apart by later messages of users. -/
theorem C165_ids {s t : State} (hs : Reachable s) (ht : Reachable t) {a : Addr} (hn : s.nft = .cw721 a)
    (h : SameButIds s t) {l : List Call} (hl : ∀ c ∈ l, concerns c ≠ none) :
    (allAccepted s l ↔ allAccepted t l) ∧
    (allAccepted s l → SameButIds (run s l) (run t l) ∧ (sent s l).Perm (sent t l)) := by
  have h' := sameButIds_iff.1 h
  have hn' : t.nft = .cw721 a := (abs_nft h').symm.trans hn
  refine ⟨⟨fun ha => (bisim_run l hs.inv ht.inv hn h' hl ha).1, fun ha => (bisim_run l ht.inv hs.inv hn' h'.symm hl ha).1⟩, ?_⟩
  intro ha
  obtain ⟨_, h1, h2⟩ := bisim_run l hs.inv ht.inv hn h' hl ha
  exact ⟨sameButIds_iff.2 h1, h2⟩

example : allAccepted (run (run smpInit (smp.take 5)) smpBlock) [⟨smpEnv 200 2, .claim none, true⟩] ∧
    sent (run (run smpInit (smp.take 5)) smpBlock) [⟨smpEnv 200 2, .claim none, true⟩] =
      [.sendNft 2 103, .sendNft 2 110] := by decide +kernel

end Verif.Nft
