import Verif.Staking.Props6

/-!
# Token and denom staking: unstaking in parts (C187)
-/

set_option linter.unusedSimpArgs false

namespace Verif.Staking
open Verif

/-! ## Specification -/

/-- How many claims a message makes if it is accepted. -/
def Msg.newClaims : Msg → Nat
  | .unstake _ => 1
  | .receive _ (.addClaims l) => l.length
  | _ => 0

/-- How many claims a history makes if all of it is accepted. -/
def newClaims (h : List Call) : Nat := (h.map (fun c => c.msg.newClaims)).sum

/-- Unstaking these amounts one after the other in the same block. -/
def inParts (e : Env) (ns : List Nat) : List Call := ns.map (fun n => ⟨e, .unstake n, true⟩)

/-! ## States that differ only in how claims are split -/

/-- What the claims with certain owners and release dates are worth. -/
def worth (s : State) (p : Addr → ReleaseAt → Bool) : Nat :=
  s.claims.sum (fun _ c => if p c.user c.release then c.amount else 0)

/-- `t` is `s` with fewer claims for the same amounts. -/
structure Alike (s t : State) : Prop where
  mem : t.mem = s.mem
  asset : t.asset = s.asset
  unlocking : t.unlocking = s.unlocking
  next : t.nextClaim ≤ s.nextClaim
  worth : ∀ p, worth s p = worth t p

theorem Alike.refl (s : State) : Alike s s := ⟨rfl, rfl, rfl, Nat.le_refl _, fun _ => rfl⟩

theorem Alike.trans {a b c : State} (h : Alike a b) (g : Alike b c) : Alike a c :=
  ⟨g.mem.trans h.mem, g.asset.trans h.asset, g.unlocking.trans h.unlocking, Nat.le_trans g.next h.next,
    fun p => (h.worth p).trans (g.worth p)⟩

theorem worth_push {s : State} (hf : s.claims.get s.nextClaim = none) (p : Addr → ReleaseAt → Bool) (u : Addr) (a : Nat)
    (r : ReleaseAt) (m : Members) (n : Nat) (x : Addr) (d : Duration) :
    worth ⟨m, s.claims.set s.nextClaim ⟨s.nextClaim, u, a, r⟩, n, x, d⟩ p = worth s p + if p u r then a else 0 := by
  have := s.claims.sum_set (fun _ c => if p c.user c.release then c.amount else 0) s.nextClaim ⟨s.nextClaim, u, a, r⟩
  rw [hf] at this
  simpa [worth, Map.contrib] using this

theorem Inv.free {s : State} (h : Inv s) : s.claims.get s.nextClaim = none := by
  cases hg : s.claims.get s.nextClaim with
  | none => rfl
  | some c => exact absurd (h.ids _ _ hg).2 (Nat.lt_irrefl _)

/-- Two outcomes: both refused, or both accepted with the same messages sent. -/
def Same (n : Nat) (x y : Except Err (State × List Out)) : Prop :=
  (∃ a b o, x = .ok (a, o) ∧ y = .ok (b, o) ∧ Alike a b ∧ a.nextClaim ≤ n) ∨
    ((∀ r, x ≠ .ok r) ∧ ∀ r, y ≠ .ok r)

theorem same_mem {s t : State} (h : Alike s t) (m : Members) (o : List Out) :
    Same s.nextClaim (.ok ({ s with mem := m }, o)) (.ok ({ t with mem := m }, o)) :=
  Or.inl ⟨_, _, _, rfl, rfl, ⟨rfl, h.asset, h.unlocking, h.next, h.worth⟩, Nat.le_refl _⟩

theorem same_error (n : Nat) (x y : Err) : Same n (.error x) (.error y) :=
  Or.inr ⟨fun _ hh => by (cases hh), fun _ hh => by (cases hh)⟩

theorem same_stakeFor {s t : State} (h : Alike s t) (e : Env) (u : Addr) (a : Nat) :
    Same s.nextClaim (stakeFor s e u a) (stakeFor t e u a) := by
  by_cases hc : e.restricted u = false ∧ s.mem.weight u + a < M128 ∧ s.mem.total + a < M128
  · have h1 := stakeFor_ok_iff.2 ⟨hc.1, hc.2.1, hc.2.2, rfl⟩
    have h2 := (stakeFor_ok_iff (s := t)).2 ⟨hc.1, by rw [h.mem]; exact hc.2.1, by rw [h.mem]; exact hc.2.2, rfl⟩
    rw [h1, h2, h.mem]
    exact same_mem h _ _
  · refine Or.inr ⟨fun r hr => hc ?_, fun r hr => hc ?_⟩
    · obtain ⟨h1, h2, h3, _⟩ := stakeFor_ok_iff.1 hr
      exact ⟨h1, h2, h3⟩
    · obtain ⟨h1, h2, h3, _⟩ := stakeFor_ok_iff.1 hr
      rw [h.mem] at h2 h3
      exact ⟨h1, h2, h3⟩

theorem same_addStakes {s t : State} (h : Alike s t) (e : Env) (a : Nat) (l : List (Addr × Nat)) :
    Same s.nextClaim (addStakes s e a l) (addStakes t e a l) := by
  unfold addStakes
  rw [h.mem]
  cases h1 : l.foldlM (addStake e) (s.mem, 0, []) with
  | error x => exact same_error _ _ _
  | ok y =>
    obtain ⟨m1, sum, ch⟩ := y
    by_cases h2 : sum ≠ a
    · simp only [bind, Except.bind, if_pos h2]
      exact same_error _ _ _
    · simp only [bind, Except.bind, if_neg h2]
      cases h3 : m1.incTotal sum e.block with
      | error x => exact same_error _ _ _
      | ok m2 => exact same_mem h m2 _

theorem inv_pushed {s : State} (h : Inv s) (c : UserClaim) : Inv (s.pushed c) := by
  refine ⟨h.height, h.seconds, fun i d hd => ?_⟩
  rw [pushed_claims, Map.get_set] at hd
  rw [pushed_next]
  split at hd
  · next he => cases hd; subst he; exact ⟨rfl, Nat.lt_succ_self _⟩
  · obtain ⟨h1, h2⟩ := h.ids i d hd
    exact ⟨h1, Nat.lt_succ_of_lt h2⟩

theorem alike_pushed {s t : State} (h : Alike s t) (hs : Inv s) (ht : Inv t) (c : UserClaim) :
    Alike (s.pushed c) (t.pushed c) := by
  refine ⟨h.mem, h.asset, h.unlocking, Nat.succ_le_succ h.next, fun p => ?_⟩
  have h1 := worth_push hs.free p c.user c.amount c.release s.mem (s.nextClaim + 1) s.asset s.unlocking
  have h2 := worth_push ht.free p c.user c.amount c.release t.mem (t.nextClaim + 1) t.asset t.unlocking
  have e := h.worth p
  exact h1.trans ((congrArg (· + _) e).trans h2.symm)

theorem same_loop : ∀ (l : List UserClaim) {s t : State} {n : Nat}, Alike s t → Inv s → Inv t →
    s.nextClaim + l.length < M64 →
    (∃ a b m, l.foldlM addTokenClaim (s, n) = .ok (a, m) ∧ l.foldlM addTokenClaim (t, n) = .ok (b, m) ∧ Alike a b ∧
      a.nextClaim ≤ s.nextClaim + l.length) ∨
    ((∀ r, l.foldlM addTokenClaim (s, n) ≠ .ok r) ∧ ∀ r, l.foldlM addTokenClaim (t, n) ≠ .ok r)
  | [], s, t, n, h, _, _, _ => Or.inl ⟨s, t, n, rfl, rfl, h, Nat.le_refl _⟩
  | c :: l, s, t, n, h, hs, ht, hr => by
    rw [List.length_cons] at hr ⊢
    have hn := h.next
    by_cases hc : n + c.amount < M128
    · have h1 := (addTokenClaim_ok_iff (x := (s, n)) (c := c)).2 ⟨by simp only; omega, hc, rfl⟩
      have h2 := (addTokenClaim_ok_iff (x := (t, n)) (c := c)).2 ⟨by simp only; omega, hc, rfl⟩
      rcases same_loop l (n := n + c.amount) (alike_pushed h hs ht c) (inv_pushed hs c) (inv_pushed ht c)
        (by rw [pushed_next]; omega) with ⟨a, b, m, g1, g2, g3, g4⟩ | ⟨g1, g2⟩
      · rw [pushed_next] at g4
        exact Or.inl ⟨a, b, m, foldlM_cons_ok_iff.2 ⟨_, h1, g1⟩, foldlM_cons_ok_iff.2 ⟨_, h2, g2⟩, g3, by omega⟩
      · refine Or.inr ⟨fun r hh => ?_, fun r hh => ?_⟩
        · obtain ⟨z, hz, hy⟩ := foldlM_cons_ok_iff.1 hh
          rw [h1] at hz; cases hz
          exact g1 _ hy
        · obtain ⟨z, hz, hy⟩ := foldlM_cons_ok_iff.1 hh
          rw [h2] at hz; cases hz
          exact g2 _ hy
    · refine Or.inr ⟨fun r hh => ?_, fun r hh => ?_⟩
      · obtain ⟨z, hz, _⟩ := foldlM_cons_ok_iff.1 hh
        exact hc (addTokenClaim_ok_iff.1 hz).2.1
      · obtain ⟨z, hz, _⟩ := foldlM_cons_ok_iff.1 hh
        exact hc (addTokenClaim_ok_iff.1 hz).2.1

theorem same_addTokenClaims {s t : State} (h : Alike s t) (hs : Inv s) (ht : Inv t) (a : Nat) (l : List UserClaim)
    (hr : s.nextClaim + l.length < M64) :
    Same (s.nextClaim + l.length) (addTokenClaims s a l) (addTokenClaims t a l) := by
  unfold addTokenClaims
  rcases same_loop l (n := 0) h hs ht hr with ⟨x, y, m, g1, g2, g3, g4⟩ | ⟨g1, g2⟩
  · rw [g1, g2]
    by_cases h2 : m ≠ a
    · simp only [bind, Except.bind, if_pos h2]
      exact same_error _ _ _
    · simp only [bind, Except.bind, if_neg h2]
      exact Or.inl ⟨x, y, [], rfl, rfl, g3, g4⟩
  · refine Or.inr ⟨fun r hh => ?_, fun r hh => ?_⟩
    · rw [bind_ok_iff] at hh
      obtain ⟨z, hz, _⟩ := hh
      exact g1 _ hz
    · rw [bind_ok_iff] at hh
      obtain ⟨z, hz, _⟩ := hh
      exact g2 _ hz

theorem same_unstake {s t : State} (h : Alike s t) (hs : Inv s) (ht : Inv t) (e : Env) (a : Nat)
    (hr : s.nextClaim + 1 < M64) : Same (s.nextClaim + 1) (unstake s e a) (unstake t e a) := by
  have hn := h.next
  by_cases hc : a ≤ s.mem.weight e.sender ∧ a ≤ s.mem.total
  · have h1 := unstake_ok_iff.2 ⟨hc.1, hc.2, hr, rfl⟩
    have h2 := (unstake_ok_iff (s := t) (e := e) (a := a)).2
      ⟨by rw [h.mem]; exact hc.1, by rw [h.mem]; exact hc.2, by omega, rfl⟩
    rw [h1, h2, h.mem]
    refine Or.inl ⟨_, _, _, rfl, rfl, ⟨rfl, h.asset, h.unlocking, Nat.succ_le_succ hn, fun p => ?_⟩, Nat.le_refl _⟩
    rw [worth_push hs.free, worth_push ht.free, h.unlocking, h.worth p]
  · refine Or.inr ⟨fun r hh => hc ?_, fun r hh => hc ?_⟩
    · obtain ⟨h1, h2, _⟩ := unstake_ok_iff.1 hh
      exact ⟨h1, h2⟩
    · obtain ⟨h1, h2, _⟩ := unstake_ok_iff.1 hh
      rw [h.mem] at h1 h2
      exact ⟨h1, h2⟩

/-- Whether an owner can take a claim with this release date. -/
def ripe (u : Addr) (b : Block) (v : Addr) (r : ReleaseAt) : Bool := takes u b ⟨0, v, 0, r⟩

theorem ripe_claim (u : Addr) (b : Block) (c : Claim) : ripe u b c.user c.release = takes u b c := rfl

theorem same_claim {s t : State} (h : Alike s t) (hs : Inv s) (ht : Inv t) (e : Env) (u : Option Addr) :
    Same s.nextClaim (claim s e u) (claim t e u) := by
  have hw : (s.claims.sum fun _ c => if takes e.sender e.block c then c.amount else 0) =
      t.claims.sum fun _ c => if takes e.sender e.block c then c.amount else 0 := h.worth (ripe e.sender e.block)
  by_cases hc : u.getD e.sender = e.sender ∧
      (s.claims.sum fun _ c => if takes e.sender e.block c then c.amount else 0) < M128
  · have h1 := (claim_ok_iff hs).2 ⟨hc.1, hc.2, rfl⟩
    have h2 := (claim_ok_iff ht).2 ⟨hc.1, by rw [← hw]; exact hc.2, rfl⟩
    rw [h1, h2, ← hw]
    refine Or.inl ⟨_, _, _, rfl, rfl, ⟨h.mem, h.asset, h.unlocking, h.next, fun p => ?_⟩, Nat.le_refl _⟩
    have key : ∀ x : State, worth { x with claims := x.claims.filter (fun _ c => !takes e.sender e.block c) } p =
        worth x (fun v r => !ripe e.sender e.block v r && p v r) := by
      intro x
      unfold worth Map.sum Map.filter
      simp only
      rw [sum_filter_ite]
      congr 1
      apply List.map_congr_left
      intro y _
      show (if (!takes e.sender e.block y.2) = true then if p y.2.user y.2.release = true then y.2.amount else 0 else 0) =
        if (!takes e.sender e.block y.2 && p y.2.user y.2.release) = true then y.2.amount else 0
      cases takes e.sender e.block y.2 <;> simp
    rw [key s, key t]
    exact h.worth _
  · refine Or.inr ⟨fun r hh => hc ?_, fun r hh => hc ?_⟩
    · obtain ⟨h1, h2, _⟩ := (claim_ok_iff hs).1 hh
      exact ⟨h1, h2⟩
    · obtain ⟨h1, h2, _⟩ := (claim_ok_iff ht).1 hh
      rw [← hw] at h2
      exact ⟨h1, h2⟩

theorem same_exec {k : Kind} {s t : State} (h : Alike s t) (hs : Inv s) (ht : Inv t) (e : Env) (m : Msg)
    (hr : s.nextClaim + m.newClaims < M64) : Same (s.nextClaim + m.newClaims) (exec k s e m) (exec k t e m) := by
  cases m with
  | receive a x =>
    unfold exec
    by_cases hk : k = .token
    · simp only [hk, if_true]
      unfold receive
      rw [h.asset]
      by_cases hc : e.sender ≠ s.asset
      · rw [if_pos hc, if_pos hc]; exact same_error _ _ _
      · rw [if_neg hc, if_neg hc]
        cases x with
        | stake u => exact same_stakeFor h e u a
        | addStakes l => exact same_addStakes h e a l
        | addClaims l => exact same_addTokenClaims h hs ht a l hr
        | unknown => exact same_error _ _ _
    · simp only [hk, if_false]; exact same_error _ _ _
  | stakeDenom f u =>
    unfold exec
    by_cases hk : k = .denom
    · simp only [hk, if_true]
      unfold stakeDenom
      rw [h.asset]
      split
      · split
        · exact same_error _ _ _
        · exact same_stakeFor h _ _ _
      · exact same_error _ _ _
    · simp only [hk, if_false]; exact same_error _ _ _
  | unstake a => exact same_unstake h hs ht e a hr
  | claim u => exact same_claim h hs ht e u
  | updateUnlocking p =>
    show Same _ (updateUnlocking s e p) (updateUnlocking t e p)
    unfold updateUnlocking
    split
    · exact same_error _ _ _
    · exact Or.inl ⟨_, _, _, rfl, rfl, ⟨h.mem, h.asset, by simp only; rw [h.unlocking], h.next, h.worth⟩, Nat.le_refl _⟩
  | addHook x =>
    simp only [exec]
    rw [h.mem]
    cases s.mem.addHook e x with
    | error y => exact same_error _ _ _
    | ok m => exact same_mem h m _
  | removeHook x =>
    simp only [exec]
    rw [h.mem]
    cases s.mem.removeHook e x with
    | error y => exact same_error _ _ _
    | ok m => exact same_mem h m _

theorem same_step {k : Kind} {s t : State} (h : Alike s t) (hs : Inv s) (ht : Inv t) (c : Call)
    (hr : s.nextClaim + c.msg.newClaims < M64) :
    (step k s c).2 = (step k t c).2 ∧ Alike (step k s c).1 (step k t c).1 ∧
      (step k s c).1.nextClaim ≤ s.nextClaim + c.msg.newClaims := by
  unfold step
  rcases same_exec (k := k) h hs ht c.env c.msg hr with ⟨a, b, o, g1, g2, g3, g4⟩ | ⟨g1, g2⟩
  · rw [g1, g2]
    cases c.delivered
    · exact ⟨rfl, h, Nat.le_add_right _ _⟩
    · exact ⟨rfl, g3, g4⟩
  · cases h1 : exec k s c.env c.msg with
    | ok r => exact absurd h1 (g1 r)
    | error x =>
      cases h2 : exec k t c.env c.msg with
      | ok r => exact absurd h2 (g2 r)
      | error y => exact ⟨rfl, h, Nat.le_add_right _ _⟩

theorem same_run {k : Kind} : ∀ (l : List Call) {s t : State}, Alike s t → Inv s → Inv t →
    s.nextClaim + newClaims l < M64 → sent k s l = sent k t l ∧ Alike (run k s l) (run k t l)
  | [], _, _, h, _, _, _ => ⟨rfl, h⟩
  | c :: l, s, t, h, hs, ht, hr => by
    have hn : newClaims (c :: l) = c.msg.newClaims + newClaims l := by simp [newClaims]
    rw [hn] at hr
    obtain ⟨g1, g2, g3⟩ := same_step (k := k) h hs ht c (by omega)
    obtain ⟨i1, i2⟩ := same_run (k := k) l g2 (inv_step hs c) (inv_step ht c) (by omega)
    exact ⟨by rw [sent, sent, g1, i1], i2⟩

theorem mem_twice (m : Members) (u : Addr) (w w' x x' : Nat) (b : Block) :
    (((m.setWeight u w).saveTotal x b).setWeight u w').saveTotal x' b = (m.setWeight u w').saveTotal x' b := by
  unfold Members.setWeight Members.saveTotal
  simp only [save_save, Map.set_set]

/-- Unstaking an amount, as a step. -/
theorem step_unstake (k : Kind) {s : State} {e : Env} {a : Nat} (h1 : a ≤ s.mem.weight e.sender) (h2 : a ≤ s.mem.total)
    (h3 : s.nextClaim + 1 < M64) : (step k s ⟨e, .unstake a, true⟩).1 = { s with
      mem := (s.mem.setWeight e.sender (s.mem.weight e.sender - a)).saveTotal (s.mem.total - a) e.block
      nextClaim := s.nextClaim + 1
      claims := s.claims.set s.nextClaim ⟨s.nextClaim, e.sender, a, releaseAt s.unlocking e.block⟩ } := by
  have := unstake_ok_iff.2 ⟨h1, h2, h3, rfl⟩
  unfold step exec
  simp only [this, if_true]

theorem Inv.weight_le {s : State} (h : Inv s) (u : Addr) : s.mem.weight u ≤ s.mem.total := by
  rw [h.total]; exact Members.weight_le_wsum _ _

theorem parts_alike {k : Kind} {e : Env} : ∀ (ns : List Nat) {s : State}, Inv s → ns ≠ [] →
    ns.sum ≤ s.mem.weight e.sender → s.nextClaim + ns.length < M64 →
    allAccepted k s (inParts e ns) ∧ Alike (run k s (inParts e ns)) (step k s ⟨e, .unstake ns.sum, true⟩).1 ∧
      (run k s (inParts e ns)).nextClaim = s.nextClaim + ns.length
  | [], _, _, hne, _, _ => absurd rfl hne
  | n :: t, s, hi, _, hs, hr => by
    rw [List.sum_cons] at hs
    rw [List.length_cons] at hr
    have hw := hi.weight_le e.sender
    have h1 : n ≤ s.mem.weight e.sender := by omega
    have acc : accepted k s ⟨e, .unstake n, true⟩ := ⟨rfl, _, unstake_ok_iff.2 ⟨h1, by omega, by omega, rfl⟩⟩
    have st := step_unstake k (e := e) h1 (by omega) (by omega : s.nextClaim + 1 < M64)
    have hi' : Inv (step k s ⟨e, .unstake n, true⟩).1 := inv_step hi _
    by_cases ht : t = []
    · subst ht
      refine ⟨⟨acc, trivial⟩, ?_, ?_⟩
      · simpa [inParts, run] using Alike.refl _
      · simp [inParts, run, st]
    · have hw' : (step k s ⟨e, .unstake n, true⟩).1.mem.weight e.sender = s.mem.weight e.sender - n := by
        rw [st]
        simp only [Members.saveTotal_weight, Members.weight_setWeight, if_true]
      have ht' : (step k s ⟨e, .unstake n, true⟩).1.mem.total = s.mem.total - n := by rw [st]; rfl
      have hn' : (step k s ⟨e, .unstake n, true⟩).1.nextClaim = s.nextClaim + 1 := by rw [st]
      obtain ⟨g1, g2, g3⟩ := parts_alike (k := k) (e := e) t hi' ht (by rw [hw']; omega) (by rw [hn']; omega)
      refine ⟨⟨acc, g1⟩, g2.trans ?_, by rw [List.length_cons]; rw [hn'] at g3; exact g3.trans (by omega)⟩
      have hlen : 0 < t.length := List.length_pos_iff.2 ht
      have f1 := step_unstake k (s := (step k s ⟨e, .unstake n, true⟩).1) (e := e) (a := t.sum) (by rw [hw']; omega)
        (by rw [ht']; omega) (by rw [hn']; omega)
      have f2 := step_unstake k (s := s) (e := e) (a := n + t.sum) hs (by omega) (by omega)
      rw [List.sum_cons, f1, f2]
      have hfree := hi'.free
      refine ⟨?_, by rw [st], by rw [st], by simp only; omega, fun p => ?_⟩
      · simp only
        rw [hw', ht', st]
        simp only
        rw [mem_twice, Nat.sub_sub, Nat.sub_sub]
      · rw [worth_push hfree, worth_push hi.free]
        rw [st, worth_push hi.free]
        simp only
        split <;> omega

theorem Alike.due {s t : State} (h : Alike s t) (u : Addr) (b : Block) : dueSum s u b = dueSum t u b := by
  have key : ∀ x : State, dueSum x u b = Staking.worth x (ripe u b) := by
    intro x
    unfold dueSum Staking.worth
    apply Map.sum_congr
    intro i c _
    show _ = if takes u b c = true then c.amount else 0
    rw [takes_eq]
    simp only [decide_eq_true_eq]
  rw [key, key, h.worth]

/-! ## C187 -/

/-- C187. Unstaking an amount in parts within a block is accepted whenever unstaking it at once is; whatever happens
afterwards, the same messages go out, weights and total weights (now and in the past) are the same, and the same amounts
can be claimed by everybody at every time. -/
theorem C187_parts {k : Kind} {s : State} (hs : Reachable k s) (e : Env) {ns : List Nat} (hne : ns ≠ [])
    (hw : ns.sum ≤ queryWeight s e.sender) (h : List Call) (hr : s.nextClaim + ns.length + newClaims h < 2 ^ 64) :
    allAccepted k s (inParts e ns) ∧ accepted k s ⟨e, .unstake ns.sum, true⟩ ∧
    sent k (run k s (inParts e ns)) h = sent k (run k s [⟨e, .unstake ns.sum, true⟩]) h ∧
    (∀ u, queryWeight (run k s (inParts e ns ++ h)) u = queryWeight (run k s (⟨e, .unstake ns.sum, true⟩ :: h)) u) ∧
    (∀ a, queryTotal (run k s (inParts e ns ++ h)) a = queryTotal (run k s (⟨e, .unstake ns.sum, true⟩ :: h)) a) ∧
    ∀ u b, dueSum (run k s (inParts e ns ++ h)) u b = dueSum (run k s (⟨e, .unstake ns.sum, true⟩ :: h)) u b := by
  have hi := hs.inv
  have hm : M64 = 2 ^ 64 := rfl
  rw [← hm] at hr
  have hlen : 0 < ns.length := List.length_pos_iff.2 hne
  have hw' : ns.sum ≤ s.mem.weight e.sender := hw
  obtain ⟨g1, g2, g3⟩ := parts_alike (k := k) (e := e) ns hi hne hw' (by omega)
  have r : ∀ (l l' : List Call) (x : State), run k x (l ++ l') = run k (run k x l) l' := by
    intro l
    induction l with
    | nil => intro l' x; rfl
    | cons c l ih => intro l' x; exact ih l' _
  obtain ⟨i1, i2⟩ := same_run (k := k) h g2 (inv_run hi _) (inv_step hi _) (by rw [g3]; exact hr)
  refine ⟨g1, ⟨rfl, _, unstake_ok_iff.2 ⟨hw', Nat.le_trans hw' (hi.weight_le _), by omega, rfl⟩⟩, i1, fun u => ?_,
    fun a => ?_, fun u b => ?_⟩
  · rw [r]
    show Members.weight _ u = Members.weight (run k (step k s _).1 h).mem u
    rw [i2.mem]
  · rw [r]
    show queryTotal _ a = queryTotal (run k (step k s _).1 h) a
    cases a <;> simp only [queryTotal, i2.mem]
  · rw [r]
    exact i2.due u b

/-- User 1 unstakes 20, 0 and 10, then imports and a claim follow. -/
example : Reachable .token (run .token smpInit (smpToken.take 4)) ∧ ([20, 0, 10] : List Nat) ≠ [] ∧
    ([20, 0, 10] : List Nat).sum ≤ queryWeight (run .token smpInit (smpToken.take 4)) (smpEnv 15 1).sender ∧
    (run .token smpInit (smpToken.take 4)).nextClaim + 3 + newClaims smpToken < 2 ^ 64 ∧
    dueSum (run .token smpInit (smpToken.take 4 ++ inParts (smpEnv 15 1) [20, 0, 10])) 1 ⟨200, 200 * 10 ^ 9⟩ = 73 :=
  ⟨smp_reachable, by decide +kernel⟩

end Verif.Staking
