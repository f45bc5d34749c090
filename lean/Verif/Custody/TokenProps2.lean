import Verif.Custody.TokenProps
import Verif.Staking.Props3

set_option linter.unusedSimpArgs false

/-!
# Strangers' claims in a token DAO: property C159
-/

namespace Verif.Custody.Token
open Verif Verif.Staking

/-! ## The work of a claim -/

/-- The loop over a user's claims in `get_releasable_claims`, token-staking-impl/src/claims.rs 79-91 and
denom-staking-impl/src/claims.rs 79-91, as in `getReleasable` and with the number of entries that are loaded from
storage. -/
def scanCounting (b : Block) : List Claim → List Claim × Nat
  | [] => ([], 0)
  | c :: t =>
    ((if isReleasable c b then [c] else []) ++ (scanCounting b t).1, (scanCounting b t).2 + 1)

/-- `claim`, token-staking-impl/src/execute.rs 208-244; denom-staking-impl/src/execute.rs 128-160, with the number of
claims that are loaded from storage. -/
def claimCounting (s : State) (e : Env) (user : Option Addr) : Except Err ((State × List Out) × Nat) :=
  let user := user.getD e.sender
  if e.sender ≠ user then .error .unauthorized
  else do
    let scan := scanCounting e.block (getClaims s user)
    let (s1, sum) ← scan.1.foldlM takeClaim (s, 0)
    return ((s1, [.pay user sum]), scan.2)

/-! ## Specification -/

/-- How many claims of a user are waiting in the contract, due or not. -/
def outstanding (s : State) (u : Addr) : Nat := s.claims.sum (fun _ c => if c.user = u then 1 else 0)

/-- A release lies after a block. -/
def Ahead (b : Block) : ReleaseAt → Prop
  | .height h => b.height < h
  | .timestamp t => b.time < t

/-- An operation happens before a release. The balances know no blocks. -/
def Op.earlier (r : ReleaseAt) : Op → Prop
  | .send _ _ _ e _ => Ahead e.block r
  | .call e _ _ => Ahead e.block r
  | _ => True

/-! ## Lemmas -/

theorem scanCounting_eq (b : Block) (l : List Claim) :
    scanCounting b l = (l.filter (fun c => isReleasable c b), l.length) := by
  induction l with
  | nil => rfl
  | cons c t ih =>
    unfold scanCounting
    rw [ih]
    by_cases h : isReleasable c b = true
    · simp [h]
    · simp [h]

theorem getClaims_length (s : State) (u : Addr) : (getClaims s u).length = outstanding s u := by
  unfold getClaims outstanding Map.values Map.sum
  induction s.claims.entries with
  | nil => rfl
  | cons x t ih =>
    simp only [List.map_cons, List.filter_cons, List.sum_cons, decide_eq_true_eq]
    split
    · simp only [List.length_cons, ih]; omega
    · simp only [ih]; omega

theorem keys_le_outstanding {s : State} {u : Addr} {ks : List Nat} (hn : ks.Nodup)
    (hk : ∀ i ∈ ks, ∃ c, s.claims.get i = some c ∧ c.user = u) : ks.length ≤ outstanding s u := by
  have h1 : outstanding s u = ((s.claims.entries.filter (fun x => decide (x.2.user = u))).map (·.1)).length := by
    unfold outstanding Map.sum
    induction s.claims.entries with
    | nil => rfl
    | cons x t ih =>
      simp only [List.map_cons, List.sum_cons, List.filter_cons, decide_eq_true_eq]
      split
      · simp only [List.map_cons, List.length_cons, ← ih]; omega
      · simp only [← ih]; omega
  rw [h1]
  refine List.Nodup.length_le_of_subset hn (fun i hi => ?_)
  obtain ⟨c, hc, hu⟩ := hk i hi
  rw [List.mem_map]
  exact ⟨(i, c), List.mem_filter.2 ⟨Map.get_eq_some_iff.1 hc, by simpa using hu⟩, rfl⟩

theorem addClaims_outstanding (u : Addr) : ∀ (l : List UserClaim) {x y : State × Nat},
    (∀ i c, x.1.claims.get i = some c → i < x.1.nextClaim) → l.foldlM addTokenClaim x = .ok y →
    outstanding y.1 u = outstanding x.1 u + (l.map (fun c => if c.user = u then 1 else 0)).sum := by
  intro l
  induction l with
  | nil =>
    intro x y _ h
    rw [foldlM_nil_ok_iff] at h
    subst h
    simp
  | cons c t ih =>
    intro x y hb h
    obtain ⟨z, h1, h2⟩ := foldlM_cons_ok_iff.1 h
    simp only [addTokenClaim, bind_ok_iff, addClaim_ok_iff, cadd128_ok, pure_ok_iff] at h1
    obtain ⟨_, ⟨h3, rfl⟩, _, ⟨h4, rfl⟩, rfl⟩ := h1
    have hn : x.1.claims.get x.1.nextClaim = none := by
      cases hg : x.1.claims.get x.1.nextClaim with
      | none => rfl
      | some d => have := hb _ _ hg; omega
    have hs := x.1.claims.sum_set (fun _ c => if c.user = u then 1 else 0) x.1.nextClaim
      ⟨x.1.nextClaim, c.user, c.amount, c.release⟩
    rw [hn] at hs
    simp only [Map.contrib_none, Nat.add_zero] at hs
    rw [ih _ h2]
    · simp only [outstanding, hs, List.map_cons, List.sum_cons]
      omega
    · intro i d hd
      simp only [Map.get_set] at hd ⊢
      split at hd
      · omega
      · have := hb i d hd; omega

theorem outstanding_filter (u v : Addr) (b : Block) (m : Map Nat Claim) :
    (m.filter (fun _ c => !takes v b c)).sum (fun _ c => if c.user = u then 1 else 0) ≤
      m.sum (fun _ c => if c.user = u then 1 else 0) ∧
    (v ≠ u → (m.filter (fun _ c => !takes v b c)).sum (fun _ c => if c.user = u then 1 else 0) =
      m.sum (fun _ c => if c.user = u then 1 else 0)) := by
  unfold Map.filter Map.sum
  simp only
  induction m.entries with
  | nil => exact ⟨le_refl _, fun _ => rfl⟩
  | cons x t ih =>
    simp only [List.filter_cons, List.map_cons, List.sum_cons]
    by_cases ht : takes v b x.2 = true
    · simp only [ht, Bool.not_true, Bool.false_eq_true, if_false]
      refine ⟨by omega, fun hne => ?_⟩
      have hu : x.2.user = v := by
        rw [takes_eq] at ht
        exact (of_decide_eq_true ht).1
      rw [if_neg (by rw [hu]; exact hne), ih.2 hne]
      omega
    · simp only [ht, Bool.not_false, if_true, List.map_cons, List.sum_cons]
      exact ⟨by omega, fun hne => by rw [ih.2 hne]⟩

theorem not_due_of_ahead {b : Block} {c : Claim} (h : Ahead b c.release) (u : Addr) : ¬ Due u b c := by
  unfold Ahead at h
  rintro ⟨_, ⟨x, hx, h2⟩ | ⟨x, hx, h2⟩⟩ <;> simp only [hx] at h <;> omega

/-- A claim stays as long as it is not due, whoever does what. -/
theorem undue_kept {k : Kind} {s : State} (h : Staking.Reachable k s) {e : Env} {m : Msg} {r : State × List Out}
    (hr : Staking.exec k s e m = .ok r) {i : Nat} {c : Claim} (hg : s.claims.get i = some c)
    (ha : Ahead e.block c.release) : r.1.claims.get i = some c := by
  by_cases hm : ∃ v, m = .claim v
  · obtain ⟨v, rfl⟩ := hm
    exact ((C19_claim h e v).2 r hr).2.2.1 i c hg (not_due_of_ahead ha _)
  · exact claim_kept h hr hg (fun v hv => absurd ⟨v, hv⟩ hm)

theorem undue_run {p : Params} {w : World} (h : Reach p w) (l : List Op) {i : Nat} {c : Claim}
    (hg : w.st.claims.get i = some c) (hl : ∀ o ∈ l, o.earlier c.release) :
    (run p w l).st.claims.get i = some c := by
  induction l generalizing w with
  | nil => exact hg
  | cons o t ih =>
    refine ih (h.step o) ?_ (fun o' ho' => hl o' (List.mem_cons_of_mem _ ho'))
    have ho := hl o List.mem_cons_self
    rcases step_cases p w o with ⟨w', h1, h2⟩ | h2
    · rw [h2]
      have hst := h.inv.st
      cases o with
      | mint dst a =>
        simp only [exec, bind_ok_iff, pure_ok_iff] at h1
        obtain ⟨_, _, rfl⟩ := h1
        exact hg
      | burn src a =>
        simp only [exec, ite_ok_iff, bind_ok_iff, pure_ok_iff] at h1
        obtain ⟨_, _, _, rfl⟩ := h1
        exact hg
      | transfer src dst a =>
        simp only [exec, ite_ok_iff, bind_ok_iff, pure_ok_iff] at h1
        obtain ⟨_, _, _, rfl⟩ := h1
        exact hg
      | send src a hk e d =>
        simp only [exec, ite_ok_iff, bind_ok_iff, pure_ok_iff] at h1
        obtain ⟨_, _, _, r, hr, _, _, rfl⟩ := h1
        exact undue_kept hst hr hg ho
      | call e m d =>
        simp only [exec, ite_ok_iff, bind_ok_iff, pure_ok_iff] at h1
        obtain ⟨_, _, _, r, hr, _, _, rfl⟩ := h1
        exact undue_kept hst hr hg ho
    · rw [h2]; exact hg

/-! ## C159 -/

/-- C159: a claim loads every waiting claim of the user, whether it is due or not; apart from the count it is the claim
of the contract. -/
theorem C159_looks (s : State) (e : Env) (u : Option Addr) (r : State × List Out) (n : Nat) :
    claimCounting s e u = .ok (r, n) ↔ claim s e u = .ok r ∧ n = outstanding s e.sender := by
  unfold claimCounting claim getReleasable
  simp only [ite_ok_iff, ne_eq, not_not, scanCounting_eq, getClaims_length, bind_ok_iff, pure_ok_iff]
  constructor
  · rintro ⟨h1, ⟨s1, sum⟩, h2, h3⟩
    rw [Prod.mk.injEq] at h3
    obtain ⟨h3, h4⟩ := h3
    exact ⟨⟨h1, _, h2, h3⟩, by rw [h1]; exact h4.symm⟩
  · rintro ⟨⟨h1, ⟨s1, sum⟩, h2, h3⟩, h4⟩
    refine ⟨h1, _, h2, ?_⟩
    rw [Prod.mk.injEq]
    exact ⟨h3, by rw [← h1]; exact h4.symm⟩

example : claimCounting (run smpParams smpStart smpOps).st (smpEnv 20 1) none =
    .ok (((run smpParams smpStart smpOps).st, [.pay 1 0]), 1) := by decide +kernel

/-- C159: anybody who has one unit of the token of a token DAO can give any user any number of further claims, to be
released as late as one likes, with one message. It changes no weight. And whatever anybody does before this release,
also the user, a claim of the user loads at least this many entries. -/
theorem C159_flood {p : Params} (hk : p.kind = .token) {w : World} (h : Reach p w) (a v : Addr) (hav : a ≠ v)
    (ham : a ≠ p.me) (hb : 1 ≤ w.led.bal a) (n : Nat) (hroom : w.st.nextClaim + (n + 1) < 2 ^ 64) (r : ReleaseAt)
    (e : Env) :
    ∃ w', exec p w (.send a 1 (.addClaims (⟨a, 1, r⟩ :: List.replicate n ⟨v, 0, r⟩)) e true) = .ok w' ∧
      w'.led.bal a + 1 = w.led.bal a ∧ (∀ u, queryWeight w'.st u = queryWeight w.st u) ∧
      outstanding w'.st v = outstanding w.st v + n ∧
      ∀ l : List Op, (∀ o ∈ l, o.earlier r) → ∀ later u x k,
        later.sender = v → claimCounting (run p w' l).st later u = .ok (x, k) → n ≤ k := by
  have hi := h.inv
  obtain ⟨l1, hl1⟩ : ∃ l1, w.led.transfer a p.me 1 = .ok l1 :=
    ⟨_, (Ledger.transfer_ok_iff hi.supply).2 ⟨hb, rfl⟩⟩
  obtain ⟨_, _, _, f1⟩ := Ledger.transfer_effect hl1
  obtain ⟨f1, _, _⟩ := f1 ham
  have hst : Staking.Reachable .token w.st := hk ▸ hi.st
  have hcl := C22_add_claims hst { e with sender := w.st.asset } 1 (by decide)
    (⟨a, 1, r⟩ :: List.replicate n ⟨v, 0, r⟩)
  obtain ⟨y, hy⟩ := hcl.1.2 ⟨rfl, by simp, .inr (by simpa using hroom)⟩
  obtain ⟨g1, g2, g3, g4⟩ := hcl.2 y hy
  have hy' := hy
  simp only [Staking.exec, if_true, receive, ite_ok_iff, ne_eq, not_not] at hy'
  obtain ⟨_, hy'⟩ := hy'
  obtain ⟨h0, _, h2⟩ := addTokenClaims_ok hy'
  have hex : exec p w (.send a 1 (.addClaims (⟨a, 1, r⟩ :: List.replicate n ⟨v, 0, r⟩)) e true) =
      .ok ⟨y.1, l1⟩ := by
    simp only [exec, ite_ok_iff, bind_ok_iff, pure_ok_iff, not_or]
    refine ⟨⟨ham, by simp⟩, l1, hl1, y, by rw [hk]; exact hy, l1, ?_, rfl⟩
    rw [h0]; rfl
  refine ⟨⟨y.1, l1⟩, hex, by simp only; omega, fun u => ?_, ?_, ?_⟩
  · unfold queryWeight; simp only; rw [g1]
  · have := addClaims_outstanding v _ (fun i c hc => (hst.inv.ids i c hc).2) h2
    simp only at this
    rw [this]
    simp [hav]
  · intro l hl later u x k hs hx
    obtain ⟨_, rfl⟩ := (C159_looks _ _ _ _ _).1 hx
    rw [hs]
    have hr1 : Reach p ⟨y.1, l1⟩ := by
      have := h.step (.send a 1 (.addClaims (⟨a, 1, r⟩ :: List.replicate n ⟨v, 0, r⟩)) e true)
      unfold step at this
      rw [hex] at this
      exact this
    have key : ((List.range n).map (fun j => w.st.nextClaim + (j + 1))).length ≤
        outstanding (run p ⟨y.1, l1⟩ l).st v := by
      refine keys_le_outstanding ?_ ?_
      · unfold List.Nodup
        rw [List.pairwise_map]
        exact List.nodup_range.imp (fun hij => by omega)
      · intro i hmem
        rw [List.mem_map] at hmem
        obtain ⟨j, hj, rfl⟩ := hmem
        rw [List.mem_range] at hj
        have hg := g4 (j + 1)
        rw [List.getElem?_cons_succ, List.getElem?_replicate, if_pos hj] at hg
        exact ⟨_, undue_run hr1 l hg hl, rfl⟩
    simpa using key

/-- Sample: user 2 burdens user 1 with four claims, until height 1000. -/
example : Reach smpParams (run smpParams smpStart smpOps) ∧ 1 ≤ (run smpParams smpStart smpOps).led.bal 2 ∧
    outstanding (run smpParams smpStart (smpOps ++ [.send 2 1
      (.addClaims (⟨2, 1, .height 1000⟩ :: List.replicate 4 ⟨1, 0, .height 1000⟩)) (smpEnv 14 2) true])).st 1 = 5 ∧
    outstanding (run smpParams smpStart (smpOps ++ [.send 2 1
      (.addClaims (⟨2, 1, .height 1000⟩ :: List.replicate 4 ⟨1, 0, .height 1000⟩)) (smpEnv 14 2) true,
      .call (smpEnv 200 1) (.claim none) true])).st 1 = 4 :=
  ⟨smp_reach 6, by decide +kernel, by decide +kernel, by decide +kernel⟩

/-- C159: in a denom DAO this cannot happen: nobody else's message changes the number of a user's waiting claims, and
a message of the user adds at most one. -/
theorem C159_denom {s : State} (h : Staking.Reachable .denom s) (e : Env) (m : Msg) (r : State × List Out)
    (hr : Staking.exec .denom s e m = .ok r) (u : Addr) :
    (e.sender ≠ u → outstanding r.1 u = outstanding s u) ∧ outstanding r.1 u ≤ outstanding s u + 1 := by
  have same : r.1.claims = s.claims →
      (e.sender ≠ u → outstanding r.1 u = outstanding s u) ∧ outstanding r.1 u ≤ outstanding s u + 1 := by
    intro hc
    unfold outstanding
    rw [hc]
    exact ⟨fun _ => rfl, by omega⟩
  cases m with
  | receive a hk =>
    simp only [Staking.exec] at hr
    cases hr
  | stakeDenom f u =>
    simp only [Staking.exec, if_true] at hr
    unfold stakeDenom at hr
    split at hr
    · rw [ite_ok_iff] at hr
      obtain ⟨_, _, _, rfl⟩ := stakeFor_ok_iff.1 hr.2
      exact same rfl
    · cases hr
  | unstake a =>
    obtain ⟨_, _, _, rfl⟩ := unstake_ok_iff.1 hr
    have hs := s.claims.sum_set (fun _ c => if c.user = u then 1 else 0) s.nextClaim
      ⟨s.nextClaim, e.sender, a, releaseAt s.unlocking e.block⟩
    have hn : s.claims.get s.nextClaim = none := by
      cases hg : s.claims.get s.nextClaim with
      | none => rfl
      | some d => have := (h.inv.ids _ _ hg).2; omega
    rw [hn] at hs
    simp only [Map.contrib_none, Nat.add_zero] at hs
    unfold outstanding
    simp only [hs]
    refine ⟨fun hne => by rw [if_neg hne]; omega, by split <;> omega⟩
  | claim v =>
    obtain ⟨_, _, rfl⟩ := (claim_ok_iff h.inv).1 hr
    have key := outstanding_filter u e.sender e.block s.claims
    unfold outstanding
    simp only
    exact ⟨fun hne => key.2 hne, by have := key.1; omega⟩
  | updateUnlocking p => obtain ⟨_, rfl⟩ := updateUnlocking_ok_iff.1 hr; exact same rfl
  | addHook a => exact same (by rw [((C83_edit .denom s e a).2.2.1 r hr).2.2])
  | removeHook a => exact same (by rw [((C83_edit .denom s e a).2.2.2 r hr).2.2])

example : (Staking.exec .denom smpInit (smpEnv 11 1) (.stakeDenom [⟨5, 60⟩] (some 2))).toOption.isSome = true := by
  decide +kernel

end Verif.Custody.Token
