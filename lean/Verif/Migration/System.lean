import Verif.Migration.Props
import Verif.Staking.Props

set_option linter.unusedSimpArgs false

/-!
# Migration of a token DAO together with the token staking contract that receives it
-/

namespace Verif.Migration
open Verif
open Verif.Staking (ReleaseAt UserClaim shareOf)

/-- The treasury and the membership contract. -/
structure Sys where
  tr : State
  st : Staking.State

/-- Delivery of one message: the token contract transfers the amount and calls `Receive` of the staking contract
(contracts/token-staking-membership/src/contract.rs, token-staking-impl/src/execute.rs 26-40). The NFT messages are not
for this contract. -/
def deliverOne (e : Env) (st : Staking.State) : Out → Except Err Staking.State
  | .addStakes n l => do
    let r ← Staking.exec .token st { e with sender := st.asset } (.receive n (.addStakes l))
    return r.1
  | .addClaims n l => do
    let r ← Staking.exec .token st { e with sender := st.asset } (.receive n (.addClaims l))
    return r.1
  | _ => .error .unsupported

/-- Delivery of the messages of a migration step, in order. -/
def deliver (e : Env) (st : Staking.State) (outs : List Out) : Except Err Staking.State := outs.foldlM (deliverOne e) st

/-- A migration step of the whole: `c.delivered` says whether the token transfers and the hooks called by the staking
contract succeed. Any failure reverts everything. -/
def sysStep (σ : Sys) (e : Env) (c : Call) : Sys :=
  match perform c.gas σ.tr c.limit with
  | .error _ => σ
  | .ok (s', outs) =>
    match deliver e σ.st outs with
    | .error _ => σ
    | .ok st' => if c.delivered then ⟨s', st'⟩ else σ

/-- Amount claimed by `u` with release `r` in a list of claims. -/
def claimShare (u : Addr) (r : ReleaseAt) (l : List UserClaim) : Nat :=
  (l.map (fun c => if c.user = u ∧ c.release = r then c.amount else 0)).sum

/-- The same in the staking contract. -/
def stakingShare (u : Addr) (r : ReleaseAt) (st : Staking.State) : Nat :=
  st.claims.sum (fun _ c => if c.user = u ∧ c.release = r then c.amount else 0)

theorem claimShare_append (u : Addr) (r : ReleaseAt) (a b : List UserClaim) :
    claimShare u r (a ++ b) = claimShare u r a + claimShare u r b := by
  unfold claimShare; rw [List.map_append, List.sum_append]

theorem claimShare_nonzero (u : Addr) (r : ReleaseAt) (l : List UserClaim) :
    claimShare u r (nonzeroClaims l) = claimShare u r l := by
  unfold nonzeroClaims claimShare
  induction l with
  | nil => rfl
  | cons e l ih =>
    by_cases he : e.amount = 0
    · rw [List.filter_cons_of_neg (by simp [he]), ih]; simp [he]
    · rw [List.filter_cons_of_pos (by simp [he]), List.map_cons, List.sum_cons, ih, List.map_cons, List.sum_cons]

theorem shareOf_append (a b : List (Addr × Nat)) (u : Addr) : shareOf (a ++ b) u = shareOf a u + shareOf b u := by
  unfold shareOf; rw [List.filter_append, List.map_append, List.sum_append]

theorem shareOf_nonzero (l : List (Addr × Nat)) (u : Addr) : shareOf (nonzeroStakes l) u = shareOf l u := by
  induction l with
  | nil => rfl
  | cons e l ih =>
    rw [Staking.shareOf_cons, ← ih]
    unfold nonzeroStakes
    by_cases he : e.2 = 0
    · rw [List.filter_cons_of_neg (by simp [he])]; simp [he]
    · rw [List.filter_cons_of_pos (by simp [he]), Staking.shareOf_cons]

theorem shareOf_entries : ∀ (l : List (Addr × Nat)), SortedL l → ∀ u, shareOf l u = (lookupL u l).getD 0
  | [], _, u => rfl
  | e :: l, h, u => by
    have h1 := List.pairwise_cons.1 h
    rw [Staking.shareOf_cons, shareOf_entries l h1.2, lookupL]
    by_cases he : e.1 = u
    · rw [if_pos he, lookupL_eq_none_of_lt (fun a ha => he ▸ h1.1 a ha)]
      simp [he]
    · rw [if_neg he]
      simp [Ne.symm he]

theorem addClaims_share (u : Addr) (r : ReleaseAt) : ∀ (l : List UserClaim) {x y : Staking.State × Nat},
    (∀ i c, x.1.claims.get i = some c → i < x.1.nextClaim) →
    l.foldlM Staking.addTokenClaim x = .ok y → stakingShare u r y.1 = stakingShare u r x.1 + claimShare u r l := by
  intro l
  induction l with
  | nil =>
    intro x y _ h
    rw [foldlM_nil_ok_iff] at h
    subst h; simp [claimShare]
  | cons c t ih =>
    intro x y hx h
    rw [foldlM_cons_ok_iff] at h
    obtain ⟨z, hz, hy⟩ := h
    obtain ⟨h1, h2, rfl⟩ := Staking.addTokenClaim_ok_iff.1 hz
    have := ih (x := (x.1.pushed c, x.2 + c.amount)) (by
      intro i d hd
      simp only [Staking.pushed_claims, Staking.pushed_next, Map.get_set] at hd ⊢
      split at hd
      · omega
      · have := hx i d hd; omega) hy
    rw [this]
    have hs := x.1.claims.sum_set (fun _ c => if c.user = u ∧ c.release = r then c.amount else 0) x.1.nextClaim
      (c.stored x.1.nextClaim)
    have hn : x.1.claims.get x.1.nextClaim = none := by
      cases hg : x.1.claims.get x.1.nextClaim with
      | none => rfl
      | some d => have := hx _ _ hg; omega
    rw [hn] at hs
    simp only [Map.contrib_none, Nat.add_zero, Staking.UserClaim.stored] at hs
    unfold stakingShare claimShare
    simp only [Staking.pushed_claims, Staking.UserClaim.stored, List.map_cons, List.sum_cons] at hs ⊢
    rw [hs, Nat.add_assoc]; rfl

theorem exec_reachable {st : Staking.State} (hr : Staking.Reachable .token st) {e : Env} {m : Staking.Msg}
    {r : Staking.State × List Verif.Out} (h : Staking.exec .token st e m = .ok r) : Staking.Reachable .token r.1 := by
  have := Staking.reachable_step hr ⟨e, m, true⟩
  unfold Staking.step at this
  simp only [h, if_true] at this
  exact this

/-- Effect of a delivery. -/
structure Delivered (e : Env) (st st' : Staking.State) (outs : List Out) : Prop where
  reach : Staking.Reachable .token st'
  weight : ∀ u, Staking.queryWeight st' u = Staking.queryWeight st u + shareOf (outs.flatMap stakesIn) u
  total : Staking.queryTotal st' .never = Staking.queryTotal st .never + ((outs.flatMap stakesIn).map (·.2)).sum
  claims : ∀ u r, stakingShare u r st' = stakingShare u r st + claimShare u r (outs.flatMap claimsIn)
  free : ∀ x ∈ outs.flatMap stakesIn, x.2 ≠ 0 → e.restricted x.1 = false

theorem deliver_ok {e : Env} : ∀ (outs : List Out) {st st' : Staking.State}, Staking.Reachable .token st →
    deliver e st outs = .ok st' → Delivered e st st' outs
  | [], st, st', hr, h => by
    unfold deliver at h
    rw [foldlM_nil_ok_iff] at h
    subst h
    exact ⟨hr, fun _ => rfl, rfl, fun _ _ => rfl, by simp⟩
  | o :: outs, st, st', hr, h => by
    unfold deliver at h
    rw [foldlM_cons_ok_iff] at h
    obtain ⟨z, h1, h2⟩ := h
    have hz : Delivered e st z [o] := by
      cases o with
      | addStakes n l =>
        obtain ⟨r, k1, k2⟩ := bind_ok_iff.1 h1
        cases k2
        obtain ⟨a1, a2⟩ := Staking.C22_add_stakes hr { e with sender := st.asset } n l
        obtain ⟨b1, b2, b3, b4⟩ := a2 r k1
        obtain ⟨c1, c2, c3, c4⟩ := a1.1 ⟨r, k1⟩
        refine ⟨exec_reachable hr k1, ?_, ?_, ?_, ?_⟩
        · intro u; rw [b1]; simp [stakesIn]
        · rw [b2]; simp [stakesIn, c2]
        · intro u r'
          unfold stakingShare
          rw [b3]
          simp [claimsIn, claimShare]
        · intro x hx
          exact c3 x (by simpa [stakesIn] using hx)
      | addClaims n l =>
        obtain ⟨r, k1, k2⟩ := bind_ok_iff.1 h1
        cases k2
        have k1' := k1
        simp only [Staking.exec, if_true, Staking.receive, ite_ok_iff, ne_eq, not_not, not_true_eq_false, if_false] at k1'
        obtain ⟨d1, d2, d3⟩ := Staking.addTokenClaims_ok k1'
        have hl := Staking.addClaims_loop l d3
        refine ⟨exec_reachable hr k1, ?_, ?_, ?_, ?_⟩
        · intro u
          show r.1.mem.weight u = _
          rw [hl.2.2.2.1.1]
          simp [stakesIn, shareOf]
          rfl
        · show r.1.mem.total = _
          rw [hl.2.2.2.1.1]
          simp [stakesIn]
          rfl
        · intro u r'
          have := addClaims_share u r' l (fun i c hc => (hr.inv.ids i c hc).2) d3
          rw [this]
          simp [claimsIn]
        · simp [stakesIn]
      | stakeNft t u => cases h1
      | addNftClaim t u r => cases h1
    have hrec := deliver_ok outs hz.reach h2
    have hsplit : ∀ {A : Type} (f : Out → List A), (o :: outs).flatMap f = [o].flatMap f ++ outs.flatMap f := by
      intro A f; simp
    refine ⟨hrec.reach, ?_, ?_, ?_, ?_⟩
    · intro u
      rw [hrec.weight, hz.weight, hsplit, shareOf_append]
      omega
    · rw [hrec.total, hz.total, hsplit stakesIn, List.map_append, List.sum_append]
      omega
    · intro u r
      rw [hrec.claims, hz.claims, hsplit claimsIn, claimShare_append]
      omega
    · intro x hx
      rw [hsplit, List.mem_append] at hx
      rcases hx with hx | hx
      · exact hz.free x hx
      · exact hrec.free x hx

theorem sysStep_cases (σ : Sys) (e : Env) (c : Call) : sysStep σ e c = σ ∨
    ∃ outs, perform c.gas σ.tr c.limit = .ok ((sysStep σ e c).tr, outs) ∧ deliver e σ.st outs = .ok (sysStep σ e c).st := by
  unfold sysStep
  cases h : perform c.gas σ.tr c.limit with
  | error x => exact Or.inl rfl
  | ok r =>
    obtain ⟨s', outs⟩ := r
    simp only
    cases hd : deliver e σ.st outs with
    | error x => exact Or.inl rfl
    | ok st' =>
      cases hc : c.delivered with
      | false => exact Or.inl (by simp)
      | true => exact Or.inr ⟨outs, by simp, by simpa using hd⟩

/-- Stake of a user kept by the treasury. -/
def kept (σ : Sys) (u : Addr) : Nat := (σ.tr.stakes.get u).getD 0

theorem sysStep_share {σ : Sys} (hr : Staking.Reachable .token σ.st) (hd : σ.tr.dao = .token) (e : Env) (c : Call) :
    Staking.Reachable .token (sysStep σ e c).st ∧ (sysStep σ e c).tr.dao = .token ∧
    (∀ u, kept (sysStep σ e c) u + Staking.queryWeight (sysStep σ e c).st u = kept σ u + Staking.queryWeight σ.st u) ∧
    (∀ u r, claimShare u r (owedTokens (sysStep σ e c).tr) + stakingShare u r (sysStep σ e c).st =
      claimShare u r (owedTokens σ.tr) + stakingShare u r σ.st) ∧
    (∀ u, e.restricted u = true → kept (sysStep σ e c) u = kept σ u) := by
  rcases sysStep_cases σ e c with h | ⟨outs, h1, h2⟩
  · rw [h]
    exact ⟨hr, hd, fun _ => rfl, fun _ _ => rfl, fun _ _ => rfl⟩
  · generalize sysStep σ e c = σ' at h1 h2
    obtain ⟨n, he, _⟩ := performSafe_ok (perform_safe h1).1
    have hdl := deliver_ok outs hr h2
    have hk : ∀ u, kept σ u = shareOf (outs.flatMap stakesIn) u + kept σ' u := by
      intro u
      have a := congrArg (fun l => shareOf l u) he.stakes
      simp only [shareOf_append, shareOf_nonzero] at a
      rw [shareOf_entries _ σ'.tr.stakes.sorted, shareOf_entries _ σ.tr.stakes.sorted] at a
      exact a.symm
    refine ⟨hdl.reach, he.dao.trans hd, ?_, ?_, ?_⟩
    · intro u
      rw [hdl.weight, hk]
      omega
    · intro u r
      have a := congrArg (claimShare u r) (he.claims (by rw [hd]; simp))
      rw [claimShare_append, claimShare_nonzero, claimShare_nonzero, claimShare_nonzero] at a
      rw [hdl.claims, ← a]
      omega
    · intro u hu
      rw [hk]
      have : shareOf (outs.flatMap stakesIn) u = 0 := by
        have key : ∀ l : List (Addr × Nat), (∀ x ∈ l, x.2 ≠ 0 → e.restricted x.1 = false) → shareOf l u = 0 := by
          intro l hl
          induction l with
          | nil => rfl
          | cons x l ih =>
            rw [Staking.shareOf_cons, ih (fun y hy => hl y (List.mem_cons_of_mem _ hy))]
            split
            · rename_i hx
              by_contra hne
              have := hl x List.mem_cons_self (by omega)
              rw [← hx, hu] at this
              cases this
            · rfl
        exact key _ hdl.free
      omega

/-- State of the whole after a history of migration steps. -/
def sysRun (σ : Sys) : List (Env × Call) → Sys
  | [] => σ
  | c :: t => sysRun (sysStep σ c.1 c.2) t

/-- C63, with the contract that receives the stakes: over any history of migration steps, for every user the stake
still kept by the treasury plus the weight in the staking contract is constant, and for every user and release time so
is the amount under claim. -/
theorem C63_system (σ : Sys) (hr : Staking.Reachable .token σ.st) (hd : σ.tr.dao = .token) (h : List (Env × Call)) :
    (∀ u, kept (sysRun σ h) u + Staking.queryWeight (sysRun σ h).st u = kept σ u + Staking.queryWeight σ.st u) ∧
    (∀ u r, claimShare u r (owedTokens (sysRun σ h).tr) + stakingShare u r (sysRun σ h).st =
      claimShare u r (owedTokens σ.tr) + stakingShare u r σ.st) := by
  induction h generalizing σ with
  | nil => exact ⟨fun _ => rfl, fun _ _ => rfl⟩
  | cons c h ih =>
    obtain ⟨a1, a2, a3, a4, _⟩ := sysStep_share hr hd c.1 c.2
    obtain ⟨b1, b2⟩ := ih (sysStep σ c.1 c.2) a1 a2
    exact ⟨fun u => (b1 u).trans (a3 u), fun u r => (b2 u r).trans (a4 u r)⟩

theorem sysStep_stage (σ : Sys) (e : Env) (c : Call) (hd : DoneOk σ.tr) : DoneOk (sysStep σ e c).tr := by
  rcases sysStep_cases σ e c with h | ⟨outs, h1, h2⟩
  · rw [h]; exact hd
  · have := step_doneOk σ.tr { c with delivered := true } hd
    unfold step at this
    simp only [h1, if_true] at this
    exact this

theorem sysRun_done (h : List (Env × Call)) : ∀ (σ : Sys), Staking.Reachable .token σ.st → σ.tr.dao = .token →
    DoneOk σ.tr → (sysRun σ h).tr.dao = .token ∧ DoneOk (sysRun σ h).tr := by
  induction h with
  | nil => exact fun σ _ h1 h2 => ⟨h1, h2⟩
  | cons c h ih =>
    intro σ hr hd hdone
    obtain ⟨a1, a2, _⟩ := sysStep_share hr hd c.1 c.2
    exact ih (sysStep σ c.1 c.2) a1 a2 (sysStep_stage σ c.1 c.2 hdone)

/-- C115: once the migration of a token DAO says completed, every user's weight in a staking contract where
nobody had staked is the stake that the treasury kept, and for every user and release time so is the amount under
claim. -/
theorem C115_arrived_token (σ : Sys) (hr : Staking.Reachable .token σ.st) (hd : σ.tr.dao = .token)
    (hs : σ.tr.stage = .inProgress) (h0 : ∀ u, Staking.queryWeight σ.st u = 0)
    (hc0 : ∀ i, σ.st.claims.get i = none) (h : List (Env × Call)) (hdone : (sysRun σ h).tr.stage = .completed) :
    (∀ u, Staking.queryWeight (sysRun σ h).st u = (σ.tr.stakes.get u).getD 0) ∧
    (∀ u r, stakingShare u r (sysRun σ h).st = claimShare u r (owedTokens σ.tr)) := by
  obtain ⟨a1, a2⟩ := sysRun_done h σ hr hd (fun hx => by rw [hs] at hx; cases hx)
  obtain ⟨b1, b2⟩ := C63_system σ hr hd h
  obtain ⟨e1, e2⟩ := (a2 hdone).1 a1
  refine ⟨fun u => ?_, fun u r => ?_⟩
  · have := b1 u
    have hk : kept (sysRun σ h) u = 0 := by
      unfold kept
      show (lookupL u (sysRun σ h).tr.stakes.entries).getD 0 = 0
      rw [e1]; rfl
    rw [hk, h0 u] at this
    unfold kept at this
    omega
  · have := b2 u r
    have hempc : σ.st.claims = Map.empty := Map.ext_get (fun t => by rw [hc0 t]; rfl)
    have hz : stakingShare u r σ.st = 0 := by
      unfold stakingShare
      rw [hempc]; rfl
    have hw : owedTokens (sysRun σ h).tr = [] := by
      unfold owedTokens
      rw [e2]; rfl
    rw [hz, hw] at this
    have hn : claimShare u r [] = 0 := rfl
    omega

/-! ### The migration of a token DAO completes -/

theorem token_shape {gas : Nat} {s s' : State} {l : Option Nat} {outs : List Out} (hd : s.dao = .token)
    (h : performSafe gas s l = .ok (s', outs)) : ∃ b c, outs = stakesMsg (b.map (·.2)).sum b ++ claimsMsg (amounts c) c ∧
      b ++ s'.stakes.entries = s.stakes.entries ∧ c ++ owedTokens s' = owedTokens s := by
  unfold performSafe at h
  split at h
  · cases h
  · obtain ⟨⟨s1, o, n⟩, k, h⟩ := bind_ok_iff.1 h
    cases h
    rw [hd] at k ⊢
    unfold finalize at k
    rw [hd] at k
    obtain ⟨⟨a, o1, n1⟩, k1, k⟩ := bind_ok_iff.1 k
    obtain ⟨⟨b, o2, n2⟩, k2, k⟩ := bind_ok_iff.1 k
    cases k
    obtain ⟨i1, i2, i3, ⟨i4, i5, i6, i7, i8⟩, i9, i10⟩ := moveStakes_ok k1
    obtain ⟨m, c, rfl, j2, j3, j4, j5, j6, j7⟩ := moveClaims_ok k2
    refine ⟨s.stakes.entries.take (limitOf .token l), c, by rw [i10, j2]; rfl, ?_, ?_⟩
    · show _ ++ a.stakes.entries = _
      rw [i2, List.take_append_drop]
    · show c ++ flat m.entries = flat s.claims.entries
      rw [j5, i5]

theorem migratable_step {gas : Nat} {s s' : State} {l : Option Nat} {outs : List Out} (hm : Migratable s)
    (h : performSafe gas s l = .ok (s', outs)) : Migratable s' := by
  obtain ⟨n, he, _⟩ := performSafe_ok h
  obtain ⟨b, c, _, h2, h3⟩ := token_shape hm.token h
  refine ⟨he.dao.trans hm.token, by rw [he.membership]; exact hm.membership,
    he.onlyTokens (by rw [hm.token]; simp) hm.claims, ?_, ?_⟩
  · have := hm.stakes
    rw [← h2, List.map_append, List.sum_append] at this
    omega
  · have := hm.owed
    rw [← h3, List.map_append, List.sum_append] at this
    omega

/-- A treasury and a staking contract ready for the migration of a token DAO: amounts and the counter of claims fit. -/
structure ReadyToken (σ : Sys) : Prop where
  reach : Staking.Reachable .token σ.st
  treasury : Migratable σ.tr
  total : Staking.queryTotal σ.st .never + (σ.tr.stakes.entries.map (·.2)).sum < 2 ^ 128
  ids : σ.st.nextClaim + (owedTokens σ.tr).length < 2 ^ 64

theorem token_ready_step {σ : Sys} (hr : ReadyToken σ) {e : Env} {c : Call} (hd : c.delivered = true)
    {s' : State} {outs : List Out} (hf : ∀ x ∈ σ.tr.stakes.entries, x ∉ s'.stakes.entries → e.restricted x.1 = false)
    (hp : perform c.gas σ.tr c.limit = .ok (s', outs)) :
    (sysStep σ e c).tr = s' ∧ ReadyToken (sysStep σ e c) := by
  obtain ⟨r1, r2, r3, r4⟩ := hr
  have hs := (perform_safe hp).1
  obtain ⟨b, l, h1, h2, h3⟩ := token_shape r2.token hs
  have hsum : (b.map (·.2)).sum + (s'.stakes.entries.map (·.2)).sum = (σ.tr.stakes.entries.map (·.2)).sum := by
    rw [← h2, List.map_append, List.sum_append]
  have hlen : l.length + (owedTokens s').length = (owedTokens σ.tr).length := by rw [← h3, List.length_append]
  have hamt : amounts l < 2 ^ 128 := by
    have h := r2.owed
    rw [← h3, List.map_append, List.sum_append] at h
    have : amounts l = (l.map (·.amount)).sum := rfl
    omega
  have hfree : ∀ x ∈ b, x.2 ≠ 0 → e.restricted x.1 = false := by
    intro x hx _
    refine hf x (by rw [← h2]; exact List.mem_append_left _ hx) (fun hx' => ?_)
    have hs := σ.tr.stakes.sorted
    rw [← h2] at hs
    exact lt_irrefl _ ((List.pairwise_append.1 hs).2.2 x hx x hx')
  -- the stakes arrive
  have hst : ∃ z, deliver e σ.st (stakesMsg (b.map (·.2)).sum b) = .ok z ∧
      Staking.queryTotal z .never = Staking.queryTotal σ.st .never + (b.map (·.2)).sum ∧ z.nextClaim = σ.st.nextClaim := by
    unfold stakesMsg
    split
    · rename_i h0
      exact ⟨σ.st, rfl, by omega, rfl⟩
    · obtain ⟨a1, a2⟩ := Staking.C22_add_stakes r1 { e with sender := σ.st.asset } (b.map (·.2)).sum b
      obtain ⟨r, hx⟩ := a1.2 ⟨rfl, rfl, hfree, by omega⟩
      obtain ⟨_, b2, _, b4⟩ := a2 r hx
      refine ⟨r.1, ?_, b2, b4⟩
      unfold deliver
      rw [foldlM_cons_ok_iff]
      exact ⟨r.1, bind_ok_iff.2 ⟨r, hx, rfl⟩, by rw [foldlM_nil_ok_iff]⟩
  obtain ⟨z, z1, z2, z3⟩ := hst
  have zr := (deliver_ok _ r1 z1).reach
  have hcl : ∃ y, deliver e z (claimsMsg (amounts l) l) = .ok y ∧
      Staking.queryTotal y .never = Staking.queryTotal z .never ∧ y.nextClaim ≤ z.nextClaim + l.length := by
    unfold claimsMsg
    split
    · exact ⟨z, rfl, rfl, by omega⟩
    · obtain ⟨a1, a2⟩ := Staking.C22_add_claims zr { e with sender := z.asset } (amounts l) hamt l
      obtain ⟨r, hx⟩ := a1.2 ⟨rfl, rfl, Or.inr (by omega)⟩
      obtain ⟨b1, b2, _⟩ := a2 r hx
      refine ⟨r.1, ?_, ?_, by omega⟩
      · unfold deliver
        rw [foldlM_cons_ok_iff]
        exact ⟨r.1, bind_ok_iff.2 ⟨r, hx, rfl⟩, by rw [foldlM_nil_ok_iff]⟩
      · show r.1.mem.total = z.mem.total
        rw [b1]
  obtain ⟨y, y1, y2, y3⟩ := hcl
  have hy : deliver e σ.st outs = .ok y := by
    unfold deliver at z1 y1 ⊢
    rw [h1, List.foldlM_append]
    exact bind_ok_iff.2 ⟨z, z1, y1⟩
  have hstep : sysStep σ e c = ⟨s', y⟩ := by
    unfold sysStep
    rw [hp]
    simp only
    rw [hy]
    simp [hd]
  rw [hstep]
  refine ⟨rfl, (deliver_ok outs r1 hy).reach, migratable_step r2 hs, ?_, ?_⟩
  · simp only
    omega
  · simp only
    omega

/-- C115, progress of a token DAO: with nobody restricted who has a stake, any sequence of migration steps with positive
batch sizes (and enough gas) completes once the batch sizes add up to more than the number of stakes and claims: the
staking contract takes every message. -/
theorem C115_completes_token (h : List (Env × Call)) : ∀ (σ : Sys), ReadyToken σ →
    σ.tr.stage = .inProgress → itemsLeft σ.tr < (h.map (fun c => c.2.limit.getD 100)).sum →
    (∀ c ∈ h, c.2.delivered = true ∧ 0 < c.2.limit.getD 100 ∧ σ.tr.claims.entries.length < c.2.gas ∧
      ∀ u w, σ.tr.stakes.get u = some w → c.1.restricted u = false) →
    ∃ k, (sysRun σ (h.take k)).tr.stage = .completed := by
  have lim : ∀ l : Option Nat, l.getD 100 = limitOf .token l := fun _ => rfl
  simp only [lim]
  induction h with
  | nil => intro σ _ _ hs; simp at hs
  | cons c h ih =>
    intro σ hr hst hsum hc
    obtain ⟨c1, c2, c3, c4⟩ := hc c List.mem_cons_self
    obtain ⟨⟨s', outs⟩, hp⟩ := perform_exists hr.treasury c3 c.2.limit hst
    obtain ⟨e1, e2⟩ := token_ready_step hr c1 (fun x hx _ => c4 x.1 x.2 (Map.get_eq_some_iff.2 hx)) hp
    have hs := (perform_safe hp).1
    obtain ⟨n, he, g4⟩ := performSafe_ok hs
    obtain ⟨b, l, _, h2, _⟩ := token_shape hr.treasury.token hs
    have hi := he.items hr.treasury.token
    have hlen := claims_length hr.treasury.token hs
    rw [hr.treasury.token] at g4
    by_cases hn : n < limitOf .token c.2.limit
    · rw [if_pos hn] at g4
      exact ⟨1, by show (sysStep σ c.1 c.2).tr.stage = _; rw [e1, g4]⟩
    · rw [if_neg hn] at g4
      rw [List.map_cons, List.sum_cons] at hsum
      obtain ⟨k, hk⟩ := ih (sysStep σ c.1 c.2) e2 (by rw [e1, g4]) (by
          rw [e1]
          unfold itemsLeft at hsum ⊢
          omega) (by
        intro x hx
        obtain ⟨a1, a2, a3, a4⟩ := hc x (List.mem_cons_of_mem _ hx)
        rw [e1]
        refine ⟨a1, a2, by omega, fun u w hu => a4 u w ?_⟩
        rw [Map.get_eq_some_iff, ← h2]
        exact List.mem_append_right _ (Map.get_eq_some_iff.1 hu))
      exact ⟨k + 1, hk⟩

/-- Finding: while a user with a stake is restricted (has not signed the DAO's attestation), the migration cannot be
completed, whatever the steps: the staking contract refuses every batch with that user. -/
theorem C63_blocked_by_restricted (σ : Sys) (hr : Staking.Reachable .token σ.st) (hd : σ.tr.dao = .token)
    (hs : σ.tr.stage = .inProgress) (u : Addr) (hu : 0 < kept σ u) (h : List (Env × Call))
    (hres : ∀ c ∈ h, c.1.restricted u = true) :
    kept (sysRun σ h) u = kept σ u ∧ (sysRun σ h).tr.stage ≠ .completed := by
  have key : ∀ (h : List (Env × Call)) (σ : Sys), Staking.Reachable .token σ.st → σ.tr.dao = .token → DoneOk σ.tr →
      0 < kept σ u → (∀ c ∈ h, c.1.restricted u = true) →
      kept (sysRun σ h) u = kept σ u ∧ (sysRun σ h).tr.stage ≠ .completed := by
    intro h
    induction h with
    | nil =>
      intro σ _ hd hdone hu _
      refine ⟨rfl, fun hc => ?_⟩
      obtain ⟨h1, _⟩ := (hdone hc).1 hd
      unfold kept at hu
      have : σ.tr.stakes.get u = none := by
        show lookupL u σ.tr.stakes.entries = none
        rw [h1]
        rfl
      rw [this] at hu
      simp at hu
    | cons c h ih =>
      intro σ hr hd hdone hu hres
      obtain ⟨a1, a2, a3, a4, a5⟩ := sysStep_share hr hd c.1 c.2
      have hk := a5 u (hres c List.mem_cons_self)
      obtain ⟨b1, b2⟩ := ih (sysStep σ c.1 c.2) a1 a2 (sysStep_stage σ c.1 c.2 hdone) (by omega)
        (fun x hx => hres x (List.mem_cons_of_mem _ hx))
      exact ⟨b1.trans hk, b2⟩
  exact key h σ hr hd (fun hc => by rw [hs] at hc; cases hc) hu hres

/-- Hypotheses met: the sample DAO with a new staking contract; all stakes and claims arrive. -/
example :
    let st := Staking.init ⟨5, 50⟩ 12 (.height 100) [] [] []
    let e : Env := ⟨⟨7, 70⟩, 0, 9, fun _ => false⟩
    let σ : Sys := ⟨smpToken, st⟩
    let σ' := sysRun σ [(e, ⟨some 3, 9, true⟩), (e, ⟨some 3, 9, true⟩)]
    σ'.tr.stage = .completed ∧ Staking.queryWeight σ'.st 1 = 10 ∧ Staking.queryWeight σ'.st 2 = 20 ∧
    stakingShare 4 (.timestamp 4) σ'.st = 7 := by
  decide +kernel

/-- Hypotheses of `C115_completes_token` met by the sample. -/
example : ReadyToken ⟨smpToken, Staking.init ⟨5, 50⟩ 12 (.height 100) [] [] []⟩ ∧
    itemsLeft smpToken < [some 3, some 3].foldr (fun l n => l.getD 100 + n) 0 :=
  ⟨⟨⟨_, _, _, _, _, _, [], rfl⟩, smpToken_ready.1, by decide +kernel, by decide +kernel⟩, by decide +kernel⟩

/-- Hypotheses of the finding met: user 2 is restricted; the migration stays in progress. -/
example :
    let st := Staking.init ⟨5, 50⟩ 12 (.height 100) [] [] []
    let e : Env := ⟨⟨7, 70⟩, 0, 9, fun u => u == 2⟩
    let σ : Sys := ⟨smpToken, st⟩
    0 < kept σ 2 ∧ (sysRun σ [(e, ⟨some 3, 9, true⟩), (e, ⟨some 1, 9, true⟩)]).tr.stage = .inProgress := by
  decide +kernel

end Verif.Migration
