import Verif.Migration.System
import Verif.Nft.Props2

set_option linter.unusedSimpArgs false

/-!
# Migration of an NFT DAO together with the NFT staking contract that receives it
-/

namespace Verif.Migration
open Verif
open Verif.Staking (ReleaseAt)

/-- The treasury and the membership contract of an NFT DAO. -/
structure NSys where
  tr : State
  st : Nft.State

/-- Delivery of one message, migration.rs 327-336 and 368-383: the collection `coll` moves the NFT and calls `ReceiveNft`
of the staking contract (nft-staking-impl/src/execute.rs 26-66). The token messages are not for this contract. -/
def deliverNft (coll : Addr) (e : Nft.NEnv) (st : Nft.State) : Out → Except Err Nft.State
  | .stakeNft t u => do
    let r ← Nft.exec st { e with env := { e.env with sender := coll } } (.receiveNft t (.stake u))
    return r.1
  | .addNftClaim t u d => do
    let r ← Nft.exec st { e with env := { e.env with sender := coll } } (.receiveNft t (.addClaim u d))
    return r.1
  | _ => .error .unsupported

/-- Delivery of the messages of a migration step, in order. -/
def deliverNfts (coll : Addr) (e : Nft.NEnv) (st : Nft.State) (outs : List Out) : Except Err Nft.State :=
  outs.foldlM (deliverNft coll e) st

/-- A migration step of the whole: `c.delivered` says whether the NFT transfers and the hooks called by the staking
contract succeed. Any failure reverts everything. -/
def nsysStep (coll : Addr) (σ : NSys) (e : Nft.NEnv) (c : Call) : NSys :=
  match perform c.gas σ.tr c.limit with
  | .error _ => σ
  | .ok (s', outs) =>
    match deliverNfts coll e σ.st outs with
    | .error _ => σ
    | .ok st' => if c.delivered then ⟨s', st'⟩ else σ

/-- State of the whole after a history of migration steps. -/
def nsysRun (coll : Addr) (σ : NSys) : List (Nft.NEnv × Call) → NSys
  | [] => σ
  | c :: t => nsysRun coll (nsysStep coll σ c.1 c.2) t

/-- How often NFT `t` is under claim by `u` with release `r` in the staking contract. -/
def nftClaimsOf (st : Nft.State) (u : Addr) (t : Nat) (r : ReleaseAt) : Nat :=
  st.claims.sum (fun _ c => if c.user = u ∧ c.release = r then c.nfts.count t else 0)

/-- Number of NFTs staked by `u` that the treasury still keeps. -/
def keptNfts (s : State) (u : Addr) : Nat := (s.nftStakes.entries.filter (fun e => decide (e.2 = u))).length

theorem nft_exec_reachable {st : Nft.State} (hr : Nft.Reachable st) {e : Nft.NEnv} {m : Nft.Msg}
    {r : Nft.State × List Verif.Out} (h : Nft.exec st e m = .ok r) : Nft.Reachable r.1 := by
  have := Nft.reachable_step hr ⟨e, m, true⟩
  unfold Nft.step at this
  simp only [h, if_true] at this
  exact this

/-- Effect of a delivery. -/
structure NftDelivered (e : Nft.NEnv) (st st' : Nft.State) (outs : List Out) : Prop where
  reach : Nft.Reachable st'
  staked : ∀ t u, st'.stakes.get t = some u ↔ st.stakes.get t = some u ∨ (t, u) ∈ outs.flatMap nftsIn
  weight : ∀ u, Nft.queryWeight st' u = Nft.queryWeight st u + nftCount (outs.flatMap nftsIn) u
  claims : ∀ u t r, nftClaimsOf st' u t r = nftClaimsOf st u t r + (outs.flatMap nftClaimsIn).count (u, t, r)
  free : ∀ x ∈ outs.flatMap nftsIn, e.env.restricted x.2 = false

theorem deliverNfts_ok {coll : Addr} {e : Nft.NEnv} : ∀ (outs : List Out) {st st' : Nft.State}, Nft.Reachable st →
    deliverNfts coll e st outs = .ok st' → NftDelivered e st st' outs
  | [], st, st', hr, h => by
    unfold deliverNfts at h
    rw [foldlM_nil_ok_iff] at h
    subst h
    exact ⟨hr, by simp, fun _ => rfl, fun _ _ _ => rfl, by simp⟩
  | o :: outs, st, st', hr, h => by
    unfold deliverNfts at h
    rw [foldlM_cons_ok_iff] at h
    obtain ⟨z, h1, h2⟩ := h
    have hz : NftDelivered e st z [o] := by
      cases o with
      | stakeNft t u =>
        obtain ⟨r, k1, k2⟩ := bind_ok_iff.1 h1
        cases k2
        obtain ⟨a1, a2⟩ := Nft.C79_nft_stake hr { e with env := { e.env with sender := coll } } t u
        obtain ⟨b1, b2, b3, b4, b5, b6, _⟩ := a2 r k1
        obtain ⟨c1, c2, c3, c4⟩ := a1.1 ⟨r, k1⟩
        refine ⟨nft_exec_reachable hr k1, ?_, ?_, ?_, ?_⟩
        · intro t' u'
          by_cases ht : t' = t
          · subst ht
            rw [b1, c3]
            simp [nftsIn, eq_comm]
          · rw [b2 t' ht]
            simp [nftsIn, ht]
        · intro v
          by_cases hv : v = u
          · subst hv
            rw [b3]; simp [nftsIn, nftCount]
          · rw [b4 v hv]; simp [nftsIn, nftCount, Ne.symm hv]
        · intro u' t' r'
          unfold nftClaimsOf
          rw [b6]
          simp [nftClaimsIn]
        · intro x hx
          simp [nftsIn] at hx
          subst hx
          exact c2
      | addNftClaim t u d =>
        obtain ⟨r, k1, k2⟩ := bind_ok_iff.1 h1
        cases k2
        have k1' := k1
        simp only [Nft.exec] at k1'
        obtain ⟨g1, ⟨u', g2, _⟩ | ⟨u', d', g2, g3⟩⟩ := Nft.receiveNft_ok_iff.1 k1'
        · cases g2
        cases g2
        obtain ⟨g4, g5⟩ := Nft.addNftClaim_ok_iff.1 g3
        refine ⟨nft_exec_reachable hr k1, ?_, ?_, ?_, ?_⟩
        · intro t' u'
          rw [g5]
          simp [nftsIn]
        · intro v
          rw [g5]
          simp [nftsIn, nftCount]
          rfl
        · intro u' t' r'
          have hs := st.claims.sum_set (fun _ c => if c.user = u' ∧ c.release = r' then c.nfts.count t' else 0)
            st.nextClaim ⟨st.nextClaim, u, [t], d⟩
          rw [hr.inv.fresh, Map.contrib_none, Nat.add_zero] at hs
          unfold nftClaimsOf
          rw [g5]
          simp only
          rw [hs]
          congr 1
          simp only [List.flatMap_cons, List.flatMap_nil, nftClaimsIn, List.append_nil, List.count_singleton, beq_iff_eq,
            Prod.mk.injEq]
          by_cases hu : u = u' <;> by_cases hd : d = r' <;> by_cases ht : t = t' <;> simp [hu, hd, ht]
        · simp [nftsIn]
      | addStakes n l => cases h1
      | addClaims n l => cases h1
    have hrec := deliverNfts_ok outs hz.reach h2
    have hsplit : ∀ {A : Type} (f : Out → List A), (o :: outs).flatMap f = [o].flatMap f ++ outs.flatMap f := by
      intro A f; simp
    refine ⟨hrec.reach, ?_, ?_, ?_, ?_⟩
    · intro t u
      rw [hrec.staked, hz.staked, hsplit, List.mem_append, or_assoc]
    · intro u
      rw [hrec.weight, hz.weight, hsplit, nftCount_append]
      omega
    · intro u t r
      rw [hrec.claims, hz.claims, hsplit nftClaimsIn, List.count_append]
      omega
    · intro x hx
      rw [hsplit, List.mem_append] at hx
      rcases hx with hx | hx
      · exact hz.free x hx
      · exact hrec.free x hx

theorem nsysStep_cases (coll : Addr) (σ : NSys) (e : Nft.NEnv) (c : Call) : nsysStep coll σ e c = σ ∨
    ∃ outs, perform c.gas σ.tr c.limit = .ok ((nsysStep coll σ e c).tr, outs) ∧
      deliverNfts coll e σ.st outs = .ok (nsysStep coll σ e c).st := by
  unfold nsysStep
  cases h : perform c.gas σ.tr c.limit with
  | error x => exact Or.inl rfl
  | ok r =>
    obtain ⟨s', outs⟩ := r
    simp only
    cases hd : deliverNfts coll e σ.st outs with
    | error x => exact Or.inl rfl
    | ok st' =>
      cases hc : c.delivered with
      | false => exact Or.inl (by simp)
      | true => exact Or.inr ⟨outs, by simp, by simpa using hd⟩

theorem nsysStep_share {coll : Addr} {σ : NSys} (hr : Nft.Reachable σ.st) (hd : σ.tr.dao = .nft) (e : Nft.NEnv) (c : Call) :
    Nft.Reachable (nsysStep coll σ e c).st ∧ (nsysStep coll σ e c).tr.dao = .nft ∧
    (∀ t u, (nsysStep coll σ e c).tr.nftStakes.get t = some u ∨ (nsysStep coll σ e c).st.stakes.get t = some u ↔
      σ.tr.nftStakes.get t = some u ∨ σ.st.stakes.get t = some u) ∧
    (∀ u, keptNfts (nsysStep coll σ e c).tr u + Nft.queryWeight (nsysStep coll σ e c).st u =
      keptNfts σ.tr u + Nft.queryWeight σ.st u) ∧
    (∀ u t r, (owedNfts (nsysStep coll σ e c).tr).count (u, t, r) + nftClaimsOf (nsysStep coll σ e c).st u t r =
      (owedNfts σ.tr).count (u, t, r) + nftClaimsOf σ.st u t r) ∧
    (∀ u, e.env.restricted u = true → keptNfts (nsysStep coll σ e c).tr u = keptNfts σ.tr u) ∧
    (DoneOk σ.tr → DoneOk (nsysStep coll σ e c).tr) := by
  rcases nsysStep_cases coll σ e c with h | ⟨outs, h1, h2⟩
  · rw [h]
    exact ⟨hr, hd, fun _ _ => Iff.rfl, fun _ => rfl, fun _ _ _ => rfl, fun _ _ => rfl, id⟩
  · generalize nsysStep coll σ e c = σ' at h1 h2
    obtain ⟨n, he, _⟩ := performSafe_ok (perform_safe h1).1
    have hdl := deliverNfts_ok outs hr h2
    have hk : ∀ u, nftCount (outs.flatMap nftsIn) u + keptNfts σ'.tr u = keptNfts σ.tr u := by
      intro u
      have a := congrArg (fun l => nftCount l u) he.nfts
      simp only [nftCount_append] at a
      exact a
    refine ⟨hdl.reach, he.dao.trans hd, ?_, ?_, ?_, ?_, ?_⟩
    · intro t u
      rw [hdl.staked, Map.get_eq_some_iff, Map.get_eq_some_iff, Map.get_eq_some_iff, ← he.nfts, List.mem_append]
      tauto
    · intro u
      rw [hdl.weight, ← hk]
      omega
    · intro u t r
      have a := congrArg (List.count (u, t, r)) (he.nftClaims hd)
      rw [List.count_append] at a
      rw [hdl.claims]
      omega
    · intro u hu
      have : nftCount (outs.flatMap nftsIn) u = 0 := by
        unfold nftCount
        rw [List.length_eq_zero_iff, List.filter_eq_nil_iff]
        intro x hx hxu
        have := hdl.free x hx
        rw [of_decide_eq_true hxu, hu] at this
        cases this
      have := hk u
      omega
    · intro hdone
      have := step_doneOk σ.tr { c with delivered := true } hdone
      unfold step at this
      simp only [h1, if_true] at this
      exact this

/-- C115, with the NFT staking contract that receives the NFTs. Over any history of migration steps: an NFT is staked by
a user, in the treasury or in the staking contract, exactly when it was before; for every user the NFTs still kept by the
treasury plus the weight in the staking contract is constant; and so is, for every user, NFT and release time, the number
of claims. -/
theorem C115_system_nft (coll : Addr) (σ : NSys) (hr : Nft.Reachable σ.st) (hd : σ.tr.dao = .nft)
    (h : List (Nft.NEnv × Call)) :
    let σ' := nsysRun coll σ h
    (∀ t u, σ'.tr.nftStakes.get t = some u ∨ σ'.st.stakes.get t = some u ↔
      σ.tr.nftStakes.get t = some u ∨ σ.st.stakes.get t = some u) ∧
    (∀ u, keptNfts σ'.tr u + Nft.queryWeight σ'.st u = keptNfts σ.tr u + Nft.queryWeight σ.st u) ∧
    (∀ u t r, (owedNfts σ'.tr).count (u, t, r) + nftClaimsOf σ'.st u t r =
      (owedNfts σ.tr).count (u, t, r) + nftClaimsOf σ.st u t r) := by
  induction h generalizing σ with
  | nil => exact ⟨fun _ _ => Iff.rfl, fun _ => rfl, fun _ _ _ => rfl⟩
  | cons c h ih =>
    obtain ⟨a1, a2, a3, a4, a5, _⟩ := nsysStep_share (coll := coll) hr hd c.1 c.2
    obtain ⟨b1, b2, b3⟩ := ih (nsysStep coll σ c.1 c.2) a1 a2
    exact ⟨fun t u => (b1 t u).trans (a3 t u), fun u => (b2 u).trans (a4 u), fun u t r => (b3 u t r).trans (a5 u t r)⟩

theorem nsysRun_rest (coll : Addr) (h : List (Nft.NEnv × Call)) : ∀ (σ : NSys), Nft.Reachable σ.st → σ.tr.dao = .nft →
    DoneOk σ.tr → (nsysRun coll σ h).tr.dao = .nft ∧ DoneOk (nsysRun coll σ h).tr ∧
      ∀ u, (∀ c ∈ h, c.1.env.restricted u = true) → keptNfts (nsysRun coll σ h).tr u = keptNfts σ.tr u := by
  induction h with
  | nil => exact fun σ _ h1 h2 => ⟨h1, h2, fun _ _ => rfl⟩
  | cons c h ih =>
    intro σ hr hd hdone
    obtain ⟨a1, a2, _, _, _, a6, a7⟩ := nsysStep_share (coll := coll) hr hd c.1 c.2
    obtain ⟨b1, b2, b3⟩ := ih (nsysStep coll σ c.1 c.2) a1 a2 (a7 hdone)
    exact ⟨b1, b2, fun u hu => (b3 u (fun x hx => hu x (List.mem_cons_of_mem _ hx))).trans (a6 u (hu c List.mem_cons_self))⟩

/-- C115: once the migration of an NFT DAO says completed, every NFT staked with the treasury is staked by the
same user in a staking contract that was empty, the weights there count them, and every NFT under claim is claimed there
by the same user with the same release time. -/
theorem C115_arrived_nft (coll : Addr) (σ : NSys) (hr : Nft.Reachable σ.st) (hd : σ.tr.dao = .nft)
    (hs : σ.tr.stage = .inProgress) (h0 : ∀ t, σ.st.stakes.get t = none) (hc0 : ∀ i, σ.st.claims.get i = none)
    (h : List (Nft.NEnv × Call)) (hdone : (nsysRun coll σ h).tr.stage = .completed) :
    let st := (nsysRun coll σ h).st
    (∀ t, st.stakes.get t = σ.tr.nftStakes.get t) ∧ (∀ u, Nft.queryWeight st u = keptNfts σ.tr u) ∧
    (∀ u t r, nftClaimsOf st u t r = (owedNfts σ.tr).count (u, t, r)) := by
  obtain ⟨a1, a2, _⟩ := nsysRun_rest coll h σ hr hd (fun hx => by rw [hs] at hx; cases hx)
  obtain ⟨b1, b2, b3⟩ := C115_system_nft coll σ hr hd h
  obtain ⟨e1, e2⟩ := (a2 hdone).2 a1
  have hget : ∀ t, (nsysRun coll σ h).tr.nftStakes.get t = none := by
    intro t
    show lookupL t (nsysRun coll σ h).tr.nftStakes.entries = none
    rw [e1]; rfl
  have hemp : σ.st.stakes = Map.empty := Map.ext_get (fun t => by rw [h0 t]; rfl)
  have hempc : σ.st.claims = Map.empty := Map.ext_get (fun t => by rw [hc0 t]; rfl)
  refine ⟨fun t => ?_, fun u => ?_, fun u t r => ?_⟩
  · have key : ∀ u, (nsysRun coll σ h).st.stakes.get t = some u ↔ σ.tr.nftStakes.get t = some u := by
      intro u
      have := b1 t u
      rw [hget t, h0 t] at this
      simpa using this
    cases hx : σ.tr.nftStakes.get t with
    | some u => exact (key u).2 hx
    | none =>
      cases hy : (nsysRun coll σ h).st.stakes.get t with
      | none => rfl
      | some u => rw [(key u).1 hy] at hx; cases hx
  · have := b2 u
    have hw := (Nft.C28_weight_counts hr).1 u
    unfold keptNfts at this ⊢
    rw [e1] at this
    unfold Nft.stakedBy at hw
    rw [hemp] at hw
    have hz : Nft.queryWeight σ.st u = 0 := hw
    simpa [hz] using this
  · have := b3 u t r
    unfold owedNfts at this ⊢
    rw [e2] at this
    have hz : nftClaimsOf σ.st u t r = 0 := by
      unfold nftClaimsOf
      rw [hempc]
      rfl
    simpa [hz] using this

/-- Finding, for NFT DAOs: while a user with a staked NFT is restricted, the migration cannot be completed. -/
theorem C115_blocked_by_restricted_nft (coll : Addr) (σ : NSys) (hr : Nft.Reachable σ.st) (hd : σ.tr.dao = .nft)
    (hs : σ.tr.stage = .inProgress) (u : Addr) (hu : 0 < keptNfts σ.tr u) (h : List (Nft.NEnv × Call))
    (hres : ∀ c ∈ h, c.1.env.restricted u = true) :
    keptNfts (nsysRun coll σ h).tr u = keptNfts σ.tr u ∧ (nsysRun coll σ h).tr.stage ≠ .completed := by
  obtain ⟨a1, a2, a3⟩ := nsysRun_rest coll h σ hr hd (fun hx => by rw [hs] at hx; cases hx)
  refine ⟨a3 u hres, fun hc => ?_⟩
  obtain ⟨e1, _⟩ := (a2 hc).2 a1
  have := a3 u hres
  unfold keptNfts at this hu
  rw [e1] at this
  simp at this
  simp [this] at hu

/-! ### The migration of an NFT DAO completes -/

/-- A message for the NFT staking contract. -/
def Out.isNft : Out → Bool
  | .stakeNft _ _ => true
  | .addNftClaim _ _ _ => true
  | _ => false

theorem nft_outs {gas : Nat} {s s' : State} {l : Option Nat} {outs : List Out} (hd : s.dao = .nft)
    (h : performSafe gas s l = .ok (s', outs)) : ∀ o ∈ outs, o.isNft = true := by
  unfold performSafe at h
  split at h
  · cases h
  · obtain ⟨⟨s1, o, n⟩, k, h⟩ := bind_ok_iff.1 h
    cases h
    unfold finalize at k
    rw [hd] at k
    obtain ⟨⟨a, o1⟩, k1, k⟩ := bind_ok_iff.1 k
    obtain ⟨⟨b, o2⟩, k2, k⟩ := bind_ok_iff.1 k
    cases k
    obtain ⟨m, mg, rfl, i2, i3, i4⟩ := moveNfts_ok k1
    obtain ⟨m2, rfl, j2, j3, j4⟩ := moveNftClaims_ok k2
    intro o ho
    rcases List.mem_append.1 ho with ho | ho
    · rw [i4] at ho
      obtain ⟨e, _, rfl⟩ := List.mem_map.1 ho
      rfl
    · have := j4 o ho
      cases o <;> simp [Out.isNftClaim] at this
      rfl

/-- The staking contract can take these messages of the collection. -/
structure Takes (coll : Addr) (e : Nft.NEnv) (st : Nft.State) (outs : List Out) : Prop where
  kind : ∀ o ∈ outs, o.isNft = true
  nft : st.nft = .cw721 coll
  free : ∀ x ∈ outs.flatMap nftsIn, e.env.restricted x.2 = false
  new : ∀ x ∈ outs.flatMap nftsIn, st.stakes.get x.1 = none
  distinct : ((outs.flatMap nftsIn).map (·.1)).Nodup
  total : Nft.queryTotal st .never + (outs.flatMap nftsIn).length < 2 ^ 128
  ids : st.nextClaim + (outs.flatMap nftClaimsIn).length < 2 ^ 64

theorem deliverNfts_exists {coll : Addr} {e : Nft.NEnv} : ∀ (outs : List Out) {st : Nft.State}, Nft.Reachable st →
    Takes coll e st outs → ∃ st', deliverNfts coll e st outs = .ok st' ∧ st'.nft = .cw721 coll ∧
      Nft.queryTotal st' .never = Nft.queryTotal st .never + (outs.flatMap nftsIn).length ∧
      st'.nextClaim = st.nextClaim + (outs.flatMap nftClaimsIn).length
  | [], st, _, ht => ⟨st, rfl, ht.nft, rfl, rfl⟩
  | .addStakes n l :: outs, st, _, ht => by have := ht.kind _ List.mem_cons_self; cases this
  | .addClaims n l :: outs, st, _, ht => by have := ht.kind _ List.mem_cons_self; cases this
  | .stakeNft t u :: outs, st, hr, ht => by
    obtain ⟨t1, t2, t3, t4, t5, t6, t7⟩ := ht
    simp only [List.flatMap_cons, nftsIn, nftClaimsIn, List.singleton_append, List.nil_append, List.length_cons,
      List.map_cons, List.nodup_cons, List.mem_cons, forall_eq_or_imp] at t3 t4 t5 t6 t7
    obtain ⟨a1, a2⟩ := Nft.C79_nft_stake hr { e with env := { e.env with sender := coll } } t u
    obtain ⟨r, hx⟩ := a1.2 ⟨Or.inl t2, t3.1, t4.1, by omega⟩
    obtain ⟨b1, b2, b3, b4, b5, b6, b7, b8, b9, b10⟩ := a2 r hx
    obtain ⟨st', c1, c2, c3, c4⟩ := deliverNfts_exists (coll := coll) (e := e) outs (nft_exec_reachable hr hx)
      ⟨fun o ho => t1 o (List.mem_cons_of_mem _ ho), b10, t3.2, fun x hxm => by
        rw [b2 x.1 (fun hxt => t5.1 (List.mem_map.2 ⟨x, hxm, hxt⟩))]
        exact t4.2 x hxm, t5.2, by rw [b5]; omega, by rw [b7]; omega⟩
    refine ⟨st', ?_, c2, ?_, ?_⟩
    · unfold deliverNfts
      rw [foldlM_cons_ok_iff]
      exact ⟨r.1, bind_ok_iff.2 ⟨r, hx, rfl⟩, c1⟩
    · rw [c3, b5]
      simp only [List.flatMap_cons, nftsIn, List.singleton_append, List.length_cons]
      omega
    · rw [c4, b7]
      simp only [List.flatMap_cons, nftClaimsIn, List.nil_append]
  | .addNftClaim t u d :: outs, st, hr, ht => by
    obtain ⟨t1, t2, t3, t4, t5, t6, t7⟩ := ht
    simp only [List.flatMap_cons, nftsIn, nftClaimsIn, List.singleton_append, List.nil_append, List.length_cons] at t3 t4 t5 t6 t7
    have hx : Nft.exec st { e with env := { e.env with sender := coll } } (.receiveNft t (.addClaim u d)) =
        .ok ({ st with nft := .cw721 coll, nextClaim := st.nextClaim + 1,
                       claims := st.claims.set st.nextClaim ⟨st.nextClaim, u, [t], d⟩ }, []) := by
      simp only [Nft.exec]
      refine Nft.receiveNft_ok_iff.2 ⟨Nft.isNft_iff.1 (Or.inl t2), Or.inr ⟨u, d, rfl, ?_⟩⟩
      exact Nft.addNftClaim_ok_iff.2 ⟨by simp only [M64]; omega, rfl⟩
    obtain ⟨st', c1, c2, c3, c4⟩ := deliverNfts_exists (coll := coll) (e := e) outs (nft_exec_reachable hr hx)
      ⟨fun o ho => t1 o (List.mem_cons_of_mem _ ho), rfl, t3, t4, t5, t6, by simp only; omega⟩
    refine ⟨st', ?_, c2, ?_, ?_⟩
    · unfold deliverNfts
      rw [foldlM_cons_ok_iff]
      exact ⟨_, bind_ok_iff.2 ⟨_, hx, rfl⟩, c1⟩
    · rw [c3]
      simp only [List.flatMap_cons, nftsIn, List.nil_append]
      rfl
    · rw [c4]
      simp only [List.flatMap_cons, nftClaimsIn, List.singleton_append, List.length_cons]
      omega

/-- A treasury and a staking contract ready for the migration: the collection is known to the staking contract, no NFT
kept by the treasury is staked there, and the counters fit. -/
structure ReadyNft (coll : Addr) (σ : NSys) : Prop where
  reach : Nft.Reachable σ.st
  treasury : NftMigratable σ.tr
  coll : σ.st.nft = .cw721 coll
  new : ∀ t u, σ.tr.nftStakes.get t = some u → σ.st.stakes.get t = none
  total : Nft.queryTotal σ.st .never + σ.tr.nftStakes.entries.length < 2 ^ 128
  ids : σ.st.nextClaim + (owedNfts σ.tr).length < 2 ^ 64

theorem ready_step {coll : Addr} {σ : NSys} (hr : ReadyNft coll σ) {e : Nft.NEnv} {c : Call} (hd : c.delivered = true)
    {s' : State} {outs : List Out}
    (hf : ∀ t u, σ.tr.nftStakes.get t = some u → (t, u) ∉ s'.nftStakes.entries → e.env.restricted u = false)
    (hp : perform c.gas σ.tr c.limit = .ok (s', outs)) :
    (nsysStep coll σ e c).tr = s' ∧ ReadyNft coll (nsysStep coll σ e c) := by
  obtain ⟨r1, r2, r3, r4, r5, r6⟩ := hr
  have hs := (perform_safe hp).1
  obtain ⟨n, he, _⟩ := performSafe_ok hs
  have hsub : ∀ x ∈ outs.flatMap nftsIn, σ.tr.nftStakes.get x.1 = some x.2 := by
    intro x hx
    rw [Map.get_eq_some_iff, ← he.nfts]
    exact List.mem_append_left _ hx
  have hlen := congrArg List.length he.nfts
  have hlen2 := congrArg List.length (he.nftClaims r2.nft)
  rw [List.length_append] at hlen hlen2
  have hnd : (((outs.flatMap nftsIn) ++ s'.nftStakes.entries).map (·.1)).Nodup := by
    rw [he.nfts]; exact σ.tr.nftStakes.nodup_keys
  rw [List.map_append] at hnd
  obtain ⟨st', d1, d2, d3, d4⟩ := deliverNfts_exists (coll := coll) (e := e) outs r1
    ⟨nft_outs r2.nft hs, r3, fun x hx => hf x.1 x.2 (hsub x hx) (fun hn =>
        (List.nodup_append.1 hnd).2.2 x.1 (List.mem_map.2 ⟨x, hx, rfl⟩) x.1 (List.mem_map.2 ⟨_, hn, rfl⟩) rfl), fun x hx => r4 x.1 x.2 (hsub x hx),
      (List.nodup_append.1 hnd).1, by omega, by omega⟩
  have hstep : nsysStep coll σ e c = ⟨s', st'⟩ := by
    unfold nsysStep
    rw [hp]
    simp only
    rw [d1]
    simp [hd]
  have hdl := deliverNfts_ok outs r1 d1
  rw [hstep]
  refine ⟨rfl, hdl.reach, (nft_step r2 hs).1, d2, ?_, ?_, ?_⟩
  · intro t u ht
    simp only at ht ⊢
    have hmem := Map.get_eq_some_iff.1 ht
    cases hx : st'.stakes.get t with
    | none => rfl
    | some v =>
      exfalso
      rcases (hdl.staked t v).1 hx with h | h
      · have hσ : σ.tr.nftStakes.get t = some u := by
          rw [Map.get_eq_some_iff, ← he.nfts]
          exact List.mem_append_right _ hmem
        rw [r4 t u hσ] at h
        cases h
      · exact (List.nodup_append.1 hnd).2.2 t (List.mem_map.2 ⟨_, h, rfl⟩) t (List.mem_map.2 ⟨_, hmem, rfl⟩) rfl
  · simp only
    rw [d3]
    omega
  · simp only
    rw [d4]
    omega

/-- C115, progress of an NFT DAO: with nobody restricted who has staked, any sequence of migration steps with positive
batch sizes (and enough gas) completes once the batch sizes add up to more than the number of NFTs staked and under claim:
the staking contract takes every message. -/
theorem C115_completes_nft (coll : Addr) (h : List (Nft.NEnv × Call)) : ∀ (σ : NSys), ReadyNft coll σ →
    σ.tr.stage = .inProgress → nftsLeft σ.tr < (h.map (fun c => c.2.limit.getD 20)).sum →
    (∀ c ∈ h, c.2.delivered = true ∧ 0 < c.2.limit.getD 20 ∧ σ.tr.claims.entries.length < c.2.gas ∧
      ∀ t u, σ.tr.nftStakes.get t = some u → c.1.env.restricted u = false) →
    ∃ k, (nsysRun coll σ (h.take k)).tr.stage = .completed := by
  have lim : ∀ l : Option Nat, l.getD 20 = limitOf .nft l := fun _ => rfl
  simp only [lim]
  induction h with
  | nil => intro σ _ _ hs; simp at hs
  | cons c h ih =>
    intro σ hr hst hsum hc
    obtain ⟨c1, c2, c3, c4⟩ := hc c List.mem_cons_self
    obtain ⟨⟨s', outs⟩, hp⟩ := perform_nft_exists hr.treasury c3 c.2.limit hst
    obtain ⟨e1, e2⟩ := ready_step hr c1 (fun t u ht _ => c4 t u ht) hp
    obtain ⟨g1, g2, n, g3, g4⟩ := nft_step hr.treasury (perform_safe hp).1
    obtain ⟨n', he, _⟩ := performSafe_ok (perform_safe hp).1
    by_cases hn : n < limitOf .nft c.2.limit
    · rw [if_pos hn] at g4
      exact ⟨1, by show (nsysStep coll σ c.1 c.2).tr.stage = _; rw [e1, g4]⟩
    · rw [if_neg hn] at g4
      rw [List.map_cons, List.sum_cons] at hsum
      obtain ⟨k, hk⟩ := ih (nsysStep coll σ c.1 c.2) e2 (by rw [e1, g4]) (by rw [e1]; omega) (by
        intro x hx
        obtain ⟨a1, a2, a3, a4⟩ := hc x (List.mem_cons_of_mem _ hx)
        rw [e1]
        refine ⟨a1, a2, by omega, fun t u ht => a4 t u ?_⟩
        rw [Map.get_eq_some_iff, ← he.nfts]
        exact List.mem_append_right _ (Map.get_eq_some_iff.1 ht))
      exact ⟨k + 1, hk⟩

/-- Hypotheses met: the sample NFT DAO with a new staking contract; all NFTs arrive. -/
example :
    let st := Nft.init ⟨5, 50⟩ (.cw721 12) (.height 100) [] [] []
    let e : Nft.NEnv := ⟨⟨⟨7, 70⟩, 0, 9, fun _ => false⟩, none⟩
    let σ : NSys := ⟨smpNft, st⟩
    let σ' := nsysRun 12 σ [(e, ⟨some 2, 9, true⟩), (e, ⟨some 2, 9, true⟩), (e, ⟨some 2, 9, true⟩)]
    σ'.tr.stage = .completed ∧ Nft.queryWeight σ'.st 10 = 2 ∧ σ'.st.stakes.get 2 = some 20 ∧
    nftClaimsOf σ'.st 3 8 (.height 9) = 1 := by
  decide +kernel

/-- Hypotheses of `C115_completes_nft` met by the sample. -/
example : ReadyNft 12 ⟨smpNft, Nft.init ⟨5, 50⟩ (.cw721 12) (.height 100) [] [] []⟩ ∧
    nftsLeft smpNft < [some 2, some 2, some 2].foldr (fun l n => l.getD 20 + n) 0 :=
  ⟨⟨⟨_, _, _, _, _, _, [], rfl⟩,
    ⟨rfl, by decide, fun _ => (show 0 + smpNft.nftStakes.entries.length < 2 ^ 128 by decide +kernel)⟩, rfl,
    fun _ _ _ => rfl, by decide +kernel, by decide +kernel⟩, by decide +kernel⟩

/-- Hypotheses of the finding met: user 20 is restricted; the migration stays in progress. -/
example :
    let st := Nft.init ⟨5, 50⟩ (.cw721 12) (.height 100) [] [] []
    let e : Nft.NEnv := ⟨⟨⟨7, 70⟩, 0, 9, fun u => u == 20⟩, none⟩
    let σ : NSys := ⟨smpNft, st⟩
    0 < keptNfts σ.tr 20 ∧ (nsysRun 12 σ [(e, ⟨some 2, 9, true⟩), (e, ⟨some 1, 9, true⟩)]).tr.stage = .inProgress := by
  decide +kernel

end Verif.Migration
