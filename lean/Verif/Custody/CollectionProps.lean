import Verif.Custody.Collection

set_option linter.unusedSimpArgs false

/-!
# NFT staking with the owners of the tokens and the ICS721 callback proxy: properties C85 and C86
-/

namespace Verif.Custody.Collection
open Verif Verif.Nft
open Verif.Staking (Fits Elapsed)

/-! ## Sample -/

/-- Sample: staking contract 3 for the collection 5, callback proxy 20 that listens to the ICS721 proxy 4. -/
def smpParams : Params := ⟨3, 5, 20, Callback.init 4⟩

/-- Sample start: users 1 and 2 have tokens, and the callback proxy has just received three. -/
def smpStart : World :=
  ⟨smpInit, (((((Map.empty.set 101 1).set 102 1).set 103 2).set 201 20).set 202 20).set 203 20⟩

/-- Sample history: stakes by transfer and by callback, tries that must fail, a stray transfer, an unstake. -/
def smpOps : List Op :=
  [.send 1 101 (.stake 1) (smpEnv 11 1) true, .send 1 102 (.stake 1) (smpEnv 11 1) true,
   .send 1 103 (.stake 1) (smpEnv 11 1) true, .callback ⟨5, [201, 202], .stake 2 3⟩ (smpEnv 12 4) true,
   .callback ⟨5, [203], .stake 1 3⟩ (smpEnv 12 1) true, .callback ⟨5, [203, 101], .stake 1 3⟩ (smpEnv 12 4) true,
   .callback ⟨5, [203], .unknown⟩ (smpEnv 12 4) true, .transfer 2 3 103,
   .call (smpEnv 13 1) (.unstake [101, 102]) true]

theorem smp_reach (n : Nat) : Reach smpParams (run smpParams smpStart (smpOps.take n)) :=
  ⟨by decide, smpStart, _, ⟨_, _, _, _, _, _, rfl, .inr ⟨4, rfl⟩⟩, rfl⟩

theorem recv_ok {s : State} {e : NEnv} {t : Nat} {h : Hook} {r : State × List Out}
    (hr : Nft.exec s e (.receiveNft t h) = .ok r) : nftContract s e.proxyNft = some e.env.sender ∧
      ((∃ u, h = .stake u ∧ stakeNft { s with nft := .cw721 e.env.sender } e.env t u = .ok r) ∨
       (∃ u d, h = .addClaim u d ∧ addNftClaim { s with nft := .cw721 e.env.sender } t u d = .ok r)) :=
  receiveNft_ok_iff.1 hr

/-! ## C85 -/

/-- C85: whatever happens, the staking contract owns every token that is staked or in a claim, and owes it once only. -/
theorem C85_held {p : Params} {w : World} (h : Reach p w) :
    (∀ t u, w.st.stakes.get t = some u → w.own.get t = some p.me) ∧
    (∀ i c t, w.st.claims.get i = some c → t ∈ c.nfts → w.own.get t = some p.me) ∧
    (∀ i c t u, w.st.claims.get i = some c → t ∈ c.nfts → w.st.stakes.get t ≠ some u) ∧
    (∀ i c, w.st.claims.get i = some c → c.nfts.Nodup) ∧
    (∀ i j c d t, w.st.claims.get i = some c → w.st.claims.get j = some d → t ∈ c.nfts → t ∈ d.nfts → i = j) := by
  have hi := h.inv
  have hle : ∀ t, owed w.st t ≤ 1 := fun t => le_trans (hi.owed t) (by unfold held; split <;> omega)
  have hheld : ∀ t, 0 < owed w.st t → w.own.get t = some p.me := by
    intro t ht
    have := hi.owed t
    unfold held at this
    by_contra hn
    rw [if_neg hn] at this
    omega
  have hclaim : ∀ i c t, w.st.claims.get i = some c →
      c.nfts.count t ≤ w.st.claims.sum (fun _ c => c.nfts.count t) :=
    fun i c t hc => Map.le_sum (fun _ (c : Claim) => c.nfts.count t) hc
  refine ⟨?_, ?_, ?_, ?_, ?_⟩
  · intro t u hs
    apply hheld
    unfold owed
    rw [if_pos (Map.has_iff.2 ⟨u, hs⟩)]
    omega
  · intro i c t hc ht
    apply hheld
    have := hclaim i c t hc
    have := List.count_pos_iff.2 ht
    unfold owed
    omega
  · intro i c t u hc ht hs
    have h1 := hle t
    have := hclaim i c t hc
    have := List.count_pos_iff.2 ht
    unfold owed at h1
    rw [if_pos (Map.has_iff.2 ⟨u, hs⟩)] at h1
    omega
  · intro i c hc
    rw [List.nodup_iff_count]
    intro t
    have h1 := hle t
    have := hclaim i c t hc
    unfold owed at h1
    omega
  · intro i j c d t hc hd h1 h2
    by_contra hij
    have hlt := hle t
    unfold owed at hlt
    have hr := Map.sum_remove w.st.claims (fun _ (c : Claim) => c.nfts.count t) i
    rw [hc, Map.contrib_some] at hr
    have hd' : (w.st.claims.remove i).get j = some d := by rw [Map.get_remove, if_neg hij]; exact hd
    have := Map.le_sum (fun _ (c : Claim) => c.nfts.count t) hd'
    have := List.count_pos_iff.2 h1
    have := List.count_pos_iff.2 h2
    omega

example : (run smpParams smpStart smpOps).st.stakes.get 201 = some 2 ∧
    (run smpParams smpStart smpOps).own.get 201 = some 3 ∧ (run smpParams smpStart smpOps).own.get 203 = some 20 ∧
    (run smpParams smpStart smpOps).st.stakes.get 103 = none ∧ (run smpParams smpStart smpOps).own.get 103 = some 3 ∧
    ((run smpParams smpStart smpOps).st.claims.get 0).map (·.nfts) = some [101, 102] := by decide +kernel

/-- C85: while any claim holds a token, the claim message of any user goes through: every token of the user's due claims
becomes the user's, all other tokens stay where they are, and exactly the user's due claims are gone. -/
theorem C85_claim_delivered {p : Params} {w : World} (h : Reach p w) (e : NEnv) (hme : e.env.sender ≠ p.me)
    (hcoll : e.env.sender ≠ p.coll) {i : Nat} {c : Claim} {t : Nat} (hc : w.st.claims.get i = some c)
    (ht : t ∈ c.nfts) :
    ∃ w', exec p w (.call e (.claim none) true) = .ok w' ∧
      (∀ j d x, w.st.claims.get j = some d → Due e.env.sender e.env.block d → x ∈ d.nfts →
        w'.own.get x = some e.env.sender) ∧
      (∀ x, (∀ j d, w.st.claims.get j = some d → Due e.env.sender e.env.block d → x ∉ d.nfts) →
        w'.own.get x = w.own.get x) ∧
      (∀ j d, w.st.claims.get j = some d → Due e.env.sender e.env.block d → w'.st.claims.get j = none) ∧
      (∀ j d, w.st.claims.get j = some d → ¬ Due e.env.sender e.env.block d → w'.st.claims.get j = some d) ∧
      w'.st.stakes = w.st.stakes := by
  have hi := h.inv
  have hown : w.own.get t = some p.me := (C85_held h).2.1 i c t hc ht
  have hnft : w.st.nft = .cw721 p.coll := by
    rcases hi.coll with hn | ⟨_, h0⟩
    · exact hn
    · have h1 := h0 t
      have := Map.le_sum (fun _ (c : Claim) => c.nfts.count t) hc
      have := List.count_pos_iff.2 ht
      unfold owed at h1
      omega
  obtain ⟨hiff, heff⟩ := C30_claim hi.st (envOf p e e.env.sender) none
  obtain ⟨r, hr⟩ := hiff.2 ⟨⟨_, hnft⟩, .inl rfl⟩
  obtain ⟨_, _, h3, h4, _, h6, _⟩ := heff r hr
  have hL := (C81_nft_claims hi.st e.env.sender e.env.block).2.2.2.2 (envOf p e e.env.sender) r rfl rfl hr
  have hmem := (C81_nft_claims hi.st e.env.sender e.env.block).2.2.2.1
  generalize hLd : (getReleasable w.st e.env.block e.env.sender).flatMap (·.nfts) = L at hL
  have hin : ∀ x, x ∈ L ↔ ∃ j d, w.st.claims.get j = some d ∧ Due e.env.sender e.env.block d ∧ x ∈ d.nfts := by
    intro x
    rw [← hLd, List.mem_flatMap]
    constructor
    · rintro ⟨d, h1, h2⟩
      exact ⟨d.id, d, ((hmem d).1 h1).1, ((hmem d).1 h1).2, h2⟩
    · rintro ⟨j, d, h1, h2, h3⟩
      have := (hi.st.inv.ids j d h1).1
      exact ⟨d, (hmem d).2 ⟨by rw [this]; exact h1, h2⟩, h3⟩
  have hcnt : ∀ x, L.count x ≤ 1 := by
    intro x
    have h1 := (effect_exec hi.st.inv hr).owed x
    rw [hL, sentBack_sendNft] at h1
    have h2 := hi.owed x
    have h3 : held p w.own x ≤ 1 := by unfold held; split <;> omega
    have h4 : (Msg.claim none).arrives x = 0 := rfl
    omega
  obtain ⟨own', ho, hg⟩ := giveOut_sends (p := p) (u := e.env.sender) L w.own (List.nodup_iff_count.2 hcnt)
    (fun x hx => by
      obtain ⟨j, d, h1, _, h3⟩ := (hin x).1 hx
      exact (C85_held h).2.1 j d x h1 h3)
  refine ⟨⟨r.1, own'⟩, ?_, ?_, ?_, h3, h4, h6⟩
  · simp only [exec, ite_ok_iff, bind_ok_iff, pure_ok_iff, not_or]
    exact ⟨⟨hme, hcoll, by simp⟩, r, hr, own', by rw [hL]; exact ho, rfl⟩
  · intro j d x h1 h2 h3
    simp only
    rw [hg x, if_pos ((hin x).2 ⟨j, d, h1, h2, h3⟩)]
  · intro x hx
    simp only
    rw [hg x, if_neg (fun hh => ?_)]
    obtain ⟨j, d, h1, h2, h3⟩ := (hin x).1 hh
    exact hx j d h1 h2 h3

example : (run smpParams smpStart (smpOps ++ [.call (smpEnv 113 1) (.claim none) true])).own.get 102 = some 1 ∧
    (run smpParams smpStart (smpOps ++ [.call (smpEnv 113 1) (.claim none) true])).own.get 201 = some 3 := by
  decide +kernel

/-- A claim stays until its owner claims. -/
theorem claim_kept {s : State} (h : Nft.Reachable s) {e : NEnv} {m : Msg} {r : State × List Out}
    (hr : Nft.exec s e m = .ok r) {i : Nat} {c : Claim} (hg : s.claims.get i = some c)
    (hm : ∀ v, m = .claim v → e.env.sender ≠ c.user) : r.1.claims.get i = some c := by
  have hlt := (h.inv.ids i c hg).2
  cases m with
  | receiveNft tk hk =>
    obtain ⟨_, ⟨u, _, h6⟩ | ⟨u, d, _, h6⟩⟩ := receiveNft_ok_iff.1 hr
    · obtain ⟨_, _, _, _, rfl⟩ := stakeNft_ok_iff.1 h6; exact hg
    · obtain ⟨_, rfl⟩ := addNftClaim_ok_iff.1 h6
      simp only
      rw [Map.get_set_ne _ _ (by omega)]; exact hg
  | unstake l' =>
    obtain ⟨_, _, _, _, _, rfl⟩ := unstake_ok_iff.1 hr
    simp only
    rw [Map.get_set_ne _ _ (by omega)]; exact hg
  | claim u =>
    exact ((C30_claim h e u).2 r hr).2.2.2.1 i c hg (fun hd => hm u rfl hd.1.symm)
  | updateUnlocking p => obtain ⟨_, rfl⟩ := updateUnlocking_ok_iff.1 hr; exact hg
  | addHook a => rw [((C83_nft_edit s e a).2.2.1 r hr).2.2]; exact hg
  | removeHook a => rw [((C83_nft_edit s e a).2.2.2 r hr).2.2]; exact hg

/-- The operation is a claim by `u`. -/
def Op.claimsOf (u : Addr) : Op → Prop
  | .call e m _ => e.env.sender = u ∧ ∃ v, m = .claim v
  | _ => False

theorem kept_sendIn {p : Params} {w w' : World} (hi : Inv p w) {src : Addr} {t : Nat} {hk : Hook} {e : NEnv}
    (h : sendIn p w src t hk e = .ok w') {i : Nat} {c : Claim} (hg : w.st.claims.get i = some c) :
    w'.st.claims.get i = some c := by
  unfold sendIn at h
  simp only [bind_ok_iff, move_ok_iff, pure_ok_iff] at h
  obtain ⟨_, _, r, hr, _, _, rfl⟩ := h
  exact claim_kept hi.st hr hg (by intro v hv; cases hv)

theorem kept_delivers {p : Params} (hp : p.proxy ≠ p.me) {e : NEnv} (l : List Callback.SendNft) : ∀ {w w' : World},
    Inv p w → l.foldlM (deliver p e) w = .ok w' → ∀ {i : Nat} {c : Claim}, w.st.claims.get i = some c →
    w'.st.claims.get i = some c := by
  induction l with
  | nil => intro w w' _ h i c hg; rw [foldlM_nil_ok_iff] at h; subst h; exact hg
  | cons o t ih =>
    intro w w' hi h i c hg
    rw [foldlM_cons_ok_iff] at h
    obtain ⟨w1, h1, h2⟩ := h
    refine ih (inv_deliver hp hi h1) h2 ?_
    unfold deliver at h1
    split at h1
    · cases h1; exact hg
    · split at h1
      · exact kept_sendIn hi h1 hg
      · simp only [bind_ok_iff, pure_ok_iff] at h1
        obtain ⟨_, _, rfl⟩ := h1
        exact hg

/-- A claim stays until its owner claims, in the world with the owners. -/
theorem kept_run {p : Params} {w : World} (h : Reach p w) (l : List Op) {i : Nat} {c : Claim}
    (hg : w.st.claims.get i = some c) (hl : ∀ o ∈ l, ¬ o.claimsOf c.user) :
    (run p w l).st.claims.get i = some c := by
  induction l generalizing w with
  | nil => exact hg
  | cons o t ih =>
    refine ih (h.step o) ?_ (fun o' ho' => hl o' (List.mem_cons_of_mem _ ho'))
    rcases step_cases p w o with ⟨w', h1, h2⟩ | h2
    · rw [h2]
      have hi := h.inv
      cases o with
      | mint t dst =>
        simp only [exec, ite_ok_iff] at h1
        obtain ⟨_, h1⟩ := h1; cases h1; exact hg
      | burn src t =>
        simp only [exec, ite_ok_iff] at h1
        obtain ⟨_, h1⟩ := h1; cases h1; exact hg
      | transfer src dst t =>
        simp only [exec, ite_ok_iff, bind_ok_iff, pure_ok_iff] at h1
        obtain ⟨_, _, _, rfl⟩ := h1; exact hg
      | send src t hk e d =>
        simp only [exec, ite_ok_iff] at h1
        exact kept_sendIn hi h1.2 hg
      | call e m d =>
        simp only [exec, ite_ok_iff, bind_ok_iff, pure_ok_iff] at h1
        obtain ⟨_, r, hr, _, _, rfl⟩ := h1
        exact claim_kept hi.st hr hg (fun v hv hs => hl _ List.mem_cons_self ⟨hs, v, hv⟩)
      | callback m e d =>
        simp only [exec, ite_ok_iff, bind_ok_iff] at h1
        obtain ⟨_, _, _, h1⟩ := h1
        exact kept_delivers h.1 _ hi h1 hg
    · rw [h2]; exact hg

/-- C85, from stake to delivery: whoever staked tokens can unstake any of them, and after the unlocking period, whatever
others did in the meantime, a claim succeeds and makes them the staker's. -/
theorem C85_withdraw {p : Params} {w : World} (h : Reach p w) (e later : NEnv) (ts : List Nat) (l : List Op)
    (hme : e.env.sender ≠ p.me) (hcoll : e.env.sender ≠ p.coll) (hnd : ts.Nodup)
    (hst : ∀ t ∈ ts, w.st.stakes.get t = some e.env.sender) (hne : ts ≠ []) (hid : w.st.nextClaim + 1 < 2 ^ 64)
    (hf : Fits w.st.unlocking e.env.block) (hl : ∀ o ∈ l, ¬ o.claimsOf e.env.sender)
    (hs : later.env.sender = e.env.sender) (hel : Elapsed w.st.unlocking e.env.block later.env.block) :
    ∃ w1 w2, exec p w (.call e (.unstake ts) true) = .ok w1 ∧
      exec p (run p w1 l) (.call later (.claim none) true) = .ok w2 ∧
      ∀ t ∈ ts, (run p w1 l).own.get t = some p.me ∧ w2.own.get t = some e.env.sender := by
  have hi := h.inv
  obtain ⟨r, hr⟩ := (C30_unstake hi.st (envOf p e e.env.sender) ts).1.2 ⟨hnd, hst, hid⟩
  obtain ⟨c, hc, _, hu, hn, hd⟩ := C26_nft_waits hi.st (envOf p e e.env.sender) ts r hr hf later.env.block
  have hu : c.user = e.env.sender := hu
  have hout : giveOut p w.own r.2 = .ok w.own := by
    obtain ⟨_, _, _, _, _, rfl⟩ := unstake_ok_iff.1 hr
    exact giveOut_report _ _ _ _
  have hx : exec p w (.call e (.unstake ts) true) = .ok ⟨r.1, w.own⟩ := by
    simp only [exec, ite_ok_iff, bind_ok_iff, pure_ok_iff, not_or]
    exact ⟨⟨hme, hcoll, by simp⟩, r, hr, w.own, hout, rfl⟩
  have h1 : Reach p ⟨r.1, w.own⟩ := by
    have := h.step (.call e (.unstake ts) true)
    unfold step at this
    rw [hx] at this
    exact this
  have h2 : Reach p (run p ⟨r.1, w.own⟩ l) := h1.run l
  have hkept : (run p ⟨r.1, w.own⟩ l).st.claims.get w.st.nextClaim = some c :=
    kept_run h1 l hc (by rw [hu]; exact hl)
  have hdue : Due later.env.sender later.env.block c := by rw [hs]; exact hd.2 hel
  obtain ⟨t0, ht0⟩ := List.exists_mem_of_ne_nil ts hne
  obtain ⟨w2, hw2, hdel, _⟩ := C85_claim_delivered h2 later (by rw [hs]; exact hme) (by rw [hs]; exact hcoll) hkept
    (by rw [hn]; exact ht0)
  refine ⟨_, w2, hx, hw2, fun t ht => ⟨?_, ?_⟩⟩
  · exact (C85_held h2).2.1 _ c t hkept (by rw [hn]; exact ht)
  · rw [← hs]; exact hdel _ c t hkept hdue (by rw [hn]; exact ht)

example : (∀ t ∈ [101, 102], (run smpParams smpStart (smpOps.take 8)).st.stakes.get t = some 1) ∧
    Fits (run smpParams smpStart (smpOps.take 8)).st.unlocking (smpEnv 13 1).env.block ∧
    Elapsed (run smpParams smpStart (smpOps.take 8)).st.unlocking (smpEnv 13 1).env.block (smpEnv 113 1).env.block := by
  decide +kernel

/-- The contract of the collection is known to the staking contract, or the ICS721 proxy can name it. -/
def Known (w : World) (e : NEnv) : Prop := (∃ c, w.st.nft = .cw721 c) ∨ e.proxyNft ≠ none

theorem known_iff {p : Params} {w : World} (hi : Inv p w) (e : NEnv) (x : Addr) :
    nftContract w.st (envOf p e x).proxyNft = some p.coll ↔ Known w e := by
  unfold nftContract Known
  rcases hi.coll with hc | ⟨⟨q, hc⟩, _⟩
  · rw [hc]; simp
  · rw [hc]
    cases hp : e.proxyNft <;> simp [envOf, hp]

/-- C85: a token sent to be staked is taken exactly when the sender owns it, the user is not restricted, the collection
is known and the total fits; the sender's token is then the contract's, and staked for the user. -/
theorem C85_stake {p : Params} {w : World} (h : Reach p w) {src : Addr} (hsrc : src ≠ p.me) (t : Nat) (u : Addr)
    (e : NEnv) :
    ((∃ w', sendIn p w src t (.stake u) e = .ok w') ↔ w.own.get t = some src ∧ Known w e ∧
      e.env.restricted u = false ∧ queryTotal w.st .never + 1 < 2 ^ 128) ∧
    (∀ w', sendIn p w src t (.stake u) e = .ok w' →
      w'.own = w.own.set t p.me ∧ w'.st.stakes = w.st.stakes.set t u ∧ w'.st.claims = w.st.claims ∧
      queryWeight w'.st u = queryWeight w.st u + 1 ∧ (∀ v, v ≠ u → queryWeight w'.st v = queryWeight w.st v) ∧
      queryTotal w'.st .never = queryTotal w.st .never + 1 ∧ w'.st.nft = .cw721 p.coll) := by
  have hi := h.inv
  obtain ⟨hiff, heff⟩ := C79_nft_stake hi.st (envOf p e p.coll) t u
  have hout : ∀ r, Nft.exec w.st (envOf p e p.coll) (.receiveNft t (.stake u)) = .ok r → ∀ own,
      giveOut p own r.2 = .ok own := by
    intro r hr own
    obtain ⟨_, ⟨u', h5, h6⟩ | ⟨u', d, h5, h6⟩⟩ := recv_ok hr
    · obtain ⟨_, _, _, _, rfl⟩ := stakeNft_ok_iff.1 h6
      exact giveOut_report _ _ _ _
    · cases h5
  constructor
  · constructor
    · rintro ⟨w', hw⟩
      unfold sendIn at hw
      simp only [bind_ok_iff, move_ok_iff, pure_ok_iff] at hw
      obtain ⟨_, ⟨h0, rfl⟩, r, hr, _, _, rfl⟩ := hw
      obtain ⟨h1, h2, _, h4⟩ := hiff.1 ⟨r, hr⟩
      exact ⟨h0, (known_iff hi e p.coll).1 (Nft.isNft_iff.1 h1), h2, h4⟩
    · rintro ⟨h0, h1, h2, h3⟩
      have hns : w.st.stakes.get t = none := by
        cases hg : w.st.stakes.get t with
        | none => rfl
        | some v =>
          have := (C85_held h).1 t v hg
          rw [h0] at this
          exact absurd (Option.some.inj this) hsrc
      obtain ⟨r, hr⟩ := hiff.2 ⟨Nft.isNft_iff.2 ((known_iff hi e p.coll).2 h1), h2, hns, h3⟩
      refine ⟨⟨r.1, w.own.set t p.me⟩, ?_⟩
      unfold sendIn
      simp only [bind_ok_iff, move_ok_iff, pure_ok_iff]
      exact ⟨_, ⟨h0, rfl⟩, r, hr, _, hout r hr _, rfl⟩
  · intro w' hw
    unfold sendIn at hw
    simp only [bind_ok_iff, move_ok_iff, pure_ok_iff] at hw
    obtain ⟨_, ⟨h0, rfl⟩, r, hr, own2, h2, rfl⟩ := hw
    rw [hout r hr] at h2
    cases h2
    obtain ⟨e1, e2, e3, e4, e5, e6, _, _, _, e10⟩ := heff r hr
    refine ⟨rfl, Map.ext_get (fun t' => ?_), e6, e3, e4, e5, e10⟩
    rw [Map.get_set]
    by_cases ht : t = t'
    · subst ht; rw [if_pos rfl]; exact e1
    · rw [if_neg ht]; exact e2 t' (Ne.symm ht)

example : (exec smpParams smpStart (.send 1 101 (.stake 1) (smpEnv 11 1) true)).isOk = true ∧
    (exec smpParams smpStart (.send 1 103 (.stake 1) (smpEnv 11 1) true)).isOk = false := by decide +kernel

/-! ## C86 -/

/-- C86: the callback proxy acts only for the ICS721 proxy it was made for. -/
theorem C86_sender (c : Callback.Config) (sender : Addr) (m : Callback.Request) :
    (∃ r, Callback.exec c sender m = .ok r) ↔ sender = c.ics721Proxy := by
  unfold Callback.exec
  by_cases h : sender = c.ics721Proxy
  · simp only [h, ne_eq, not_true_eq_false, if_false, iff_true]
    cases m.msg with
    | stake u g => exact ⟨_, rfl⟩
    | unknown => exact ⟨_, rfl⟩
  · simp [h]

/-- C86: a stake request sends each token of the packet once, in order, to the named membership contract to be staked for
the named user; anything else sends nothing. -/
theorem C86_messages (c : Callback.Config) (sender : Addr) (m : Callback.Request)
    (r : Callback.Config × List Callback.SendNft) (hr : Callback.exec c sender m = .ok r) :
    (∀ user g, m.msg = .stake user g →
      r.2.map (·.token) = m.tokens ∧ ∀ o ∈ r.2, o.nftContract = m.nftContract ∧ o.contract = g ∧ o.user = user) ∧
    (m.msg = .unknown → r.2 = []) := by
  unfold Callback.exec at hr
  rw [ite_ok_iff] at hr
  obtain ⟨_, hr⟩ := hr
  constructor
  · intro user g hm
    rw [hm] at hr
    cases hr
    simp only [Callback.stakeNft]
    constructor
    · rw [List.map_map]
      exact List.map_id _
    · intro o ho
      obtain ⟨t, _, rfl⟩ := List.mem_map.1 ho
      exact ⟨rfl, rfl, rfl⟩
  · intro hm
    rw [hm] at hr
    cases hr
    rfl

/-- C86: the ICS721 proxy of a callback proxy never changes. -/
theorem C86_config_fixed (a : Addr) (l : List (Addr × Callback.Request)) :
    Callback.queryConfig (Callback.run (Callback.init a) l) = a := by
  have : ∀ (l : List (Addr × Callback.Request)) (c : Callback.Config), Callback.run c l = c := by
    intro l
    induction l with
    | nil => intro c; rfl
    | cons x t ih =>
      intro c
      unfold Callback.run
      cases hx : Callback.exec c x.1 x.2 with
      | error _ => exact ih c
      | ok r =>
        have : r.1 = c := by
          unfold Callback.exec at hx
          rw [ite_ok_iff] at hx
          obtain ⟨_, hx⟩ := hx
          split at hx <;> cases hx <;> rfl
        simp only [this]; exact ih c
  rw [this]
  rfl

example : (Callback.exec (Callback.init 4) 4 ⟨5, [201, 202], .stake 2 3⟩).toOption =
    some (⟨4⟩, [⟨5, 3, 201, 2⟩, ⟨5, 3, 202, 2⟩]) ∧
    (Callback.exec (Callback.init 4) 1 ⟨5, [201], .stake 2 3⟩).isOk = false := by decide +kernel

/-- All messages of a callback that stakes tokens. -/
theorem stake_all {p : Params} (u : Addr) (e : NEnv) : ∀ (ts : List Nat) {w : World}, Reach p w → p.proxy ≠ p.me →
    ((∃ w', (Callback.stakeNft ⟨p.coll, ts, .stake u p.me⟩ u p.me).foldlM (deliver p e) w = .ok w') ↔
      ts.Nodup ∧ (∀ t ∈ ts, w.own.get t = some p.proxy) ∧ (ts ≠ [] → Known w e ∧ e.env.restricted u = false) ∧
      (ts ≠ [] → queryTotal w.st .never + ts.length < 2 ^ 128)) ∧
    (∀ w', (Callback.stakeNft ⟨p.coll, ts, .stake u p.me⟩ u p.me).foldlM (deliver p e) w = .ok w' →
      (∀ t, w'.own.get t = if t ∈ ts then some p.me else w.own.get t) ∧
      (∀ t, w'.st.stakes.get t = if t ∈ ts then some u else w.st.stakes.get t) ∧
      w'.st.claims = w.st.claims ∧ queryWeight w'.st u = queryWeight w.st u + ts.length ∧
      (∀ v, v ≠ u → queryWeight w'.st v = queryWeight w.st v) ∧
      queryTotal w'.st .never = queryTotal w.st .never + ts.length) := by
  intro ts
  induction ts with
  | nil =>
    intro w h hp
    have hnil : Callback.stakeNft ⟨p.coll, [], .stake u p.me⟩ u p.me = [] := rfl
    rw [hnil]
    simp only [foldlM_nil_ok_iff]
    constructor
    · simp
    · rintro w' rfl
      simp
  | cons x ts ih =>
    intro w h hp
    have hcons : Callback.stakeNft ⟨p.coll, x :: ts, .stake u p.me⟩ u p.me =
        ⟨p.coll, p.me, x, u⟩ :: Callback.stakeNft ⟨p.coll, ts, .stake u p.me⟩ u p.me := rfl
    have hdel : ∀ w : World, deliver p e w ⟨p.coll, p.me, x, u⟩ = sendIn p w p.proxy x (.stake u) e := by
      intro w; unfold deliver; simp
    rw [hcons]
    simp only [foldlM_cons_ok_iff, hdel]
    obtain ⟨hiff, heff⟩ := C85_stake h hp x u e
    -- staking through the callback is the step of a reachable world
    have hreach : ∀ w1, sendIn p w p.proxy x (.stake u) e = .ok w1 → Reach p w1 := by
      intro w1 hw1
      have hx : exec p w (.callback ⟨p.coll, [x], .stake u p.me⟩
          ⟨{ e.env with sender := p.cfg.ics721Proxy }, e.proxyNft⟩ true) = .ok w1 := by
        simp only [exec, Bool.true_eq_false, if_false, bind_ok_iff]
        refine ⟨(p.cfg, [⟨p.coll, p.me, x, u⟩]), by simp [Callback.exec, Callback.stakeNft], ?_⟩
        rw [foldlM_cons_ok_iff]
        refine ⟨w1, ?_, foldlM_nil_ok_iff.2 rfl⟩
        have := hdel w
        unfold deliver at this ⊢
        simp only [ne_eq, not_true_eq_false, if_false, if_true] at this ⊢
        exact hw1
      have := h.step (.callback ⟨p.coll, [x], .stake u p.me⟩
          ⟨{ e.env with sender := p.cfg.ics721Proxy }, e.proxyNft⟩ true)
      unfold step at this
      rw [hx] at this
      exact this
    constructor
    · constructor
      · rintro ⟨w', w1, h1, h2⟩
        obtain ⟨a1, a2, a3, a4⟩ := hiff.1 ⟨w1, h1⟩
        obtain ⟨b1, b2, b3, b4, b5, b6, b7⟩ := heff w1 h1
        obtain ⟨c1, c2, c3, c4⟩ := (ih (hreach w1 h1) hp).1.1 ⟨w', h2⟩
        have hx : x ∉ ts := by
          intro hx
          have := c2 x hx
          rw [b1, Map.get_set_self] at this
          exact hp (Option.some.inj this).symm
        refine ⟨List.nodup_cons.2 ⟨hx, c1⟩, ?_, fun _ => ⟨a2, a3⟩, fun _ => ?_⟩
        · intro t ht
          rcases List.mem_cons.1 ht with rfl | ht
          · exact a1
          · have := c2 t ht
            rw [b1, Map.get_set_ne _ _ (by rintro rfl; exact hx ht)] at this
            exact this
        · cases ts with
          | nil => simp only [List.length_cons, List.length_nil]; omega
          | cons y l =>
            have := c4 (by simp)
            simp only [List.length_cons] at *
            omega
      · rintro ⟨h1, h2, h3, h4⟩
        obtain ⟨hx, h1⟩ := List.nodup_cons.1 h1
        have h4 := h4 (by simp)
        obtain ⟨h3, h3'⟩ := h3 (by simp)
        rw [List.length_cons] at h4
        obtain ⟨w1, hw1⟩ := hiff.2 ⟨h2 x List.mem_cons_self, h3, h3', by omega⟩
        obtain ⟨b1, b2, b3, b4, b5, b6, b7⟩ := heff w1 hw1
        obtain ⟨w', hw'⟩ := (ih (hreach w1 hw1) hp).1.2 ⟨h1, fun t ht => by
            rw [b1, Map.get_set_ne _ _ (by rintro rfl; exact hx ht)]
            exact h2 t (List.mem_cons_of_mem _ ht),
          fun _ => ⟨.inl ⟨_, b7⟩, h3'⟩, fun _ => by omega⟩
        exact ⟨w', w1, hw1, hw'⟩
    · rintro w' ⟨w1, h1, h2⟩
      obtain ⟨b1, b2, b3, b4, b5, b6, b7⟩ := heff w1 h1
      obtain ⟨c1, c2, c3, c4, c5, c6⟩ := (ih (hreach w1 h1) hp).2 w' h2
      refine ⟨fun t => ?_, fun t => ?_, by rw [c3, b3], ?_, fun v hv => by rw [c5 v hv, b5 v hv], ?_⟩
      · rw [c1 t, b1, Map.get_set]
        by_cases ht : t ∈ ts
        · rw [if_pos ht, if_pos (List.mem_cons_of_mem _ ht)]
        · rw [if_neg ht]
          by_cases hx : x = t
          · subst hx; simp
          · rw [if_neg hx, if_neg (by simp [ht, Ne.symm hx])]
      · rw [c2 t, b2, Map.get_set]
        by_cases ht : t ∈ ts
        · rw [if_pos ht, if_pos (List.mem_cons_of_mem _ ht)]
        · rw [if_neg ht]
          by_cases hx : x = t
          · subst hx; simp
          · rw [if_neg hx, if_neg (by simp [ht, Ne.symm hx])]
      · rw [c4, b4, List.length_cons]; omega
      · rw [c6, b6, List.length_cons]; omega

/-- C86, with the NFT contract and the staking contract: a packet of tokens to be staked is staked as a whole or not at
all. It is, exactly when the tokens are distinct and have arrived at the callback proxy, the collection is known, the
user is not restricted and the total fits. All of them are then the staking contract's and staked for the user, whose
weight grows by their number; nothing else changes. -/
theorem C86_packet_staked {p : Params} {w : World} (h : Reach p w) (ts : List Nat) (u : Addr) (e : NEnv)
    (hs : e.env.sender = p.cfg.ics721Proxy) (hne : ts ≠ []) :
    ((∃ w', exec p w (.callback ⟨p.coll, ts, .stake u p.me⟩ e true) = .ok w') ↔
      ts.Nodup ∧ (∀ t ∈ ts, w.own.get t = some p.proxy) ∧ Known w e ∧ e.env.restricted u = false ∧
      queryTotal w.st .never + ts.length < 2 ^ 128) ∧
    (∀ w', exec p w (.callback ⟨p.coll, ts, .stake u p.me⟩ e true) = .ok w' →
      (∀ t, w'.own.get t = if t ∈ ts then some p.me else w.own.get t) ∧
      (∀ t, w'.st.stakes.get t = if t ∈ ts then some u else w.st.stakes.get t) ∧
      w'.st.claims = w.st.claims ∧ queryWeight w'.st u = queryWeight w.st u + ts.length ∧
      (∀ v, v ≠ u → queryWeight w'.st v = queryWeight w.st v) ∧
      queryTotal w'.st .never = queryTotal w.st .never + ts.length) := by
  have hx : ∀ w', exec p w (.callback ⟨p.coll, ts, .stake u p.me⟩ e true) = .ok w' ↔
      (Callback.stakeNft ⟨p.coll, ts, .stake u p.me⟩ u p.me).foldlM (deliver p e) w = .ok w' := by
    intro w'
    simp only [exec, Bool.true_eq_false, if_false, bind_ok_iff]
    constructor
    · rintro ⟨r, hr, h2⟩
      simp only [Callback.exec, hs, ne_eq, not_true_eq_false, if_false] at hr
      cases hr
      exact h2
    · intro h2
      exact ⟨(p.cfg, Callback.stakeNft ⟨p.coll, ts, .stake u p.me⟩ u p.me), by simp [Callback.exec, hs], h2⟩
  simp only [hx]
  obtain ⟨h1, h2⟩ := stake_all u e ts h h.1
  refine ⟨h1.trans ?_, h2⟩
  constructor
  · rintro ⟨a, b, c, d⟩; exact ⟨a, b, (c hne).1, (c hne).2, d hne⟩
  · rintro ⟨a, b, c, d, f⟩; exact ⟨a, b, fun _ => ⟨c, d⟩, fun _ => f⟩

example : (exec smpParams smpStart (.callback ⟨5, [201, 202], .stake 2 3⟩ (smpEnv 12 4) true)).isOk = true ∧
    (exec smpParams smpStart (.callback ⟨5, [201, 101], .stake 2 3⟩ (smpEnv 12 4) true)).isOk = false := by
  decide +kernel

theorem proxy_delivers {p : Params} {e : NEnv} (l : List Callback.SendNft) : ∀ {w w' : World}, Inv p w →
    p.proxy ≠ p.me → l.foldlM (deliver p e) w = .ok w' → ∀ t, w.own.get t = some p.proxy →
    (∀ o ∈ l, o.nftContract = p.coll → o.token ≠ t) → w'.own.get t = some p.proxy := by
  induction l with
  | nil => intro w w' _ _ h t ht _; rw [foldlM_nil_ok_iff] at h; subst h; exact ht
  | cons o l ih =>
    intro w w' hi hp h t ht hl
    rw [foldlM_cons_ok_iff] at h
    obtain ⟨w1, h1, h2⟩ := h
    refine ih (inv_deliver hp hi h1) hp h2 t ?_ (fun o' ho' => hl o' (List.mem_cons_of_mem _ ho'))
    have ho := hl o List.mem_cons_self
    unfold deliver at h1
    by_cases hc : o.nftContract = p.coll
    · rw [if_neg (not_not.2 hc)] at h1
      have hne : o.token ≠ t := ho hc
      split at h1
      · unfold sendIn at h1
        simp only [bind_ok_iff, move_ok_iff, pure_ok_iff] at h1
        obtain ⟨_, ⟨_, rfl⟩, r, hr, own2, h3, rfl⟩ := h1
        have hsb : sentBack r.2 t = 0 := by
          obtain ⟨_, ⟨u', h5, h6⟩ | ⟨u', d, h5, h6⟩⟩ := recv_ok hr
          · obtain ⟨_, _, _, _, rfl⟩ := stakeNft_ok_iff.1 h6
            exact sentBack_report _ _ _
          · cases h5
        simp only
        rw [giveOut_keeps h3 t hsb, Map.get_set_ne _ _ hne]
        exact ht
      · simp only [bind_ok_iff, move_ok_iff, pure_ok_iff] at h1
        obtain ⟨_, ⟨_, rfl⟩, rfl⟩ := h1
        simp only
        rw [Map.get_set_ne _ _ hne]
        exact ht
    · rw [if_pos hc] at h1
      cases h1
      exact ht

/-- The operation is a stake request of the ICS721 proxy for token `t` of the collection. -/
def Op.requests (p : Params) (t : Nat) : Op → Prop
  | .callback m e _ => e.env.sender = p.cfg.ics721Proxy ∧ m.nftContract = p.coll ∧ t ∈ m.tokens ∧
      ∃ u g, m.msg = .stake u g
  | _ => False

/-- C86: a token that arrived at the callback proxy leaves it only by a stake request of the ICS721 proxy for this
token. One that arrived with a message the proxy does not understand stays there for good, as nobody else can move it. -/
theorem C86_stuck {p : Params} {w : World} (h : Reach p w) (t : Nat) (ht : w.own.get t = some p.proxy) (l : List Op)
    (hl : ∀ o ∈ l, ¬ o.requests p t) : (run p w l).own.get t = some p.proxy := by
  induction l generalizing w with
  | nil => exact ht
  | cons o l ih =>
    refine ih (h.step o) ?_ (fun o' ho' => hl o' (List.mem_cons_of_mem _ ho'))
    have ho := hl o List.mem_cons_self
    have hp := h.1
    have hi := h.inv
    rcases step_cases p w o with ⟨w', h1, h2⟩ | h2
    · rw [h2]
      cases o with
      | mint t' dst =>
        simp only [exec, ite_ok_iff] at h1
        obtain ⟨h1, h3⟩ := h1
        cases h3
        simp only
        rw [Map.get_set_ne _ _ (by rintro rfl; exact h1 (Map.has_iff.2 ⟨_, ht⟩))]
        exact ht
      | burn src t' =>
        simp only [exec, ite_ok_iff, not_or, Classical.not_not] at h1
        obtain ⟨⟨_, h1, h4⟩, h3⟩ := h1
        cases h3
        simp only
        rw [Map.get_remove, if_neg (by rintro rfl; rw [ht] at h4; exact h1 (Option.some.inj h4).symm)]
        exact ht
      | transfer src dst t' =>
        simp only [exec, ite_ok_iff, not_or, bind_ok_iff, move_ok_iff, pure_ok_iff] at h1
        obtain ⟨⟨_, h1⟩, _, ⟨h3, rfl⟩, rfl⟩ := h1
        simp only
        rw [Map.get_set_ne _ _ (by rintro rfl; rw [ht] at h3; exact h1 (Option.some.inj h3).symm)]
        exact ht
      | send src t' hk e d =>
        simp only [exec, ite_ok_iff, not_or] at h1
        obtain ⟨⟨_, h1, _⟩, h3⟩ := h1
        unfold sendIn at h3
        simp only [bind_ok_iff, move_ok_iff, pure_ok_iff] at h3
        obtain ⟨_, ⟨h0, rfl⟩, r, hr, own2, h4, rfl⟩ := h3
        have hsb : sentBack r.2 t = 0 := by
          obtain ⟨_, ⟨u', h5, h6⟩ | ⟨u', d, h5, h6⟩⟩ := recv_ok hr
          · obtain ⟨_, _, _, _, rfl⟩ := stakeNft_ok_iff.1 h6
            exact sentBack_report _ _ _
          · obtain ⟨_, rfl⟩ := addNftClaim_ok_iff.1 h6
            rfl
        simp only
        rw [giveOut_keeps h4 t hsb,
          Map.get_set_ne _ _ (by rintro rfl; rw [ht] at h0; exact h1 (Option.some.inj h0).symm)]
        exact ht
      | call e m d =>
        simp only [exec, ite_ok_iff, not_or, bind_ok_iff, pure_ok_iff] at h1
        obtain ⟨⟨_, h1, _⟩, r, hr, own, h3, rfl⟩ := h1
        have hsb : sentBack r.2 t = 0 := by
          have h4 := (effect_exec hi.st.inv hr).owed t
          have h5 := hi.owed t
          have h6 : held p w.own t = 0 := by
            unfold held
            rw [ht, if_neg (fun hh => hp (Option.some.inj hh))]
          have h7 : m.arrives t = 0 := by
            cases m with
            | receiveNft t' hk =>
              exfalso
              exact h1 (nftContract_envOf hi (receiveNft_ok_iff.1 hr).1)
            | _ => rfl
          omega
        simp only
        rw [giveOut_keeps h3 t hsb]
        exact ht
      | callback m e d =>
        simp only [exec, ite_ok_iff, bind_ok_iff] at h1
        obtain ⟨_, r, hr, h3⟩ := h1
        refine proxy_delivers _ hi hp h3 t ht (fun o' ho' hc hto => ho ?_)
        have hsnd := (C86_sender p.cfg e.env.sender m).1 ⟨r, hr⟩
        unfold Callback.exec at hr
        rw [ite_ok_iff] at hr
        obtain ⟨_, hr⟩ := hr
        cases hm : m.msg with
        | unknown => rw [hm] at hr; cases hr; cases ho'
        | stake u g =>
          rw [hm] at hr
          cases hr
          simp only [Callback.stakeNft] at ho'
          obtain ⟨t', ht', rfl⟩ := List.mem_map.1 ho'
          simp only at hc hto
          subst hto
          exact ⟨hsnd, hc, ht', u, g, hm⟩
    · rw [h2]; exact ht

example : (run smpParams smpStart smpOps).own.get 203 = some 20 := by decide +kernel

end Verif.Custody.Collection
