import Verif.Custody.Token

set_option linter.unusedSimpArgs false

/-!
# Token and denom staking with the ledger: property C84
-/

namespace Verif.Custody.Token
open Verif Verif.Staking

/-! ## Sample -/

/-- Sample contract: address 3, holding the token 5. -/
def smpParams : Params := ⟨.token, 3, false⟩

/-- Sample start: users 1 and 2 have 100 tokens each. -/
def smpStart : World := ⟨smpInit, (Map.empty.set 1 100).set 2 100⟩

/-- Sample history: both stake, one by way of a plain message that must fail; funds go astray; user 1 unstakes. -/
def smpOps : List Op :=
  [.send 1 60 (.stake 1) (smpEnv 11 1) true, .send 2 30 (.stake 2) (smpEnv 11 2) true,
   .send 2 500 (.stake 2) (smpEnv 11 2) true, .call (smpEnv 12 1) (.receive 40 (.stake 1)) true,
   .transfer 1 3 7, .call (smpEnv 13 1) (.unstake 50) true]

theorem smp_reach (n : Nat) : Reach smpParams (run smpParams smpStart (smpOps.take n)) :=
  ⟨smpStart, _, ⟨⟨_, _, _, _, _, _, rfl⟩, by decide +kernel⟩, rfl⟩

/-! ## C84 -/

/-- C84: whatever happens, the staking contract holds at least all stakes and all claims. -/
theorem C84_covered {p : Params} {w : World} (h : Reach p w) :
    queryTotal w.st .never + claimSum w.st ≤ w.led.bal p.me := by
  have hi := h.inv
  rw [C16_total_is_sum hi.st]
  exact hi.covered

example : queryTotal (run smpParams smpStart smpOps).st .never = 40 ∧ claimSum (run smpParams smpStart smpOps).st = 50 ∧
    (run smpParams smpStart smpOps).led.bal 3 = 97 ∧ (run smpParams smpStart smpOps).led.bal 1 = 33 := by decide +kernel

/-- C84: a claim of due funds always goes through, and the user receives the sum of the user's due claims. -/
theorem C84_claim_paid {p : Params} {w : World} (h : Reach p w) (e : Env) (hme : e.sender ≠ p.me)
    (htok : p.kind = .token → e.sender ≠ w.st.asset)
    (hdue : 0 < dueSum w.st e.sender e.block ∨ p.zeroOk = true) :
    ∃ w', exec p w (.call e (.claim none) true) = .ok w' ∧
      w'.led.bal e.sender = w.led.bal e.sender + dueSum w.st e.sender e.block ∧
      w'.led.bal p.me = w.led.bal p.me - dueSum w.st e.sender e.block ∧
      (∀ v, v ≠ e.sender → v ≠ p.me → w'.led.bal v = w.led.bal v) ∧
      (∀ i c, w.st.claims.get i = some c → Due e.sender e.block c → w'.st.claims.get i = none) ∧
      (∀ i c, w.st.claims.get i = some c → ¬ Due e.sender e.block c → w'.st.claims.get i = some c) := by
  have hi := h.inv
  have hle : dueSum w.st e.sender e.block ≤ claimSum w.st := by
    unfold dueSum claimSum
    refine Map.sum_le_sum (fun i c _ => ?_)
    split
    · exact le_refl _
    · exact Nat.zero_le _
  have hcov := hi.covered
  have hsup := w.led.bal_le_supply p.me
  have hs := hi.supply
  obtain ⟨⟨r, hr⟩, heff⟩ : (∃ r, Staking.exec p.kind w.st e (.claim none) = .ok r) ∧ _ :=
    ⟨(C19_claim hi.st e none).1.2 ⟨.inl rfl, by omega⟩, (C19_claim hi.st e none).2⟩
  obtain ⟨h1, h2, h3, _⟩ := heff r hr
  obtain ⟨l1, hl1⟩ : ∃ l1, w.led.transfer e.sender p.me 0 = .ok l1 :=
    ⟨_, (Ledger.transfer_ok_iff hs).2 ⟨Nat.zero_le _, rfl⟩⟩
  obtain ⟨_, e1, _, e3⟩ := Ledger.transfer_effect hl1
  obtain ⟨f1, f2, f3⟩ := e3 hme
  obtain ⟨l2, hl2⟩ : ∃ l2, l1.transfer p.me e.sender (dueSum w.st e.sender e.block) = .ok l2 :=
    ⟨_, (Ledger.transfer_ok_iff (by omega)).2 ⟨by omega, rfl⟩⟩
  obtain ⟨_, _, _, g3⟩ := Ledger.transfer_effect hl2
  obtain ⟨g1, g2, g3⟩ := g3 (fun hh => hme hh.symm)
  refine ⟨⟨r.1, l2⟩, ?_, ?_, ?_, ?_, h2, h3⟩
  · simp only [exec, ite_ok_iff, bind_ok_iff, pure_ok_iff, not_or]
    refine ⟨⟨hme, by simp, fun hh => htok hh.1 hh.2⟩, l1, hl1, r, hr, l2, ?_, rfl⟩
    rw [h1]
    unfold payOut
    have hno : ¬ (dueSum w.st e.sender e.block = 0 ∧ p.zeroOk = false) := by
      rintro ⟨hz, hf⟩
      rcases hdue with h | h
      · omega
      · rw [hf] at h; cases h
    rw [if_neg hno]
    rw [bind_ok_iff]
    exact ⟨l2, hl2, rfl⟩
  · simp only; omega
  · simp only; omega
  · intro v hv1 hv2
    simp only
    rw [g3 v hv2 hv1, f3 v hv1 hv2]

example : 0 < dueSum (run smpParams smpStart smpOps).st 1 ⟨200, 200 * 10 ^ 9⟩ ∧
    (run smpParams smpStart (smpOps ++ [.call (smpEnv 200 1) (.claim none) true])).led.bal 1 = 83 := by decide +kernel

/-- A claim stays until its owner claims. -/
theorem claim_kept {k : Kind} {s : State} (h : Staking.Reachable k s) {e : Env} {m : Msg} {r : State × List Out}
    (hr : Staking.exec k s e m = .ok r) {i : Nat} {c : Claim} (hg : s.claims.get i = some c)
    (hm : ∀ v, m = .claim v → e.sender ≠ c.user) : r.1.claims.get i = some c := by
  have hlt := (h.inv.ids i c hg).2
  cases m with
  | receive a hk =>
    simp only [Staking.exec] at hr
    split at hr
    · simp only [receive, ite_ok_iff] at hr
      obtain ⟨_, hr⟩ := hr
      cases hk with
      | stake u => obtain ⟨_, _, _, rfl⟩ := stakeFor_ok_iff.1 hr; exact hg
      | addStakes l => obtain ⟨_, _, _, mm, ch, rfl, _⟩ := addStakes_ok hr; exact hg
      | addClaims l =>
        obtain ⟨_, _, h6⟩ := addTokenClaims_ok hr
        have := (addClaims_loop l h6).2.2.2.2.1 i hlt
        simp only at this
        rw [this]; exact hg
      | unknown => cases hr
    · cases hr
  | stakeDenom f u =>
    simp only [Staking.exec] at hr
    split at hr
    · unfold stakeDenom at hr
      split at hr
      · rw [ite_ok_iff] at hr
        obtain ⟨_, _, _, rfl⟩ := stakeFor_ok_iff.1 hr.2; exact hg
      · cases hr
    · cases hr
  | unstake a =>
    obtain ⟨_, _, _, rfl⟩ := unstake_ok_iff.1 hr
    simp only
    rw [Map.get_set_ne _ _ (by omega)]; exact hg
  | claim u =>
    refine ((C19_claim h e u).2 r hr).2.2.1 i c hg (fun hd => ?_)
    exact hm u rfl hd.1.symm
  | updateUnlocking p => obtain ⟨_, rfl⟩ := updateUnlocking_ok_iff.1 hr; exact hg
  | addHook a => rw [((C83_edit k s e a).2.2.1 r hr).2.2]; exact hg
  | removeHook a => rw [((C83_edit k s e a).2.2.2 r hr).2.2]; exact hg

/-- The operation is a claim by `u`. -/
def Op.claimsOf (u : Addr) : Op → Prop
  | .call e m _ => e.sender = u ∧ ∃ v, m = .claim v
  | _ => False

/-- A claim stays until its owner claims, in the world with the ledger. -/
theorem kept_run {p : Params} {w : World} (h : Reach p w) (l : List Op) {i : Nat} {c : Claim}
    (hg : w.st.claims.get i = some c) (hl : ∀ o ∈ l, ¬ o.claimsOf c.user) :
    (run p w l).st.claims.get i = some c := by
  induction l generalizing w with
  | nil => exact hg
  | cons o t ih =>
    refine ih (h.step o) ?_ (fun o' ho' => hl o' (List.mem_cons_of_mem _ ho'))
    rcases step_cases p w o with ⟨w', h1, h2⟩ | h2
    · rw [h2]
      have hst := h.inv.st
      cases o with
      | mint dst a =>
        simp only [exec, bind_ok_iff, pure_ok_iff] at h1
        obtain ⟨_, _, rfl⟩ := h1
        exact hg
      | burn src a =>
        simp only [exec, ite_ok_iff, bind_ok_iff, pure_ok_iff] at h1
        obtain ⟨_, _, _, rfl⟩ := h1
        exact hg
      | transfer src dst a =>
        simp only [exec, ite_ok_iff, bind_ok_iff, pure_ok_iff] at h1
        obtain ⟨_, _, _, rfl⟩ := h1
        exact hg
      | send src a hk e d =>
        simp only [exec, ite_ok_iff, bind_ok_iff, pure_ok_iff] at h1
        obtain ⟨_, _, _, r, hr, _, _, rfl⟩ := h1
        exact claim_kept hst hr hg (by intro v hv; cases hv)
      | call e m d =>
        simp only [exec, ite_ok_iff, bind_ok_iff, pure_ok_iff] at h1
        obtain ⟨_, _, _, r, hr, _, _, rfl⟩ := h1
        refine claim_kept hst hr hg (fun v hv hs => ?_)
        exact hl _ List.mem_cons_self ⟨hs, v, hv⟩
    · rw [h2]; exact hg

/-- C84, from stake to payment: whoever has a stake can unstake any part of it, and after the unlocking period, whatever
others did in the meantime, a claim succeeds and brings at least this amount. -/
theorem C84_withdraw {p : Params} {w : World} (h : Reach p w) (e later : Env) (a : Nat) (l : List Op)
    (hme : e.sender ≠ p.me) (htok : p.kind = .token → e.sender ≠ w.st.asset)
    (ha : a ≤ queryWeight w.st e.sender) (hpos : 0 < a) (hid : w.st.nextClaim + 1 < 2 ^ 64)
    (hf : Fits w.st.unlocking e.block)
    (hl : ∀ o ∈ l, ¬ o.claimsOf e.sender) (hs : later.sender = e.sender)
    (hel : Elapsed w.st.unlocking e.block later.block) :
    ∃ w1 w2, exec p w (.call e (.unstake a) true) = .ok w1 ∧
      exec p (run p w1 l) (.call later (.claim none) true) = .ok w2 ∧
      (run p w1 l).led.bal e.sender + a ≤ w2.led.bal e.sender := by
  have hi := h.inv
  obtain ⟨r, hr⟩ := (C18_unstake hi.st e a).1.2 ⟨ha, hid⟩
  obtain ⟨c, hc, _, hu, ham, hd⟩ := C26_waits hi.st e a r hr hf later.block
  obtain ⟨l1, hl1⟩ : ∃ l1, w.led.transfer e.sender p.me 0 = .ok l1 :=
    ⟨_, (Ledger.transfer_ok_iff hi.supply).2 ⟨Nat.zero_le _, rfl⟩⟩
  have hout : payOut p l1 r.2 = .ok l1 := by
    rw [(C24_single_change p.kind w.st e r).1 a hr]
    generalize w.st.mem.hooks.keys = ks
    induction ks with
    | nil => rfl
    | cons k t ih => rw [List.map_cons]; unfold payOut; exact ih
  have hx : exec p w (.call e (.unstake a) true) = .ok ⟨r.1, l1⟩ := by
    simp only [exec, ite_ok_iff, bind_ok_iff, pure_ok_iff, not_or]
    exact ⟨⟨hme, by simp, fun hh => htok hh.1 hh.2⟩, l1, hl1, r, hr, l1, hout, rfl⟩
  have h1 : Reach p ⟨r.1, l1⟩ := by
    have := h.step (.call e (.unstake a) true)
    unfold step at this
    rw [hx] at this
    exact this
  have h2 : Reach p (run p ⟨r.1, l1⟩ l) := h1.run l
  have hkept : (run p ⟨r.1, l1⟩ l).st.claims.get w.st.nextClaim = some c :=
    kept_run h1 l hc (by rw [hu]; exact hl)
  have hdue : Due later.sender later.block c := by rw [hs]; exact hd.2 hel
  have hge : a ≤ dueSum (run p ⟨r.1, l1⟩ l).st later.sender later.block := by
    have := Map.le_sum (fun _ (c : Claim) => if Due later.sender later.block c then c.amount else 0) hkept
    simp only [if_pos hdue] at this
    unfold dueSum
    omega
  have hasset : (run p ⟨r.1, l1⟩ l).st.asset = w.st.asset := by
    have key : ∀ (l : List Op) (v : World), Reach p v → (run p v l).st.asset = v.st.asset := by
      intro l
      induction l with
      | nil => intro v _; rfl
      | cons o t ih =>
        intro v hv
        rw [run, ih _ (hv.step o)]
        have hst := hv.inv.st
        rcases step_cases p v o with ⟨w', h1, h2⟩ | h2
        · rw [h2]
          cases o with
          | mint dst a =>
            simp only [exec, bind_ok_iff, pure_ok_iff] at h1
            obtain ⟨_, _, rfl⟩ := h1; rfl
          | burn src a =>
            simp only [exec, ite_ok_iff, bind_ok_iff, pure_ok_iff] at h1
            obtain ⟨_, _, _, rfl⟩ := h1; rfl
          | transfer src dst a =>
            simp only [exec, ite_ok_iff, bind_ok_iff, pure_ok_iff] at h1
            obtain ⟨_, _, _, rfl⟩ := h1; rfl
          | send src a hk e d =>
            simp only [exec, ite_ok_iff, bind_ok_iff, pure_ok_iff] at h1
            obtain ⟨_, _, _, r, hr, _, _, rfl⟩ := h1
            exact (effect_exec hst.inv hr).asset
          | call e m d =>
            simp only [exec, ite_ok_iff, bind_ok_iff, pure_ok_iff] at h1
            obtain ⟨_, _, _, r, hr, _, _, rfl⟩ := h1
            exact (effect_exec hst.inv hr).asset
        · rw [h2]
    rw [key l _ h1]
    exact (effect_exec hi.st.inv hr).asset
  obtain ⟨w2, hw2, hb, _⟩ := C84_claim_paid h2 later (by rw [hs]; exact hme)
    (fun hk => by rw [hs, hasset]; exact htok hk) (.inl (by omega))
  refine ⟨_, w2, hx, hw2, ?_⟩
  rw [hs] at hb hge
  omega

example : queryWeight (run smpParams smpStart (smpOps.take 5)).st 1 = 60 ∧
    Fits (run smpParams smpStart (smpOps.take 5)).st.unlocking (smpEnv 13 1).block ∧
    Elapsed (run smpParams smpStart (smpOps.take 5)).st.unlocking (smpEnv 13 1).block (smpEnv 113 1).block := by
  decide +kernel

/-- C84: a stake of tokens costs the sender exactly what is credited. -/
theorem C84_stake_paid {p : Params} (hk : p.kind = .token) {w w' : World} (h : Reach p w) (src u : Addr) (a : Nat)
    (e : Env) (hw : exec p w (.send src a (.stake u) e true) = .ok w') :
    w'.led.bal src + a = w.led.bal src ∧ w'.led.bal p.me = w.led.bal p.me + a ∧
      queryWeight w'.st u = queryWeight w.st u + a ∧ queryTotal w'.st .never = queryTotal w.st .never + a := by
  have hi := h.inv
  simp only [exec, ite_ok_iff, bind_ok_iff, pure_ok_iff, not_or] at hw
  obtain ⟨⟨hn, _⟩, l, hl, r, hr, l2, hl2, rfl⟩ := hw
  obtain ⟨e0, e1, _, e3⟩ := Ledger.transfer_effect hl
  obtain ⟨f1, f2, _⟩ := e3 hn
  have hst := hi.st
  rw [hk] at hr hst
  have heff := (C79_stake_token hst { e with sender := w.st.asset } a u).2 r hr
  have hout : payOut p l r.2 = .ok l := by
    rw [(C24_single_change .token w.st _ r).2.2 a u hr]
    generalize w.st.mem.hooks.keys = ks
    induction ks with
    | nil => rfl
    | cons k t ih => rw [List.map_cons]; unfold payOut; exact ih
  rw [hout] at hl2
  cases hl2
  exact ⟨by simp only; omega, f2, heff.1, heff.2.2.1⟩

example : (exec smpParams smpStart (.send 1 60 (.stake 2) (smpEnv 11 1) true)).toOption.isSome = true := by
  decide +kernel

/-- C84: a stake of coins costs the sender exactly what is credited, to the sender or whom the sender names. -/
theorem C84_denom_stake_paid {p : Params} (hk : p.kind = .denom) {w w' : World} (h : Reach p w)
    (e : Env) (funds : List Coin) (u : Option Addr)
    (hw : exec p w (.call e (.stakeDenom funds u) true) = .ok w') :
    ∃ a, funds = [⟨w.st.asset, a⟩] ∧ w'.led.bal e.sender + a = w.led.bal e.sender ∧
      w'.led.bal p.me = w.led.bal p.me + a ∧
      queryWeight w'.st (u.getD e.sender) = queryWeight w.st (u.getD e.sender) + a ∧
      queryTotal w'.st .never = queryTotal w.st .never + a := by
  have hi := h.inv
  simp only [exec, ite_ok_iff, bind_ok_iff, pure_ok_iff, not_or] at hw
  obtain ⟨⟨hn, _⟩, l, hl, r, hr, l2, hl2, rfl⟩ := hw
  have hst := hi.st
  rw [hk] at hr hst
  obtain ⟨a, hf, _⟩ := (C79_stake_denom hst e funds u).1.1 ⟨r, hr⟩
  have heff := (C79_stake_denom hst e funds u).2 r a hr hf
  have hat : attached w.st.asset (.stakeDenom funds u) = a := by rw [hf]; simp [attached]
  rw [hat] at hl
  obtain ⟨e0, e1, _, e3⟩ := Ledger.transfer_effect hl
  obtain ⟨f1, f2, _⟩ := e3 hn
  have hout : payOut p l r.2 = .ok l := by
    rw [(C24_single_change .denom w.st _ r).2.1 funds u hr]
    generalize w.st.mem.hooks.keys = ks
    induction ks with
    | nil => rfl
    | cons k t ih => rw [List.map_cons]; unfold payOut; exact ih
  rw [hout] at hl2
  cases hl2
  exact ⟨a, hf, by simp only; omega, f2, heff.1, heff.2.2.1⟩

example : Reach ⟨.denom, 3, false⟩ smpStart ∧
    (exec ⟨.denom, 3, false⟩ smpStart (.call (smpEnv 11 1) (.stakeDenom [⟨5, 60⟩] (some 2)) true)).toOption.isSome = true :=
  ⟨⟨smpStart, [], ⟨⟨_, _, _, _, _, _, rfl⟩, by decide +kernel⟩, rfl⟩, by decide +kernel⟩

end Verif.Custody.Token
