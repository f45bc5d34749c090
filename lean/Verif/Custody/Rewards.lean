import Verif.Base.Ledger
import Verif.Distributor.Props

set_option linter.unusedSimpArgs false

/-!
# The funds distributor together with the ledgers of the assets it distributes: property C87

The distributor of `Verif.Distributor.Model` is put next to the balances of every denom and cw20 token. Tokens behave as
cw20-base does: they call `Receive` only after a `Send`. (What a token that lies about this does to the rewards paid in
itself is not of interest; it must be whitelisted to be distributed, C43.)
-/

namespace Verif.Custody.Rewards
open Verif Verif.Distributor

/-- The contract and the balances of each asset. -/
structure World where
  st : State
  led : AssetInfo → Verif.Ledger

/-- What can happen. -/
inductive Op
  | mint (a : AssetInfo) (dst : Addr) (n : Nat)
  | burn (a : AssetInfo) (src : Addr) (n : Nat)
  | transfer (a : AssetInfo) (src dst : Addr) (n : Nat)
  /-- cw20 `Send` to the distributor -/
  | send (token src : Addr) (n : Nat) (known : Bool) (e : Env) (delivered : Bool)
  /-- any account sends a message to the distributor -/
  | call (e : Env) (m : Msg) (delivered : Bool)

/-- The ledgers after a transfer of one asset. -/
def move (led : AssetInfo → Verif.Ledger) (a : AssetInfo) (src dst : Addr) (n : Nat) :
    Except Err (AssetInfo → Verif.Ledger) := do
  let l ← (led a).transfer src dst n
  pure (fun b => if b = a then l else led b)

/-- The payments of the distributor `me`, in order; one that fails reverts everything. -/
def payOut (me : Addr) (led : AssetInfo → Verif.Ledger) (outs : List Out) : Except Err (AssetInfo → Verif.Ledger) :=
  outs.foldlM (fun l o => move l o.asset me o.to o.amount) led

/-- The coins attached to a message. -/
def attached : Msg → List (Nat × Nat)
  | .distributeNative l => l
  | _ => []

/-- A cw20 `Receive`, which only tokens send. -/
def isReceive : Msg → Bool
  | .receiveCw20 _ _ => true
  | _ => false

/-- The coins attached to a message arrive before it runs. -/
def attach (me : Addr) (led : AssetInfo → Verif.Ledger) (src : Addr) (l : List (Nat × Nat)) :
    Except Err (AssetInfo → Verif.Ledger) :=
  l.foldlM (fun b f => move b (.native f.1) src me f.2) led

/-- One operation, with its failures. -/
def exec (me : Addr) (w : World) : Op → Except Err World
  | .mint a dst n => do
    let l ← (w.led a).mint dst n
    pure { w with led := fun b => if b = a then l else w.led b }
  | .burn a src n =>
    if src = me then .error .unauthorized
    else do
      let l ← (w.led a).burn src n
      pure { w with led := fun b => if b = a then l else w.led b }
  | .transfer a src dst n =>
    if src = me then .error .unauthorized
    else do
      let l ← move w.led a src dst n
      pure { w with led := l }
  | .send token src n known e d =>
    if src = me ∨ d = false then .error .unauthorized
    else do
      let l ← move w.led (.cw20 token) src me n
      let r ← Distributor.exec w.st { e with sender := token } (.receiveCw20 known n)
      let l2 ← payOut me l r.2
      pure ⟨r.1, l2⟩
  | .call e m d =>
    if e.sender = me ∨ d = false ∨ isReceive m = true then .error .unauthorized
    else do
      let l ← attach me w.led e.sender (attached m)
      let r ← Distributor.exec w.st e m
      let l2 ← payOut me l r.2
      pure ⟨r.1, l2⟩

/-- A failing operation changes nothing. -/
def step (me : Addr) (w : World) (o : Op) : World :=
  match exec me w o with
  | .ok w' => w'
  | .error _ => w

/-- The world after a list of operations. -/
def run (me : Addr) (w : World) : List Op → World
  | [] => w
  | o :: t => run me (step me w o) t

/-- A new distributor, next to any balances whose sums fit 128 bits. -/
def Start (w : World) : Prop :=
  (∃ ad mw ws, init ad mw ws = .ok w.st) ∧ ∀ a, (w.led a).supply < 2 ^ 128

/-- The worlds that can come about. -/
def Reach (me : Addr) (w : World) : Prop := ∃ w0 l, Start w0 ∧ w = run me w0 l

/-! ## Lemmas -/

theorem run_append (me : Addr) (w : World) (a b : List Op) : run me w (a ++ b) = run me (run me w a) b := by
  induction a generalizing w with
  | nil => rfl
  | cons o t ih => exact ih _

theorem Reach.step {me : Addr} {w : World} (h : Reach me w) (o : Op) : Reach me (step me w o) := by
  obtain ⟨w0, l, h0, rfl⟩ := h
  exact ⟨w0, l ++ [o], h0, by rw [run_append]; rfl⟩

/-- What a transfer does to the ledgers, and when it goes through. -/
theorem move_effect {led led' : AssetInfo → Verif.Ledger} {a : AssetInfo} {src dst : Addr} {n : Nat}
    (h : move led a src dst n = .ok led') :
    (∀ b, (led' b).supply = (led b).supply) ∧ (∀ b, b ≠ a → led' b = led b) ∧
    (src = dst → ∀ x, (led' a).bal x = (led a).bal x) ∧
    (src ≠ dst → (led' a).bal src = (led a).bal src - n ∧ (led' a).bal dst = (led a).bal dst + n ∧
      ∀ x, x ≠ src → x ≠ dst → (led' a).bal x = (led a).bal x) := by
  unfold move at h
  simp only [bind_ok_iff, pure_ok_iff] at h
  obtain ⟨l, hl, rfl⟩ := h
  obtain ⟨_, e1, e2, e3⟩ := Verif.Ledger.transfer_effect hl
  refine ⟨fun b => ?_, fun b hb => if_neg hb, ?_, ?_⟩
  · show (if b = a then l else led b).supply = _
    by_cases hb : b = a
    · rw [if_pos hb, hb]; exact e1
    · rw [if_neg hb]
  · simp only [if_true]; exact e2
  · simp only [if_true]; exact e3

theorem move_exists {led : AssetInfo → Verif.Ledger} {a : AssetInfo} {src dst : Addr} {n : Nat}
    (hs : (led a).supply < 2 ^ 128) (hn : n ≤ (led a).bal src) : ∃ led', move led a src dst n = .ok led' := by
  unfold move
  simp only [bind_ok_iff, pure_ok_iff]
  exact ⟨_, _, (Verif.Ledger.transfer_ok_iff hs).2 ⟨hn, rfl⟩, rfl⟩

theorem paidAll_cons (a : AssetInfo) (o : Out) (t : List Out) :
    paidAll a (o :: t) = (if o.asset = a then o.amount else 0) + paidAll a t := by
  unfold paidAll; rw [List.map_cons, List.sum_cons]

theorem paid_cons (u : Addr) (a : AssetInfo) (o : Out) (t : List Out) :
    paid u a (o :: t) = (if o.to = u ∧ o.asset = a then o.amount else 0) + paid u a t := by
  unfold paid; rw [List.map_cons, List.sum_cons]

theorem payOut_effect {me : Addr} {outs : List Out} : ∀ {led led' : AssetInfo → Verif.Ledger},
    payOut me led outs = .ok led' → ∀ a, (led' a).supply = (led a).supply ∧
      (led a).bal me ≤ (led' a).bal me + paidAll a outs := by
  induction outs with
  | nil => intro led led' h a; cases h; exact ⟨rfl, by unfold paidAll; simp⟩
  | cons o t ih =>
    intro led led' h a
    unfold payOut at h
    rw [foldlM_cons_ok_iff] at h
    obtain ⟨l1, h1, h2⟩ := h
    obtain ⟨i1, i2⟩ := ih h2 a
    obtain ⟨e1, e2, e3, e4⟩ := move_effect h1
    rw [paidAll_cons]
    refine ⟨i1.trans (e1 a), ?_⟩
    by_cases ha : o.asset = a
    · subst ha
      rw [if_pos rfl]
      by_cases hd : me = o.to
      · have := e3 hd me; omega
      · have := (e4 hd).1; omega
    · rw [if_neg ha, ← e2 a (Ne.symm ha)]
      omega

/-- Paying one account what the contract has. -/
theorem payOut_pays {me u : Addr} (hu : u ≠ me) {outs : List Out} : ∀ {led : AssetInfo → Verif.Ledger},
    (∀ a, (led a).supply < 2 ^ 128) → (∀ o ∈ outs, o.to = u) → (∀ a, paidAll a outs ≤ (led a).bal me) →
    ∃ led', payOut me led outs = .ok led' ∧ ∀ a, (led' a).bal u = (led a).bal u + paid u a outs ∧
      (led' a).bal me = (led a).bal me - paid u a outs ∧
      ∀ v, v ≠ u → v ≠ me → (led' a).bal v = (led a).bal v := by
  induction outs with
  | nil => intro led _ _ _; exact ⟨led, rfl, fun a => ⟨rfl, rfl, fun _ _ _ => rfl⟩⟩
  | cons o t ih =>
    intro led hs ho hp
    have hto : o.to = u := ho o List.mem_cons_self
    have h1 : o.amount ≤ (led o.asset).bal me := by
      have := hp o.asset
      rw [paidAll_cons, if_pos rfl] at this
      omega
    obtain ⟨l1, hl1⟩ := move_exists (dst := o.to) (hs o.asset) h1
    obtain ⟨e1, e2, _, e4⟩ := move_effect hl1
    obtain ⟨f1, f2, f3⟩ := e4 (by rw [hto]; exact hu.symm)
    have hp1 : ∀ a, paidAll a t ≤ (l1 a).bal me := by
      intro a
      have := hp a
      rw [paidAll_cons] at this
      by_cases ha : o.asset = a
      · subst ha; rw [if_pos rfl] at this; omega
      · rw [if_neg ha] at this; rw [e2 a (Ne.symm ha)]; omega
    obtain ⟨l2, h2, h3⟩ := ih (fun a => by rw [e1 a]; exact hs a)
      (fun x hx => ho x (List.mem_cons_of_mem _ hx)) hp1
    refine ⟨l2, ?_, fun a => ?_⟩
    · unfold payOut
      rw [foldlM_cons_ok_iff]
      exact ⟨l1, hl1, h2⟩
    · obtain ⟨g1, g2, g3⟩ := h3 a
      rw [paid_cons]
      by_cases ha : o.asset = a
      · subst ha
        rw [if_pos ⟨hto, rfl⟩]
        rw [hto] at f2 f3
        refine ⟨by omega, by omega, fun v h1 h2 => ?_⟩
        rw [g3 v h1 h2, f3 v h2 h1]
      · rw [if_neg (fun hh => ha hh.2)]
        have := e2 a (Ne.symm ha)
        rw [this] at g1 g2 g3
        exact ⟨by omega, by omega, g3⟩

theorem attach_effect {me src : Addr} (hsrc : src ≠ me) {l : List (Nat × Nat)} :
    ∀ {led led' : AssetInfo → Verif.Ledger}, attach me led src l = .ok led' → ∀ a,
      (led' a).supply = (led a).supply ∧ (led' a).bal me =
        (led a).bal me + (l.map (fun f => if AssetInfo.native f.1 = a then f.2 else 0)).sum := by
  induction l with
  | nil => intro led led' h a; cases h; exact ⟨rfl, by simp⟩
  | cons f t ih =>
    intro led led' h a
    unfold attach at h
    rw [foldlM_cons_ok_iff] at h
    obtain ⟨l1, h1, h2⟩ := h
    obtain ⟨i1, i2⟩ := ih h2 a
    obtain ⟨e1, e2, _, e4⟩ := move_effect h1
    obtain ⟨_, f2, _⟩ := e4 hsrc
    rw [List.map_cons, List.sum_cons]
    refine ⟨i1.trans (e1 a), ?_⟩
    by_cases ha : AssetInfo.native f.1 = a
    · subst ha; rw [if_pos rfl]; omega
    · rw [if_neg ha, i2, e2 a (Ne.symm ha)]; omega

/-- The invariant: the state is sound, and for each asset the balance covers the unrounded amount due. -/
structure Inv (me : Addr) (w : World) : Prop where
  st : Distributor.Reachable w.st
  supply : ∀ a, (w.led a).supply < 2 ^ 128
  covered : ∀ a, owedOf w.st a ≤ ONE * (w.led a).bal me

theorem reachable_exec {s : State} (h : Distributor.Reachable s) {e : Env} {m : Msg} {r : State × List Out}
    (hr : Distributor.exec s e m = .ok r) : Distributor.Reachable r.1 := by
  have := h.step ⟨e, m, true⟩
  simpa only [Distributor.step, hr, if_true] using this

/-- A message to the distributor with its payments, after its funds have arrived. -/
theorem inv_call {me : Addr} {w : World} (hi : Inv me w) {e : Env} {m : Msg} {r : State × List Out}
    (hr : Distributor.exec w.st e m = .ok r) {l l2 : AssetInfo → Verif.Ledger} (hl : payOut me l r.2 = .ok l2)
    (h : ∀ a, (l a).supply = (w.led a).supply ∧ (l a).bal me = (w.led a).bal me + fundsOf e m a) :
    Inv me ⟨r.1, l2⟩ := by
  refine ⟨reachable_exec hi.st hr, fun a => ?_, fun a => ?_⟩
  · have := (payOut_effect hl a).1
    have := (h a).1
    have := hi.supply a
    simp only
    omega
  · have h1 := (exec_ok hi.st.inv hr).2.2 a
    have h2 := (payOut_effect hl a).2
    have h3 := (h a).2
    have h4 := hi.covered a
    have h5 : ONE * (l a).bal me ≤ ONE * ((l2 a).bal me + paidAll a r.2) := Nat.mul_le_mul_left _ h2
    rw [h3, Nat.mul_add, Nat.mul_add] at h5
    simp only
    omega

theorem inv_led {me : Addr} {w : World} (hi : Inv me w) {led' : AssetInfo → Verif.Ledger}
    (h : ∀ a, (led' a).supply < 2 ^ 128 ∧ (w.led a).bal me ≤ (led' a).bal me) : Inv me { w with led := led' } :=
  ⟨hi.st, fun a => (h a).1, fun a => le_trans (hi.covered a) (Nat.mul_le_mul_left _ (h a).2)⟩

theorem inv_exec {me : Addr} {w w' : World} (hi : Inv me w) {o : Op} (h : exec me w o = .ok w') : Inv me w' := by
  cases o with
  | mint a dst n =>
    simp only [exec, bind_ok_iff, pure_ok_iff] at h
    obtain ⟨l, hl, rfl⟩ := h
    obtain ⟨e1, e2, e3, e4⟩ := Verif.Ledger.mint_effect hl
    refine inv_led hi (fun b => ?_)
    by_cases hb : b = a
    · subst hb
      rw [if_pos rfl]
      refine ⟨e2, ?_⟩
      by_cases hd : me = dst
      · rw [hd]; omega
      · rw [e4 me hd]
    · rw [if_neg hb]; exact ⟨hi.supply b, le_refl _⟩
  | burn a src n =>
    simp only [exec, ite_ok_iff, bind_ok_iff, pure_ok_iff] at h
    obtain ⟨hn, l, hl, rfl⟩ := h
    obtain ⟨e1, _, e3⟩ := Verif.Ledger.burn_effect hl
    refine inv_led hi (fun b => ?_)
    by_cases hb : b = a
    · subst hb
      rw [if_pos rfl]
      have := e3 me (fun hh => hn hh.symm)
      have := hi.supply b
      exact ⟨by omega, by omega⟩
    · rw [if_neg hb]; exact ⟨hi.supply b, le_refl _⟩
  | transfer a src dst n =>
    simp only [exec, ite_ok_iff, bind_ok_iff, pure_ok_iff] at h
    obtain ⟨hn, l, hl, rfl⟩ := h
    obtain ⟨e1, e2, e3, e4⟩ := move_effect hl
    refine inv_led hi (fun b => ⟨by rw [e1 b]; exact hi.supply b, ?_⟩)
    by_cases hb : b = a
    · subst hb
      by_cases hsd : src = dst
      · rw [e3 hsd]
      · obtain ⟨_, f2, f3⟩ := e4 hsd
        by_cases hd : me = dst
        · rw [hd]; omega
        · rw [f3 me (fun hh => hn hh.symm) hd]
    · rw [e2 b hb]
  | send token src n known e d =>
    simp only [exec, ite_ok_iff, bind_ok_iff, pure_ok_iff, not_or] at h
    obtain ⟨⟨hn, _⟩, l, hl, r, hr, l2, hl2, rfl⟩ := h
    obtain ⟨e1, e2, _, e4⟩ := move_effect hl
    obtain ⟨_, f2, _⟩ := e4 hn
    refine inv_call hi hr hl2 (fun a => ⟨e1 a, ?_⟩)
    unfold fundsOf funds
    simp only
    by_cases ha : AssetInfo.cw20 token = a
    · subst ha; rw [if_pos rfl]; exact f2
    · rw [if_neg ha, e2 a (Ne.symm ha)]; rfl
  | call e m d =>
    simp only [exec, ite_ok_iff, bind_ok_iff, pure_ok_iff, not_or] at h
    obtain ⟨⟨hn, _, hk⟩, l, hl, r, hr, l2, hl2, rfl⟩ := h
    refine inv_call hi hr hl2 (fun a => ?_)
    obtain ⟨i1, i2⟩ := attach_effect hn hl a
    refine ⟨i1, i2.trans ?_⟩
    cases m with
    | receiveCw20 k n => exact absurd rfl hk
    | _ => rfl

theorem step_cases (me : Addr) (w : World) (o : Op) :
    (∃ w', exec me w o = .ok w' ∧ step me w o = w') ∨ step me w o = w := by
  unfold step
  cases exec me w o with
  | ok w' => exact .inl ⟨w', rfl, rfl⟩
  | error _ => exact .inr rfl

theorem inv_run {me : Addr} {w : World} (hi : Inv me w) (l : List Op) : Inv me (run me w l) := by
  induction l generalizing w with
  | nil => exact hi
  | cons o t ih =>
    refine ih ?_
    rcases step_cases me w o with ⟨w', h1, h2⟩ | h2
    · rw [h2]; exact inv_exec hi h1
    · rw [h2]; exact hi

theorem Reach.inv {me : Addr} {w : World} (h : Reach me w) : Inv me w := by
  obtain ⟨w0, l, ⟨⟨ad, mw, ws, h1⟩, h2⟩, rfl⟩ := h
  refine inv_run ⟨⟨ad, mw, ws, w0.st, [], h1, rfl⟩, h2, fun a => ?_⟩ l
  rw [(init_inv h1).2.2.2 a]
  exact Nat.zero_le _

theorem Inv.bounded {me : Addr} {w : World} (hi : Inv me w) (a : AssetInfo) : owedOf w.st a < ONE * M128 := by
  have h1 := hi.covered a
  have h2 := (w.led a).bal_le_supply me
  have h3 : ONE * (w.led a).bal me < ONE * M128 :=
    Nat.mul_lt_mul_of_pos_left (by have := hi.supply a; unfold M128; omega) (by decide)
  omega

/-! ## Sample -/

/-- Sample start: account 77 has coins of denom 5, account 78 has tokens 900. -/
def smpStart : World :=
  ⟨exInit, fun a => if a = .native 5 then Map.empty.set 77 100 else if a = .cw20 900 then Map.empty.set 78 500
    else Map.empty⟩

/-- Sample history: distributions (one without the funds for it), a claim, weight changes. -/
def smpOps : List Op :=
  [.call (exEnv 77) (.distributeNative [(5, 10)]) true, .call (exEnv 1) (.claim 1 [5, 5] []) true,
   .call (exEnv 10) (.updateWeights [(1, 4), (7, 3), (1, 5)]) true, .send 900 78 100 true (exEnv 0) true,
   .send 900 78 401 true (exEnv 0) true, .call (exEnv 900) (.receiveCw20 true 1000) true,
   .transfer (.native 5) 77 3 1]

theorem smp_reach : Reach 3 (run 3 smpStart smpOps) := by
  refine ⟨smpStart, smpOps, ⟨⟨10, some 1, _, exInit_eq⟩, fun a => ?_⟩, rfl⟩
  unfold smpStart
  simp only
  split
  · decide +kernel
  · split <;> decide +kernel

/-! ## C87 -/

/-- C87: whatever happens, the distributor holds at least what all users together can claim, of every asset. -/
theorem C87_covered {me : Addr} {w : World} (h : Reach me w) (us : List Addr) (hn : us.Nodup) (a : AssetInfo) :
    (us.map (fun u => claimable w.st u a)).sum ≤ (w.led a).bal me := by
  have hi := h.inv
  have h1 := claimable_le_owed hi.st.inv.toCore us hn a
  exact Nat.le_of_mul_le_mul_left (le_trans h1 (hi.covered a)) (by decide)

example : let w := run 3 smpStart smpOps
    claimable w.st 2 (.native 5) = 6 ∧ claimable w.st 1 (.cw20 900) = 50 ∧ (w.led (.native 5)).bal 3 = 8 ∧
    (w.led (.cw20 900)).bal 3 = 100 ∧ (w.led (.native 5)).bal 1 = 3 := by decide +kernel

/-- C87: the reward query always answers, for any user and any list of assets. -/
theorem C87_reported {me : Addr} {w : World} (h : Reach me w) (u : Addr) (ds ts : List Nat) :
    ∃ x, queryRewards w.st u ds ts = .ok x := by
  have hi := h.inv
  have i := hi.st.inv
  obtain ⟨n, hn⟩ := Ledger.rewards_exists (L := w.st.native) (u := u) (w := (w.st.effective.get u).getD 0)
    ds [] (fun a _ => amt_exists i.native (hi.bounded (.native a)))
  obtain ⟨c, hc⟩ := Ledger.rewards_exists (L := w.st.cw20) (u := u) (w := (w.st.effective.get u).getD 0)
    ts [] (fun a _ => amt_exists i.cw20 (hi.bounded (.cw20 a)))
  exact ⟨(n, c), bind_ok_iff.2 ⟨n, hn, bind_ok_iff.2 ⟨c, hc, rfl⟩⟩⟩

/-- C87: an unrestricted user's own claim always goes through, payments included: the user receives of each listed asset
exactly the claimable amount, once, and of the others nothing. -/
theorem C87_claim_paid {me : Addr} {w : World} (h : Reach me w) (e : Env) (hme : e.sender ≠ me)
    (hres : e.restricted e.sender = false) (ds ts : List Nat) :
    ∃ w', exec me w (.call e (.claim e.sender ds ts) true) = .ok w' ∧ ∀ a,
      (((∃ d ∈ ds, a = .native d) ∨ (∃ t ∈ ts, a = .cw20 t)) →
        (w'.led a).bal e.sender = (w.led a).bal e.sender + claimable w.st e.sender a ∧
        (w'.led a).bal me = (w.led a).bal me - claimable w.st e.sender a ∧ claimable w'.st e.sender a = 0) ∧
      (¬ ((∃ d ∈ ds, a = .native d) ∨ (∃ t ∈ ts, a = .cw20 t)) →
        (w'.led a).bal e.sender = (w.led a).bal e.sender ∧ (w'.led a).bal me = (w.led a).bal me ∧
        claimable w'.st e.sender a = claimable w.st e.sender a) ∧
      (∀ v, v ≠ e.sender → v ≠ me → (w'.led a).bal v = (w.led a).bal v) := by
  have hi := h.inv
  have i := hi.st.inv
  obtain ⟨n, hn⟩ := Ledger.claim_fold_exists (eff := w.st.effective) (u := e.sender) rfl ds (w.st.native, []) i.native
    (fun a _ => amt_exists i.native (hi.bounded (.native a)))
  obtain ⟨c, hc⟩ := Ledger.claim_fold_exists (eff := w.st.effective) (u := e.sender) rfl ts (w.st.cw20, []) i.cw20
    (fun a _ => amt_exists i.cw20 (hi.bounded (.cw20 a)))
  obtain ⟨r, hr⟩ : ∃ r, Distributor.exec w.st e (.claim e.sender ds ts) = .ok r :=
    ⟨_, claim_ok_iff.2 ⟨hres, rfl, n, c, hn, hc, rfl⟩⟩
  have hacc : accepted w.st ⟨e, .claim e.sender ds ts, true⟩ := ⟨rfl, r, hr⟩
  have hstep : Distributor.step w.st ⟨e, .claim e.sender ds ts, true⟩ = r := by
    simp only [Distributor.step, hr, if_true]
  have hto := (C41_owner_only w.st hi.st ⟨e, .claim e.sender ds ts, true⟩ e.sender ds ts rfl).2.1
  rw [hstep] at hto
  have hcov : ∀ a, paidAll a r.2 ≤ (w.led a).bal me := by
    intro a
    have h1 := (exec_ok i hr).2.2 a
    have h2 := hi.covered a
    have h3 : fundsOf e (.claim e.sender ds ts) a = 0 := rfl
    rw [h3] at h1
    exact Nat.le_of_mul_le_mul_left (by omega : ONE * paidAll a r.2 ≤ ONE * (w.led a).bal me) (by decide)
  obtain ⟨l2, hl2, hb⟩ := payOut_pays hme hi.supply (fun o ho => (hto o ho).1) hcov
  refine ⟨⟨r.1, l2⟩, ?_, fun a => ?_⟩
  · simp only [exec, ite_ok_iff, bind_ok_iff, pure_ok_iff, not_or]
    exact ⟨⟨hme, by simp, by simp [isReceive]⟩, w.led, rfl, r, hr, l2, hl2, rfl⟩
  · obtain ⟨b1, b2, b3⟩ := hb a
    obtain ⟨c1, c2⟩ := C35_claim_pays_once w.st hi.st ⟨e, .claim e.sender ds ts, true⟩ e.sender ds ts rfl hacc a
    rw [hstep] at c1 c2
    simp only
    refine ⟨fun hl => ?_, fun hl => ?_, b3⟩
    · obtain ⟨d1, d2⟩ := c1 hl
      exact ⟨by omega, by omega, d1⟩
    · obtain ⟨d1, d2⟩ := c2 hl
      exact ⟨by omega, by omega, d1⟩

example : let w := run 3 smpStart (smpOps ++ [.call (exEnv 2) (.claim 2 [5, 6, 5] [900]) true])
    (w.led (.native 5)).bal 2 = 6 ∧ (w.led (.cw20 900)).bal 2 = 20 ∧ (w.led (.native 5)).bal 3 = 2 := by
  decide +kernel

/-- C87: rewards never stand in the way of weight updates: every update by the admin is accepted as long as the weights
fit in 128 bits, however much has been distributed. -/
theorem C87_updates_accepted {me : Addr} {w : World} (h : Reach me w) (e : Env) (hs : e.sender = w.st.admin)
    (hme : e.sender ≠ me) (l : List (Addr × Nat)) (hl : w.st.total + (l.map (·.2)).sum < 2 ^ 128) :
    ∃ w', exec me w (.call e (.updateWeights l) true) = .ok w' ∧ w'.led = w.led := by
  have hi := h.inv
  obtain ⟨s', hs'⟩ := updates_exist l hi.st.inv hi.bounded hl
  have hr : Distributor.exec w.st e (.updateWeights l) = .ok (s', []) := by
    simp only [Distributor.exec, bind_ok_iff]
    refine ⟨s', ?_, rfl⟩
    unfold updateWeights
    rw [if_neg (by simp [hs])]
    exact hs'
  refine ⟨⟨s', w.led⟩, ?_, rfl⟩
  simp only [exec, ite_ok_iff, bind_ok_iff, pure_ok_iff, not_or]
  exact ⟨⟨hme, by simp, by simp [isReceive]⟩, w.led, rfl, _, hr, w.led, rfl, rfl⟩

example : (run 3 smpStart smpOps).st.admin = 10 ∧ (run 3 smpStart smpOps).st.total = 10 := by decide +kernel

/-- The amount of an asset among the coins attached to a message. -/
def amountOf (a : AssetInfo) (l : List (Nat × Nat)) : Nat :=
  ((l.filter (fun f => decide (AssetInfo.native f.1 = a))).map (·.2)).sum

theorem move_covered {led led' : AssetInfo → Verif.Ledger} {a : AssetInfo} {src dst : Addr} {n : Nat}
    (h : move led a src dst n = .ok led') : n ≤ (led a).bal src := by
  unfold move at h
  simp only [bind_ok_iff, pure_ok_iff] at h
  obtain ⟨l, hl, rfl⟩ := h
  exact (Verif.Ledger.transfer_effect hl).1

theorem attach_paid {me src : Addr} (hn : src ≠ me) (l : List (Nat × Nat)) :
    ∀ {led led' : AssetInfo → Verif.Ledger}, attach me led src l = .ok led' → ∀ a,
      (led' a).bal me = (led a).bal me + amountOf a l ∧ (led' a).bal src + amountOf a l = (led a).bal src ∧
      ∀ x, x ≠ src → x ≠ me → (led' a).bal x = (led a).bal x := by
  induction l with
  | nil =>
    intro led led' h a
    simp only [attach, foldlM_nil_ok_iff] at h
    subst h
    exact ⟨rfl, rfl, fun _ _ _ => rfl⟩
  | cons f t ih =>
    intro led led' h a
    simp only [attach, foldlM_cons_ok_iff] at h
    obtain ⟨l1, h1, h2⟩ := h
    obtain ⟨i1, i2, i3⟩ := ih h2 a
    obtain ⟨_, e2, _, e4⟩ := move_effect h1
    obtain ⟨f1, f2, f3⟩ := e4 hn
    have hc := move_covered h1
    by_cases ha : AssetInfo.native f.1 = a
    · have hs : amountOf a (f :: t) = f.2 + amountOf a t := by simp [amountOf, ha]
      rw [ha] at f1 f2 f3 hc
      refine ⟨by omega, by omega, fun x h1 h2 => ?_⟩
      rw [i3 x h1 h2, f3 x h1 h2]
    · have hs : amountOf a (f :: t) = amountOf a t := by simp [amountOf, ha]
      have he := e2 a (fun hh => ha hh.symm)
      rw [he] at i1 i2 i3
      rw [hs]
      exact ⟨i1, i2, i3⟩

/-- C87: a distribution of coins is paid in full by its sender, in every asset, and by nobody else. -/
theorem C87_distribution_paid {me : Addr} {w w' : World} (e : Env) (l : List (Nat × Nat))
    (hw : exec me w (.call e (.distributeNative l) true) = .ok w') (a : AssetInfo) :
    (w'.led a).bal me = (w.led a).bal me + amountOf a l ∧
    (w'.led a).bal e.sender + amountOf a l = (w.led a).bal e.sender ∧
    ∀ x, x ≠ e.sender → x ≠ me → (w'.led a).bal x = (w.led a).bal x := by
  simp only [exec, ite_ok_iff, bind_ok_iff, pure_ok_iff, not_or] at hw
  obtain ⟨⟨hn, _⟩, l1, hl, r, hr, l2, hl2, rfl⟩ := hw
  have hr2 : r.2 = [] := by
    simp only [Distributor.exec, bind_ok_iff, pure_ok_iff] at hr
    obtain ⟨_, _, rfl⟩ := hr
    rfl
  rw [hr2] at hl2
  cases hl2
  exact attach_paid hn l hl a

example : (exec 3 smpStart (.call (exEnv 77) (.distributeNative [(5, 10), (5, 7)]) true)).toOption.isSome = true ∧
    amountOf (.native 5) [(5, 10), (5, 7)] = 17 := by decide +kernel

/-- C87: a distribution of a cw20 token is paid in full by the sender of the tokens, and by nobody else. -/
theorem C87_token_distribution_paid {me : Addr} {w w' : World} (token src : Addr) (n : Nat) (known : Bool) (e : Env)
    (hw : exec me w (.send token src n known e true) = .ok w') :
    (w'.led (.cw20 token)).bal me = (w.led (.cw20 token)).bal me + n ∧
    (w'.led (.cw20 token)).bal src + n = (w.led (.cw20 token)).bal src ∧
    (∀ x, x ≠ src → x ≠ me → (w'.led (.cw20 token)).bal x = (w.led (.cw20 token)).bal x) ∧
    ∀ b, b ≠ .cw20 token → w'.led b = w.led b := by
  simp only [exec, ite_ok_iff, bind_ok_iff, pure_ok_iff, not_or] at hw
  obtain ⟨⟨hn, _⟩, l1, hl, r, hr, l2, hl2, rfl⟩ := hw
  have hr2 : r.2 = [] := by
    simp only [Distributor.exec, bind_ok_iff, pure_ok_iff] at hr
    obtain ⟨_, _, rfl⟩ := hr
    rfl
  rw [hr2] at hl2
  cases hl2
  obtain ⟨_, e2, _, e4⟩ := move_effect hl
  obtain ⟨f1, f2, f3⟩ := e4 hn
  have hc := move_covered hl
  exact ⟨f2, by simp only; omega, f3, e2⟩

example : (exec 3 smpStart (.send 900 78 100 true (exEnv 0) true)).toOption.isSome = true := by decide +kernel

end Verif.Custody.Rewards
