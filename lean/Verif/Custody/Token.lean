import Verif.Base.Ledger
import Verif.Staking.Props2

set_option linter.unusedSimpArgs false

/-!
# A token or denom staking contract together with the ledger of the staked asset

The staking contract of `Verif.Staking.Model` is put next to the balances of the token (cw20) or denom it holds. Only
the ledger moves funds; it calls the contract with `Receive` after a `Send`, and hands over the coins attached to a
message.
-/

namespace Verif.Custody.Token
open Verif Verif.Staking

/-- What does not change: the kind of the contract, its address, and whether the ledger accepts transfers of zero
(the bank module does not, versions of cw20-base differ). -/
structure Params where
  kind : Kind
  me : Addr
  zeroOk : Bool

/-- The contract and the balances of the staked asset. -/
structure World where
  st : State
  led : Ledger
  deriving DecidableEq

/-- What can happen. An allowance is used on behalf of the owner of the funds, and needs no operation of its own. -/
inductive Op
  /-- new funds appear in an account -/
  | mint (dst : Addr) (a : Nat)
  /-- an account burns own funds -/
  | burn (src : Addr) (a : Nat)
  /-- an account transfers own funds, perhaps to the contract -/
  | transfer (src dst : Addr) (a : Nat)
  /-- cw20 `Send` to the contract: `e.sender` is replaced by the token contract -/
  | send (src : Addr) (a : Nat) (h : Hook) (e : Env) (delivered : Bool)
  /-- any account sends a message to the contract -/
  | call (e : Env) (m : Msg) (delivered : Bool)

/-- The payments among the sub-messages are executed by the ledger, in order; one that fails reverts everything. -/
def payOut (p : Params) (l : Ledger) : List Out → Except Err Ledger
  | [] => .ok l
  | .pay dst a :: t =>
    if a = 0 ∧ p.zeroOk = false then .error .other
    else do
      let l1 ← l.transfer p.me dst a
      payOut p l1 t
  | _ :: t => payOut p l t

/-- The amount of the staked asset attached to a message. -/
def attached (asset : Addr) : Msg → Nat
  | .stakeDenom funds _ => ((funds.filter (fun c => decide (c.denom = asset))).map (·.amount)).sum
  | _ => 0

/-- One operation, with its failures. The contract itself starts nothing, and a token contract calls it only because of
a `Send`. -/
def exec (p : Params) (w : World) : Op → Except Err World
  | .mint dst a => do
    let l ← w.led.mint dst a
    pure { w with led := l }
  | .burn src a =>
    if src = p.me then .error .unauthorized
    else do
      let l ← w.led.burn src a
      pure { w with led := l }
  | .transfer src dst a =>
    if src = p.me then .error .unauthorized
    else do
      let l ← w.led.transfer src dst a
      pure { w with led := l }
  | .send src a h e d =>
    if src = p.me ∨ d = false then .error .unauthorized
    else do
      let l ← w.led.transfer src p.me a
      let r ← Staking.exec p.kind w.st { e with sender := w.st.asset } (.receive a h)
      let l2 ← payOut p l r.2
      pure ⟨r.1, l2⟩
  | .call e m d =>
    if e.sender = p.me ∨ d = false ∨ (p.kind = .token ∧ e.sender = w.st.asset) then .error .unauthorized
    else do
      let l ← w.led.transfer e.sender p.me (attached w.st.asset m)
      let r ← Staking.exec p.kind w.st e m
      let l2 ← payOut p l r.2
      pure ⟨r.1, l2⟩

/-- A failing operation changes nothing. -/
def step (p : Params) (w : World) (o : Op) : World :=
  match exec p w o with
  | .ok w' => w'
  | .error _ => w

/-- The world after a list of operations. -/
def run (p : Params) (w : World) : List Op → World
  | [] => w
  | o :: t => run p (step p w o) t

/-- A new staking contract, next to any balances whose sum fits 128 bits. -/
def Start (w : World) : Prop :=
  (∃ b asset u hooks x y, w.st = init b asset u hooks x y) ∧ w.led.supply < 2 ^ 128

/-- The worlds that can come about. -/
def Reach (p : Params) (w : World) : Prop := ∃ w0 l, Start w0 ∧ w = run p w0 l

/-! ## Lemmas -/

theorem run_append (p : Params) (w : World) (a b : List Op) : run p w (a ++ b) = run p (run p w a) b := by
  induction a generalizing w with
  | nil => rfl
  | cons o t ih => exact ih _

theorem Reach.step {p : Params} {w : World} (h : Reach p w) (o : Op) : Reach p (step p w o) := by
  obtain ⟨w0, l, h0, rfl⟩ := h
  exact ⟨w0, l ++ [o], h0, by rw [run_append]; rfl⟩

theorem Reach.run {p : Params} {w : World} (h : Reach p w) (l : List Op) : Reach p (run p w l) := by
  obtain ⟨w0, l0, h0, rfl⟩ := h
  exact ⟨w0, l0 ++ l, h0, by rw [run_append]⟩

/-- What `payOut` does: it pays from the contract, whose balance falls by no more than what is paid. -/
theorem payOut_effect {p : Params} {outs : List Out} : ∀ {l l' : Ledger}, payOut p l outs = .ok l' →
    l'.supply = l.supply ∧ l.bal p.me ≤ l'.bal p.me + paid outs ∧ ∀ x, x ≠ p.me → l.bal x ≤ l'.bal x := by
  induction outs with
  | nil => intro l l' h; cases h; exact ⟨rfl, by simp [paid], fun _ _ => le_refl _⟩
  | cons o t ih =>
    intro l l' h
    cases o with
    | pay dst a =>
      unfold payOut at h
      simp only [ite_ok_iff, bind_ok_iff] at h
      obtain ⟨_, l1, h1, h2⟩ := h
      obtain ⟨i1, i2, i3⟩ := ih h2
      obtain ⟨e1, e2, e3, e4⟩ := Ledger.transfer_effect h1
      have hp : paid (Out.pay dst a :: t) = a + paid t := by simp [paid]
      rw [hp]
      by_cases hd : p.me = dst
      · have := e3 hd
        refine ⟨by omega, by have := this p.me; omega, fun x hx => ?_⟩
        have := this x
        have := i3 x hx
        omega
      · obtain ⟨f1, f2, f3⟩ := e4 hd
        refine ⟨by omega, by omega, fun x hx => ?_⟩
        have := i3 x hx
        by_cases hxd : x = dst
        · subst hxd; omega
        · have := f3 x hx hxd; omega
    | notify a b =>
      have hp : paid (Out.notify a b :: t) = paid t := by simp [paid]
      rw [hp]; exact ih h
    | sendNft a b =>
      have hp : paid (Out.sendNft a b :: t) = paid t := by simp [paid]
      rw [hp]; exact ih h

/-- The invariant: the contract's state is one of its own histories, the ledger is sound, and the contract can pay. -/
structure Inv (p : Params) (w : World) : Prop where
  st : Staking.Reachable p.kind w.st
  supply : w.led.supply < 2 ^ 128
  covered : weightSum w.st + claimSum w.st ≤ w.led.bal p.me

theorem attached_eq {k : Kind} {s : State} {e : Env} {m : Msg} {r : State × List Out}
    (h : Staking.exec k s e m = .ok r) (hk : ¬ (k = .token ∧ e.sender = s.asset)) :
    m.transferred s.asset = attached s.asset m := by
  cases m with
  | receive a hk' =>
    exfalso
    simp only [Staking.exec] at h
    split at h
    · rename_i h1
      unfold receive at h
      rw [ite_ok_iff] at h
      exact hk ⟨h1, Classical.not_not.1 h.1⟩
    · cases h
  | _ => rfl

theorem reachable_exec {k : Kind} {s : State} (h : Staking.Reachable k s) {e : Env} {m : Msg} {r : State × List Out}
    (hr : Staking.exec k s e m = .ok r) : Staking.Reachable k r.1 := by
  have := reachable_step h ⟨e, m, true⟩
  simpa only [Staking.step, hr, if_true] using this

theorem inv_exec {p : Params} {w w' : World} (hi : Inv p w) {o : Op} (h : exec p w o = .ok w') : Inv p w' := by
  obtain ⟨h1, h2, h3⟩ := hi
  cases o with
  | mint dst a =>
    simp only [exec, bind_ok_iff, pure_ok_iff] at h
    obtain ⟨l, hl, rfl⟩ := h
    obtain ⟨e1, e2, e3, e4⟩ := Ledger.mint_effect hl
    refine ⟨h1, e2, ?_⟩
    by_cases hd : p.me = dst
    · simp only; rw [hd]; rw [hd] at h3; omega
    · have := e4 p.me hd; simp only; omega
  | burn src a =>
    simp only [exec, ite_ok_iff, bind_ok_iff, pure_ok_iff] at h
    obtain ⟨hn, l, hl, rfl⟩ := h
    obtain ⟨e1, _, e3⟩ := Ledger.burn_effect hl
    have := e3 p.me (fun hh => hn hh.symm)
    exact ⟨h1, by simp only; omega, by simp only; omega⟩
  | transfer src dst a =>
    simp only [exec, ite_ok_iff, bind_ok_iff, pure_ok_iff] at h
    obtain ⟨hn, l, hl, rfl⟩ := h
    obtain ⟨_, e1, e2, e3⟩ := Ledger.transfer_effect hl
    refine ⟨h1, by simp only; omega, ?_⟩
    simp only
    by_cases hsd : src = dst
    · have := e2 hsd p.me; omega
    · obtain ⟨_, f2, f3⟩ := e3 hsd
      by_cases hd : p.me = dst
      · rw [hd]; rw [hd] at h3; omega
      · have := f3 p.me (fun hh => hn hh.symm) hd; omega
  | send src a hk e d =>
    simp only [exec, ite_ok_iff, bind_ok_iff, pure_ok_iff, not_or] at h
    obtain ⟨⟨hn, _⟩, l, hl, r, hr, l2, hl2, rfl⟩ := h
    obtain ⟨_, e1, _, e3⟩ := Ledger.transfer_effect hl
    obtain ⟨_, f2, _⟩ := e3 hn
    obtain ⟨g1, g2, _⟩ := payOut_effect hl2
    have hc := (effect_exec h1.inv hr).conserve
    have ht : (Msg.receive a hk).transferred w.st.asset = a := rfl
    refine ⟨reachable_exec h1 hr, by simp only; omega, ?_⟩
    unfold weightSum at h3 ⊢
    unfold Members.wsum at hc
    simp only
    omega
  | call e m d =>
    simp only [exec, ite_ok_iff, bind_ok_iff, pure_ok_iff, not_or] at h
    obtain ⟨⟨hn, _, hk⟩, l, hl, r, hr, l2, hl2, rfl⟩ := h
    obtain ⟨_, e1, _, e3⟩ := Ledger.transfer_effect hl
    obtain ⟨_, f2, _⟩ := e3 hn
    obtain ⟨g1, g2, _⟩ := payOut_effect hl2
    have hc := (effect_exec h1.inv hr).conserve
    have ht := attached_eq hr hk
    refine ⟨reachable_exec h1 hr, by simp only; omega, ?_⟩
    unfold weightSum at h3 ⊢
    unfold Members.wsum at hc
    simp only
    omega

theorem step_cases (p : Params) (w : World) (o : Op) :
    (∃ w', exec p w o = .ok w' ∧ step p w o = w') ∨ step p w o = w := by
  unfold step
  cases exec p w o with
  | ok w' => exact .inl ⟨w', rfl, rfl⟩
  | error _ => exact .inr rfl

theorem inv_step {p : Params} {w : World} (hi : Inv p w) (o : Op) : Inv p (step p w o) := by
  rcases step_cases p w o with ⟨w', h1, h2⟩ | h2
  · rw [h2]; exact inv_exec hi h1
  · rw [h2]; exact hi

theorem inv_run {p : Params} {w : World} (hi : Inv p w) (l : List Op) : Inv p (run p w l) := by
  induction l generalizing w with
  | nil => exact hi
  | cons o t ih => exact ih (inv_step hi o)

theorem Reach.inv {p : Params} {w : World} (h : Reach p w) : Inv p w := by
  obtain ⟨w0, l, ⟨⟨b, as, u, hk, x, y, h1⟩, h2⟩, rfl⟩ := h
  refine inv_run ⟨⟨b, as, u, hk, x, y, [], h1⟩, h2, ?_⟩ l
  rw [h1]
  have h3 : weightSum (init b as u hk x y) = 0 := rfl
  have h4 : claimSum (init b as u hk x y) = 0 := rfl
  omega

end Verif.Custody.Token
