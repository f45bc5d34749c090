import Verif.Custody.Distribution
import Verif.Distributor.Props

set_option linter.unusedSimpArgs false

/-!
# Property C131: funds that a proposal distributes arrive with the members
-/

namespace Verif.Custody.Spending
open Verif Verif.Controller

/-- Execution of a proposal that hands out funds of the treasury, and nothing else: either nothing is paid and the
distributor is as before, or the proposal passed, everything it asks for is paid, and the rewards per unit of weight rise
by what it distributes, divided by the total weight. -/
theorem C131_exact {P : Parties} (hP : P.Wf) {w0 w : World} (h : Reach P w0 w) {x : Ext} {u : Addr} {id : Nat}
    {w' : World} (hx : exec P w (.call x u (.execute id)) = .ok w') {i : Info} (hi : w.st.infos.get id = some i)
    (hf : ∀ b ∈ i.actions, HandsOut b) :
    ∃ q, w'.gov.polls.get id = some q ∧
      ((Accounts w.led w'.led (depositDue P i q.status) ∧ w'.dis = w.dis) ∨
        (Passed q ∧ Accounts w.led w'.led (depositDue P i q.status ++ asks P i) ∧ Shared w.dis w'.dis (shares i))) := by
  have hv := reach_inv hP h
  have hfree : ∀ b ∈ i.actions, isFree b = false := fun b hb => (hf b hb).notFree
  obtain ⟨x', u', m, w1, h1, hs, _, hu, hop, hex⟩ := inner_ok (o := .call x u (.execute id)) rfl hx
  rcases hop with hop | ⟨_, _, _, _, hh, _⟩
  swap
  · cases hh
  cases hop
  have := hex id rfl
  subst this
  obtain ⟨j, p, w2, hg, hne, hp, _, hw2, _, hs2, ha, hdis⟩ := handle_execute h1
  rw [hi] at hg
  cases hg
  rw [outcomePays_due (Gov.finalStatus_not_inProgress _ _) (fun ht => (hv.ctl.free id i hi ht).1)] at ha
  have hpoll : (ended P x w1 id i p).gov.polls.get id =
      some { p with status := p.finalStatus (endTotal (P.env x) p i.type) } := Map.get_set_self _ _ _
  have hfin : ∀ {v : World}, (∀ k, Dao.outline v.gov k = Dao.outline (ended P x w1 id i p).gov k) →
      ∃ q, v.gov.polls.get id = some q ∧ q.status = p.finalStatus (endTotal (P.env x) p i.type) := by
    intro v hv
    have := hv id
    unfold Dao.outline at this
    rw [hpoll] at this
    cases hq : v.gov.polls.get id with
    | none => rw [hq] at this; cases this
    | some q =>
      rw [hq] at this
      exact ⟨q, rfl, (Prod.mk.inj (Option.some.inj this)).2⟩
  rcases hw2 with rfl | ⟨⟨y, n, hst⟩, hrun⟩
  · obtain ⟨q, hq, hqs⟩ := hfin (v := w') (fun k => by rw [hs2.2.1])
    refine ⟨q, hq, Or.inl ⟨?_, hdis⟩⟩
    rw [hqs]
    exact ha
  · have hget : (ended P x w1 id i p).st.infos.get id = some { i with executedAt := some x.env.block } :=
      Map.get_set_self _ _ _
    obtain ⟨k, hacc⟩ := (runActions_ok hget hrun).1 hfree
    obtain ⟨q, hq, hqs⟩ := hfin (v := w') (fun j => by rw [hs2.2.1]; exact k.polls j)
    refine ⟨q, hq, Or.inr ⟨⟨y, n, by rw [hqs, hst]⟩, ?_, ?_⟩⟩
    · rw [hqs]
      exact (hacc.trans ha).perm List.perm_append_comm
    · rw [hdis]
      have := runActions_shares hget hf hrun
      exact this

/-- Proposal 2 of the sample distributes 20 coins to members of weight 70. -/
example : ∃ w' i, exec smpP (smpAfter 7) (.call (smpX (20 * 10 ^ 9)) 8 (.execute 2)) = .ok w' ∧
    (smpAfter 7).st.infos.get 2 = some i ∧ i.actions = [.distributeFunds [⟨.native 5, 20⟩]] ∧
    shares i = [⟨.native 5, 20⟩] ∧ rate (smpAfter 7).dis (.native 5) = 0 ∧
    rate w'.dis (.native 5) = 20 * 10 ^ 18 / 70 ∧ raise 70 (.native 5) (shares i) = 20 * 10 ^ 18 / 70 :=
  ⟨_, _, rfl, rfl, by decide +kernel, by decide +kernel, by decide +kernel, by decide +kernel, by decide +kernel⟩

/-- A passed proposal that hands out funds of the treasury is carried out, unless its actions fail for a reason outside of
the contracts: when the treasury has what is asked for, and what is distributed is whitelisted, there are members, and the
rates do not overflow. -/
theorem C131_pays {P : Parties} (hP : P.Wf) {w0 w : World} (h : Reach P w0 w) {x : Ext} {u : Addr} {id : Nat}
    {w' : World} (hx : exec P w (.call x u (.execute id)) = .ok w') (hl : x.lucky = true) {i : Info}
    (hi : w.st.infos.get id = some i) {q : Gov.Poll} (hq : w'.gov.polls.get id = some q) (hpass : Passed q)
    (hf : ∀ b ∈ i.actions, HandsOut b) (hplain : ∀ b ∈ i.actions, ∀ a ∈ handed b, ∀ c k, a.info ≠ .cw1155 c k)
    (hfit : ∀ a, (w.led a).supply < 2 ^ 128)
    (henough : ∀ a, given a P.comps.treasury (asks P i) ≤ (w.led a).bal P.comps.treasury)
    (hposs : Possible x w (shares i)) :
    Accounts w.led w'.led (depositDue P i q.status ++ asks P i) ∧ Shared w.dis w'.dis (shares i) := by
  have hv := reach_inv hP h
  have hfree : ∀ b ∈ i.actions, isFree b = false := fun b hb => (hf b hb).notFree
  obtain ⟨x', u', m, w1, h1, hs, _, hu, hop, hex⟩ := inner_ok (o := .call x u (.execute id)) rfl hx
  rcases hop with hop | ⟨_, _, _, _, hh, _⟩
  swap
  · cases hh
  cases hop
  have := hex id rfl
  subst this
  obtain ⟨j, p, w2, hg, hne, hp, _, hw2, hlucky, hs2, ha, hdis⟩ := handle_execute h1
  rw [hi] at hg
  cases hg
  rw [outcomePays_due (Gov.finalStatus_not_inProgress _ _) (fun ht => (hv.ctl.free id i hi ht).1)] at ha
  have hget : (ended P x w1 id i p).st.infos.get id = some { i with executedAt := some x.env.block } :=
    Map.get_set_self _ _ _
  have hpoll : (ended P x w1 id i p).gov.polls.get id =
      some { p with status := p.finalStatus (endTotal (P.env x) p i.type) } := Map.get_set_self _ _ _
  have hsucc : ∃ w3, runActions P x (ended P x w1 id i p) id = .ok w3 := by
    obtain ⟨subs, w3, k1, k2⟩ := distribution_ready (x := x) (s := (ended P x w1 id i p).st) (l := i.actions)
      (w := ended P x w1 id i p) hv.admin hf hplain ⟨hfit, henough⟩ ⟨hposs.members, hposs.listed, hposs.fits⟩
    refine ⟨w3, ?_⟩
    unfold runActions
    rw [bind_ok_iff]
    refine ⟨((ended P x w1 id i p).st, (ended P x w1 id i p).gov, subs), ?_, k2⟩
    simp only [Controller.exec, bind_ok_iff, pure_ok_iff]
    exact ⟨((ended P x w1 id i p).st, subs), executeActions_ok_iff.2 ⟨rfl, _, hget, (actAll_iff _).2 k1⟩, rfl⟩
  have hout : ∀ k, Dao.outline w'.gov k = Dao.outline (ended P x w1 id i p).gov k := by
    intro k
    rw [hs2.2.1]
    rcases hw2 with rfl | ⟨_, hrun⟩
    · rfl
    · exact ((runActions_ok hget hrun).1 hfree).1.polls k
  have hqs : q.status = p.finalStatus (endTotal (P.env x) p i.type) := by
    have := hout id
    unfold Dao.outline at this
    rw [hpoll, hq] at this
    exact (Prod.mk.inj (Option.some.inj this)).2
  obtain ⟨y, n, hy⟩ := hpass
  have hrun : runActions P x (ended P x w1 id i p) id = .ok w2 := by
    rcases hlucky hl ⟨y, n, by rw [← hqs, hy]⟩ with hr | ⟨er, hr⟩
    · exact hr
    · obtain ⟨w3, h3⟩ := hsucc
      rw [h3] at hr
      cases hr
  obtain ⟨k, hacc⟩ := (runActions_ok hget hrun).1 hfree
  refine ⟨?_, ?_⟩
  · rw [hqs]
    exact (hacc.trans ha).perm List.perm_append_comm
  · rw [hdis]
    have := runActions_shares hget hf hrun
    exact this

/-- The sample: proposal 2 distributes 20 of the 70 coins of the treasury. -/
example : ∃ w' q i, exec smpP (smpAfter 7) (.call (smpX (20 * 10 ^ 9)) 8 (.execute 2)) = .ok w' ∧
    w'.gov.polls.get 2 = some q ∧ Passed q ∧ (smpAfter 7).st.infos.get 2 = some i ∧
    shares i = [⟨.native 5, 20⟩] ∧ ((smpAfter 7).led (.native 5)).bal 10 = 70 ∧ (smpAfter 7).dis.total = 70 ∧
    (smpAfter 7).tre.assets.Has (.native 5) ∧ (∀ b ∈ i.actions, HandsOut b) ∧
    Possible (smpX (20 * 10 ^ 9)) (smpAfter 7) [⟨.native 5, 20⟩] := by
  refine ⟨_, _, _, rfl, rfl, ⟨_, _, rfl⟩, rfl, by decide +kernel, by decide +kernel, by decide +kernel,
    by decide +kernel, fun b hb => ?_, fun _ => by decide +kernel, fun y hy => ?_, fun a => ?_⟩
  · rw [List.mem_singleton.1 hb]
    exact Or.inr ⟨_, rfl⟩
  · rw [List.mem_singleton.1 hy]
    exact Or.inl (by decide +kernel)
  · have h1 : (smpAfter 7).dis = smpStart.dis := by decide +kernel
    rw [h1, raise_cons]
    have h2 : rate smpStart.dis a = 0 := by cases a <;> rfl
    rw [h2]
    have h3 : raise smpStart.dis.total a [] = 0 := rfl
    rw [h3]
    split
    · decide +kernel
    · decide

/-- The amount of an asset in a list. -/
def amountOf (a : AssetInfo) (l : List Asset) : Nat := (l.map (fun y => if y.info = a then y.amount else 0)).sum

/-- How often an asset is in a list. -/
def timesOf (a : AssetInfo) (l : List Asset) : Nat := (l.filter (fun y => decide (y.info = a))).length

theorem raise_step {t o n r m k : Nat} (ht : 0 < t) (h1 : t * r ≤ o * m) (h2 : o * m ≤ t * r + t * k) :
    t * (n * o / t + r) ≤ o * (n + m) ∧ o * (n + m) ≤ t * (n * o / t + r) + t * (1 + k) := by
  have h3 := Nat.mul_div_le (n * o) t
  have h4 := Nat.lt_mul_div_succ (n * o) ht
  rw [Nat.mul_succ] at h4
  rw [Nat.mul_add, Nat.mul_add, Nat.mul_add, Nat.mul_comm o n, Nat.mul_one]
  omega

theorem raise_bounds {t : Nat} (ht : 0 < t) (a : AssetInfo) : ∀ l : List Asset,
    t * raise t a l ≤ ONE * amountOf a l ∧ ONE * amountOf a l ≤ t * raise t a l + t * timesOf a l := by
  intro l
  induction l with
  | nil => exact ⟨by simp [raise], by simp [amountOf]⟩
  | cons y l ih =>
    have e1 : amountOf a (y :: l) = (if y.info = a then y.amount else 0) + amountOf a l := by
      unfold amountOf; rw [List.map_cons, List.sum_cons]
    have e2 : timesOf a (y :: l) = (if y.info = a then 1 else 0) + timesOf a l := by
      unfold timesOf
      by_cases hh : y.info = a
      · simp [hh]; omega
      · simp [hh]
    rw [raise_cons, e1, e2]
    by_cases hh : y.info = a
    · rw [if_pos hh, if_pos hh, if_pos hh]
      exact raise_step ht ih.1 ih.2
    · rw [if_neg hh, if_neg hh, if_neg hh, Nat.zero_add, Nat.zero_add, Nat.zero_add]
      exact ih

/-- When funds arrive with the distributor, each member can claim a share of them: of the amount `A` of a denom, a member
of weight `e` gets `A*e/T`, with `T` the total weight, up to rounding: less than `A*e/T + 1`, and more than
`A*e/T - 1 - k*e/10^18`, where `k` is the number of times that the denom is listed. -/
theorem C131_native {s s' : Distributor.State} (hr : Distributor.Reachable s) {l : List Asset} (hl : l ≠ [])
    (h : Shared s s' l) (u : Addr) (d after : Nat)
    (hq : Distributor.queryRewards s' u [d] [] = .ok ([(d, after)], [])) :
    ∃ before, Distributor.queryRewards s u [d] [] = .ok ([(d, before)], []) ∧ before ≤ after ∧
      s.total * (after - before) < amountOf (.native d) l * Distributor.effective s u + s.total ∧
      amountOf (.native d) l * Distributor.effective s u * 10 ^ 18 < 10 ^ 18 * s.total * (after - before) +
        10 ^ 18 * s.total + timesOf (.native d) l * Distributor.effective s u * s.total := by
  have ht := Nat.pos_of_ne_zero (h.members hl)
  obtain ⟨b1, b2⟩ := raise_bounds ht (.native d) l
  have he : Distributor.effective s' u = Distributor.effective s u := by
    unfold Distributor.effective; rw [h.effective]
  have hq' := Distributor.query_native.1 hq
  rw [he] at hq'
  obtain ⟨r, hr1, hr2, hr3, hr4⟩ := Distributor.amt_growth h.native (hr.inv.native.index_le u d) (h.rates (.native d)) b1 b2
    ht hq'
  exact ⟨r, Distributor.query_native.2 hr1, hr2, hr3, hr4⟩

/-- The same for tokens. -/
theorem C131_cw20 {s s' : Distributor.State} (hr : Distributor.Reachable s) {l : List Asset} (hl : l ≠ [])
    (h : Shared s s' l) (u : Addr) (t after : Nat)
    (hq : Distributor.queryRewards s' u [] [t] = .ok ([], [(t, after)])) :
    ∃ before, Distributor.queryRewards s u [] [t] = .ok ([], [(t, before)]) ∧ before ≤ after ∧
      s.total * (after - before) < amountOf (.cw20 t) l * Distributor.effective s u + s.total ∧
      amountOf (.cw20 t) l * Distributor.effective s u * 10 ^ 18 < 10 ^ 18 * s.total * (after - before) +
        10 ^ 18 * s.total + timesOf (.cw20 t) l * Distributor.effective s u * s.total := by
  have ht := Nat.pos_of_ne_zero (h.members hl)
  obtain ⟨b1, b2⟩ := raise_bounds ht (.cw20 t) l
  have he : Distributor.effective s' u = Distributor.effective s u := by
    unfold Distributor.effective; rw [h.effective]
  have hq' := Distributor.query_cw20.1 hq
  rw [he] at hq'
  obtain ⟨r, hr1, hr2, hr3, hr4⟩ := Distributor.amt_growth h.cw20 (hr.inv.cw20.index_le u t) (h.rates (.cw20 t)) b1 b2
    ht hq'
  exact ⟨r, Distributor.query_cw20.2 hr1, hr2, hr3, hr4⟩

/-- The sample: of the 20 coins, member 7 of weight 40 can claim 11 and member 8 of weight 30 can claim 8. -/
example : Distributor.Reachable (smpAfter 7).dis ∧
    Distributor.queryRewards (smpAfter 7).dis 7 [5] [] = .ok ([(5, 0)], []) ∧
    Distributor.queryRewards (smpAfter 8).dis 7 [5] [] = .ok ([(5, 11)], []) ∧
    Distributor.queryRewards (smpAfter 8).dis 8 [5] [] = .ok ([(5, 8)], []) ∧
    Distributor.effective (smpAfter 7).dis 7 = 40 ∧ Distributor.effective (smpAfter 7).dis 8 = 30 :=
  ⟨⟨1, none, [(7, 40), (8, 30)], (smpAfter 7).dis, [], by decide +kernel, rfl⟩, by decide +kernel, by decide +kernel,
    by decide +kernel, by decide +kernel, by decide +kernel⟩

end Verif.Custody.Spending
