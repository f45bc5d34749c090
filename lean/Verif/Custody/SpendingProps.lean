import Verif.Custody.SpendingLemmas2

set_option linter.unusedSimpArgs false

/-!
# Property C106: the treasury pays for approved proposals, and for nothing else
-/

namespace Verif.Custody.Spending
open Verif Verif.Controller

/-! ### A sample -/

/-- Controller 1, treasury 10 and distributor 11 of a token DAO: users 7 and 8 have weights 40 and 30. -/
def smpP : Parties := ⟨1, (sampleEnv 0).comps, .token⟩

theorem smpP_wf : smpP.Wf := ⟨by decide, by decide⟩

/-- Answers at a time; custom messages do nothing. -/
def smpX (now : Nat) : Ext :=
  { env := sampleEnv now, denv := ⟨0, fun _ => false, ⟨Map.empty, Map.empty, Map.empty⟩, []⟩,
    free := fun w _ => .ok w, cosmos := fun w _ => .ok w, others := fun _ => some [], lucky := true }

/-- Another time the custom message 9 of the treasury sends 60 coins of denom 5 to user 66. -/
def smpWild (now : Nat) : Ext :=
  { smpX now with cosmos := fun w _ => pay w (.native 5) 10 66 60 }

/-- The treasury has 100 coins of denom 5. -/
def smpLed (a : AssetInfo) : Verif.Ledger := if a = .native 5 then Map.empty.set 10 100 else Map.empty

/-- The new DAO of the sample; denom 5 is whitelisted. -/
def smpStart : World :=
  { st := sampleInit, gov := Gov.init 1,
    tre := ⟨1, ⟨Map.empty.set 5 (), Map.empty, Map.empty⟩, Map.empty⟩,
    dis := ⟨1, 0, (Map.empty.set 7 40).set 8 30, (Map.empty.set 7 40).set 8 30, 70, Distributor.Ledger.empty,
      Distributor.Ledger.empty⟩,
    led := smpLed, now := 0 }

theorem smp_start : Start smpP smpStart :=
  ⟨⟨_, _, _, _, _, _, _, sampleInit_ok, rfl⟩, rfl, ⟨[.native 5], [], by decide +kernel⟩⟩

/-- Member 7 proposes to give 30 coins to user 8, to distribute 20 coins to the members, and a custom message of the
treasury, and votes for all of this. The first two are executed early. -/
def smpOps : List Op :=
  [ .call (smpX 10) 7 (.createProposal ⟨0, 0, [.requestFunding none 8 [⟨.native 5, 30⟩]], none⟩ []),
    .call (smpX 10) 7 (.createProposal ⟨0, 0, [.distributeFunds [⟨.native 5, 20⟩]], none⟩ []),
    .call (smpX 10) 7 (.createProposal ⟨0, 0, [.executeTreasuryMsgs none [9]], none⟩ []),
    .call (smpX 20) 7 (.castVote 1 .yes),
    .call (smpX 20) 7 (.castVote 2 .yes),
    .call (smpX 20) 7 (.castVote 3 .yes),
    .call (smpX (20 * 10 ^ 9)) 8 (.execute 1),
    .call (smpX (20 * 10 ^ 9)) 8 (.execute 2) ]

/-- The state after the first `n` operations. -/
def smpAfter (n : Nat) : World := (smpOps.take n).foldl (step smpP) smpStart

theorem smpX_tame (t : Nat) : (smpX t).Tame smpP :=
  ⟨fun h => by cases h; exact ⟨rfl, rfl, rfl, rfl, fun _ => le_rfl⟩,
    fun h => by cases h; exact ⟨rfl, rfl, rfl, rfl, fun _ => le_rfl⟩⟩

theorem smpX_fair {t : Nat} {w : World} (h1 : w.now ≤ t) (h2 : w.gov.pollCount + 1 < 2 ^ 64) :
    (smpX t).Fair smpP w := by
  refine ⟨h1, ⟨fun u => ?_, fun _ => ?_, fun u => ?_, fun _ => ?_⟩, h2, fun s l hl c hc => ?_⟩
  · show (if u = 7 then 40 else if u = 8 then 30 else 0) < M128
    unfold M128
    split
    · decide
    · split <;> decide
  · exact ⟨by show 70 < M128; decide, by show 70 < M128; decide⟩
  · show (if u = 9 then 1 else 0) < M128
    unfold M128
    split <;> decide
  · exact ⟨by show 1 < M128; decide, by show 1 < M128; decide⟩
  · cases hl
    cases hc

theorem smp_reach : ∀ n, n ≤ 8 → Reach smpP smpStart (smpAfter n) := by
  intro n
  induction n with
  | zero => intro _; exact .start smp_start
  | succ k ih =>
    intro hk
    have h0 := ih (by omega)
    have hlen : k < smpOps.length := by show k < 8; omega
    have h1 : smpAfter (k + 1) = step smpP (smpAfter k) (smpOps[k]'hlen) := by
      unfold smpAfter
      rw [List.take_add_one, List.getElem?_eq_getElem hlen, List.foldl_append]
      rfl
    rw [h1]
    refine .step h0 ?_
    have hfine : ∀ (t : Nat) (u : Addr) (m : Msg), (∀ l, m ≠ .weightsChanged l) → (smpAfter k).now ≤ t →
        (smpAfter k).gov.pollCount + 1 < 2 ^ 64 → Op.Fine smpP (smpAfter k) (.call (smpX t) u m) :=
      fun t u m hm ht hc => ⟨smpX_fair ht hc, smpX_tame t, fun l hl => absurd hl (hm l)⟩
    have hk8 : k = 0 ∨ k = 1 ∨ k = 2 ∨ k = 3 ∨ k = 4 ∨ k = 5 ∨ k = 6 ∨ k = 7 := by omega
    rcases hk8 with rfl | rfl | rfl | rfl | rfl | rfl | rfl | rfl <;>
      exact hfine _ _ _ (fun l hl => by cases hl) (by decide +kernel) (by decide +kernel)

/-! ### C106 -/

/-- Whatever happens next, and whatever custom messages do: if the treasury has less of an asset than before, then a
proposal was executed for the first time, its vote counted as passed, and it either contained a custom message or an
upgrade, or it is a general proposal that asked for this asset. -/
theorem C106_only {P : Parties} (hP : P.Wf) {w0 w : World} (h : Reach P w0 w) {o : Op} {a : AssetInfo}
    (hlt : ((step P w o).led a).bal P.comps.treasury < (w.led a).bal P.comps.treasury) :
    ∃ x u id i p y n, o = .call x u (.execute id) ∧ w.st.infos.get id = some i ∧ i.executedAt = none ∧
      w.gov.polls.get id = some p ∧ Gov.simulateEnd w.gov id (endTotal (P.env x) p i.type) = .ok (.passed y n) ∧
      ((∃ b ∈ i.actions, isFree b = true) ∨ (i.type = .general ∧ 0 < given a P.comps.treasury (asks P i))) := by
  have hi := reach_inv hP h
  unfold step at hlt
  cases hx : exec P w o with
  | error er => rw [hx] at hlt; exact absurd hlt (Nat.lt_irrefl _)
  | ok w' =>
    rw [hx] at hlt
    change (w'.led a).bal P.comps.treasury < _ at hlt
    cases hb : o.outer with
    | true =>
      have := (outer_ok hP hi.admin hb hx).2 a
      omega
    | false =>
      obtain ⟨x, u, m, w1, h1, hs, hb, hu, hop, hex⟩ := inner_ok hb hx
      by_cases hm : ∃ id, m = .execute id
      · obtain ⟨id, rfl⟩ := hm
        have := hex id rfl
        subst this
        have hop' : o = .call x u (.execute id) := by
          rcases hop with rfl | ⟨_, _, _, _, _, _, hh⟩
          · rfl
          · cases hh
        obtain ⟨i, p, w2, hg, hne, hp, _, hw2, _, _, ha, _⟩ := handle_execute h1
        have hdep : (w2.led a).bal P.comps.treasury ≤ (w'.led a).bal P.comps.treasury := by
          have := ha a P.comps.treasury
          rw [given_none (fun q hq => by rw [deposit_src q hq]; exact fun hh => hP.tre hh.symm)] at this
          omega
        rcases hw2 with rfl | ⟨⟨y, n, hst⟩, hrun⟩
        · have : ((ended P x w1 id i p).led a).bal P.comps.treasury = (w1.led a).bal P.comps.treasury := rfl
          omega
        · refine ⟨x, u, id, i, p, y, n, hop', hg, hne, hp, ?_, ?_⟩
          · unfold Gov.simulateEnd
            rw [hp, ← hst]
          · by_cases hf : ∃ b ∈ i.actions, isFree b = true
            · exact Or.inl hf
            · right
              have hget : (ended P x w1 id i p).st.infos.get id = some { i with executedAt := some x.env.block } :=
                Map.get_set_self _ _ _
              obtain ⟨_, hacc⟩ := (runActions_ok hget hrun).1 (fun b hb => by
                cases hh : isFree b with
                | false => rfl
                | true => exact absurd ⟨b, hb, hh⟩ hf)
              have h3 := hacc a P.comps.treasury
              have h4 : asks P { i with executedAt := some x.env.block } = asks P i := rfl
              have h5 : ((ended P x w1 id i p).led a).bal P.comps.treasury = (w1.led a).bal P.comps.treasury := rfl
              rw [h4, h5] at h3
              have hpos : 0 < given a P.comps.treasury (asks P i) := by omega
              refine ⟨?_, hpos⟩
              cases ht : i.type with
              | general => rfl
              | council =>
                exfalso
                have hharm := (hi.ctl.free id i hg ht).2
                have hnil : asks P i = [] := by
                  unfold asks
                  rw [List.flatMap_eq_nil_iff]
                  intro b hb
                  have := hharm b hb
                  cases b <;> first | rfl | (exfalso; revert this; simp [Action.type, Controller.harmless])
                rw [hnil] at hpos
                exact absurd hpos (Nat.lt_irrefl _)
      · obtain ⟨r, _, _, ha, _⟩ := handle_other (fun id hh => hm ⟨id, hh⟩) hu h1
        have h2 := ha a P.comps.treasury
        have h3 := hb a
        have h6 : given a P.comps.treasury ([] : List Payment) = 0 := rfl
        have h7 : gotten a P.comps.treasury ([] : List Payment) = 0 := rfl
        omega

/-- The sample: the treasury pays 30 coins when proposal 1 is executed; proposal 3 has a custom message. -/
example : ((step smpP (smpAfter 6) (.call (smpX (20 * 10 ^ 9)) 8 (.execute 1))).led (.native 5)).bal 10 = 70 ∧
    ((smpAfter 6).led (.native 5)).bal 10 = 100 ∧
    ((step smpP (smpAfter 6) (.call (smpWild (20 * 10 ^ 9)) 8 (.execute 3))).led (.native 5)).bal 10 = 40 ∧
    Reach smpP smpStart (smpAfter 6) :=
  ⟨by decide +kernel, by decide +kernel, by decide +kernel, smp_reach 6 (by decide)⟩

/-- The execution of a proposal without custom messages and upgrades: the vote is over, and the balances of all accounts
change by the payment of the deposit and, if the proposal passed, by either all the payments that it asks for, or none of
them. -/
theorem C106_exact {P : Parties} (hP : P.Wf) {w0 w : World} (h : Reach P w0 w) {x : Ext} {u : Addr} {id : Nat}
    {w' : World} (hx : exec P w (.call x u (.execute id)) = .ok w') {i : Info} (hi : w.st.infos.get id = some i)
    (hf : ∀ b ∈ i.actions, isFree b = false) :
    ∃ q paid, w'.gov.polls.get id = some q ∧ (∀ t, q.status ≠ .inProgress t) ∧
      (paid = [] ∨ (Passed q ∧ paid = asks P i)) ∧ Accounts w.led w'.led (depositDue P i q.status ++ paid) := by
  have hv := reach_inv hP h
  obtain ⟨x', u', m, w1, h1, hs, _, hu, hop, hex⟩ := inner_ok (o := .call x u (.execute id)) rfl hx
  rcases hop with hop | ⟨_, _, _, _, hh, _⟩
  swap
  · cases hh
  cases hop
  have := hex id rfl
  subst this
  obtain ⟨j, p, w2, hg, hne, hp, _, hw2, _, hs2, ha, _⟩ := handle_execute h1
  rw [hi] at hg
  cases hg
  rw [outcomePays_due (Gov.finalStatus_not_inProgress _ _) (fun ht => (hv.ctl.free id i hi ht).1)] at ha
  have hpoll : (ended P x w1 id i p).gov.polls.get id =
      some { p with status := p.finalStatus (endTotal (P.env x) p i.type) } := Map.get_set_self _ _ _
  have hfin : ∀ {v : World}, (∀ k, Dao.outline v.gov k = Dao.outline (ended P x w1 id i p).gov k) →
      ∃ q, v.gov.polls.get id = some q ∧ q.status = p.finalStatus (endTotal (P.env x) p i.type) := by
    intro v hv
    have := hv id
    unfold Dao.outline at this
    rw [hpoll] at this
    cases hq : v.gov.polls.get id with
    | none => rw [hq] at this; cases this
    | some q =>
      rw [hq] at this
      exact ⟨q, rfl, (Prod.mk.inj (Option.some.inj this)).2⟩
  rcases hw2 with rfl | ⟨⟨y, n, hst⟩, hrun⟩
  · obtain ⟨q, hq, hqs⟩ := hfin (v := w') (fun k => by rw [hs2.2.1])
    refine ⟨q, [], hq, fun t => ?_, Or.inl rfl, ?_⟩
    · rw [hqs]; exact Gov.finalStatus_not_inProgress _ _ _
    · rw [List.append_nil, hqs]
      exact ha
  · have hget : (ended P x w1 id i p).st.infos.get id = some { i with executedAt := some x.env.block } :=
      Map.get_set_self _ _ _
    obtain ⟨k, hacc⟩ := (runActions_ok hget hrun).1 hf
    obtain ⟨q, hq, hqs⟩ := hfin (v := w') (fun j => by rw [hs2.2.1]; exact k.polls j)
    refine ⟨q, asks P i, hq, fun t => ?_, Or.inr ⟨⟨y, n, by rw [hqs, hst]⟩, rfl⟩, ?_⟩
    · rw [hqs]; exact Gov.finalStatus_not_inProgress _ _ _
    · rw [hqs]
      exact (hacc.trans ha).perm List.perm_append_comm

/-- The sample: proposal 2 gives 20 coins to the distributor, and proposal 1 gives 30 coins to user 8. -/
example : (∃ w', exec smpP (smpAfter 7) (.call (smpX (20 * 10 ^ 9)) 8 (.execute 2)) = .ok w' ∧
      (w'.led (.native 5)).bal 10 = 50 ∧ (w'.led (.native 5)).bal 11 = 20) ∧
    ((smpAfter 7).led (.native 5)).bal 10 = 70 ∧ ((smpAfter 7).led (.native 5)).bal 8 = 30 ∧
    ∃ i, (smpAfter 7).st.infos.get 2 = some i ∧ (∀ b ∈ i.actions, isFree b = false) ∧
      asks smpP i = [⟨10, 11, .native 5, 20⟩] :=
  ⟨⟨_, rfl, by decide +kernel, by decide +kernel⟩, by decide +kernel, by decide +kernel,
    ⟨_, rfl, by decide +kernel, by decide +kernel⟩⟩

/-! ### Payments succeed -/

/-- The treasury has what some payments need. -/
structure Ready (P : Parties) (w : World) (l : List Payment) : Prop where
  fits : ∀ a, (w.led a).supply < 2 ^ 128
  enough : ∀ a, given a P.comps.treasury l ≤ (w.led a).bal P.comps.treasury

theorem pay_ready {P : Parties} {w : World} {dst : Addr} {a : AssetInfo} {n : Nat} {l : List Payment}
    (h : Ready P w (⟨P.comps.treasury, dst, a, n⟩ :: l)) :
    ∃ w', pay w a P.comps.treasury dst n = .ok w' ∧ Ready P w' l ∧ Still w w' := by
  have h1 := h.enough a
  rw [given_cons, if_pos ⟨rfl, rfl⟩] at h1
  dsimp only at h1
  have hm : ∃ led, Rewards.move w.led a P.comps.treasury dst n = .ok led := by
    unfold Rewards.move
    simp only [bind_ok_iff, pure_ok_iff]
    exact ⟨_, _, (Ledger.transfer_ok_iff (h.fits a)).2 ⟨by show n ≤ _; omega, rfl⟩, rfl⟩
  obtain ⟨led, hm⟩ := hm
  have hp : pay w a P.comps.treasury dst n = .ok { w with led := led } := by
    unfold pay
    rw [hm]
    rfl
  obtain ⟨s1, a1⟩ := pay_ok hp
  refine ⟨_, hp, ⟨fun b => ?_, fun b => ?_⟩, s1⟩
  · show (led b).supply < _
    rw [(Rewards.move_effect hm).1 b]
    exact h.fits b
  · have h2 := a1 b P.comps.treasury
    have h3 := h.enough b
    have h5 : given b P.comps.treasury ([] : List Payment) = 0 := rfl
    rw [given_cons] at h2 h3
    omega

theorem spend_ready {P : Parties} {x : Ext} {dst : Addr} {m : List Payment} : ∀ {l : List Asset} {w : World},
    (∀ a ∈ l, ∀ c k, a.info ≠ .cw1155 c k) →
    Ready P w (l.map (fun a => ⟨P.comps.treasury, dst, a.info, a.amount⟩) ++ m) →
    ∃ outs w', l.mapM (Treasury.transferMsg dst) = .ok outs ∧ outs.foldlM (treasuryOut P x) w = .ok w' ∧ Ready P w' m ∧
      Still w w' := by
  intro l
  induction l with
  | nil => intro w _ h; exact ⟨[], w, rfl, rfl, h, Still.refl _⟩
  | cons a t ih =>
    intro w ha h
    obtain ⟨w1, h1, h2, h3⟩ := pay_ready h
    obtain ⟨outs, w2, g1, g2, g3, g4⟩ := ih (fun b hb => ha b (List.mem_cons_of_mem _ hb)) h2
    have hn := ha a List.mem_cons_self
    have ho : ∃ o, Treasury.transferMsg dst a = .ok o ∧ treasuryOut P x w o = .ok w1 := by
      unfold Treasury.transferMsg
      cases hi : a.info with
      | native d => rw [hi] at h1; exact ⟨_, rfl, h1⟩
      | cw20 c => rw [hi] at h1; exact ⟨_, rfl, h1⟩
      | cw1155 c k => exact absurd hi (hn c k)
    obtain ⟨o, o1, o2⟩ := ho
    refine ⟨o :: outs, w2, ?_, foldlM_cons_ok_iff.2 ⟨w1, o2, g2⟩, g3, h3.trans g4⟩
    rw [List.mapM_cons, o1]
    show (do let bs ← t.mapM (Treasury.transferMsg dst); pure (o :: bs)) = _
    rw [g1]
    rfl

theorem funding_ready {P : Parties} {x : Ext} {s : State} : ∀ {l : List Action} {w : World}, w.tre.admin = P.me →
    (∀ b ∈ l, ∃ dst t, b = .requestFunding none dst t ∧ ∀ a ∈ t, ∀ c k, a.info ≠ .cw1155 c k) →
    Ready P w (l.flatMap (actionAsks P)) →
    ∃ subs w', DoesAll (P.env x) s l s subs ∧ subs.foldlM (runSub P x) w = .ok w' := by
  intro l
  induction l with
  | nil => intro w _ _ _; exact ⟨[], w, .nil _, rfl⟩
  | cons b t ih =>
    intro w hadm hb h
    obtain ⟨dst, as, rfl, hn⟩ := hb b List.mem_cons_self
    rw [List.flatMap_cons] at h
    obtain ⟨outs, w1, g1, g2, g3, g4⟩ := spend_ready (x := x) hn h
    obtain ⟨subs, w2, k1, k2⟩ := ih (by rw [g4.2.2.1]; exact hadm) (fun c hc => hb c (List.mem_cons_of_mem _ hc)) g3
    refine ⟨_, w2, .cons (.funding none dst as) k1, ?_⟩
    show List.foldlM (runSub P x) w (Sub.treasury none (.spend dst as) :: subs) = _
    rw [foldlM_cons_ok_iff]
    refine ⟨w1, ?_, k2⟩
    show runTreasury P x w P.me (.spend dst as) = _
    unfold runTreasury
    rw [bind_ok_iff]
    refine ⟨(w.tre, outs), ?_, g2⟩
    show Treasury.spend w.tre P.me dst as = _
    unfold Treasury.spend
    rw [if_neg (by rw [hadm]; exact fun hh => hh rfl), g1]
    rfl

/-- A passed proposal that only asks for funds of the treasury on this chain, no more than it has, gets all of it, unless
the actions fail for a reason outside of the contracts. -/
theorem C106_pays {P : Parties} (hP : P.Wf) {w0 w : World} (h : Reach P w0 w) {x : Ext} {u : Addr} {id : Nat}
    {w' : World} (hx : exec P w (.call x u (.execute id)) = .ok w') (hl : x.lucky = true) {i : Info}
    (hi : w.st.infos.get id = some i) {q : Gov.Poll} (hq : w'.gov.polls.get id = some q) (hpass : Passed q)
    (hf : ∀ b ∈ i.actions, ∃ dst t, b = .requestFunding none dst t ∧ ∀ a ∈ t, ∀ c k, a.info ≠ .cw1155 c k)
    (hfit : ∀ a, (w.led a).supply < 2 ^ 128)
    (henough : ∀ a, given a P.comps.treasury (asks P i) ≤ (w.led a).bal P.comps.treasury) :
    Accounts w.led w'.led (depositDue P i q.status ++ asks P i) := by
  have hv := reach_inv hP h
  have hfree : ∀ b ∈ i.actions, isFree b = false := by
    intro b hb
    obtain ⟨dst, t, rfl, _⟩ := hf b hb
    rfl
  obtain ⟨x', u', m, w1, h1, hs, _, hu, hop, hex⟩ := inner_ok (o := .call x u (.execute id)) rfl hx
  rcases hop with hop | ⟨_, _, _, _, hh, _⟩
  swap
  · cases hh
  cases hop
  have := hex id rfl
  subst this
  obtain ⟨j, p, w2, hg, hne, hp, _, hw2, hlucky, hs2, ha, _⟩ := handle_execute h1
  rw [hi] at hg
  cases hg
  rw [outcomePays_due (Gov.finalStatus_not_inProgress _ _) (fun ht => (hv.ctl.free id i hi ht).1)] at ha
  have hget : (ended P x w1 id i p).st.infos.get id = some { i with executedAt := some x.env.block } :=
    Map.get_set_self _ _ _
  have hpoll : (ended P x w1 id i p).gov.polls.get id =
      some { p with status := p.finalStatus (endTotal (P.env x) p i.type) } := Map.get_set_self _ _ _
  -- the actions succeed
  have hsucc : ∃ w3, runActions P x (ended P x w1 id i p) id = .ok w3 := by
    obtain ⟨subs, w3, k1, k2⟩ := funding_ready (x := x) (s := (ended P x w1 id i p).st) (l := i.actions)
      (w := ended P x w1 id i p) hv.admin hf ⟨hfit, henough⟩
    refine ⟨w3, ?_⟩
    unfold runActions
    rw [bind_ok_iff]
    refine ⟨((ended P x w1 id i p).st, (ended P x w1 id i p).gov, subs), ?_, k2⟩
    simp only [Controller.exec, bind_ok_iff, pure_ok_iff]
    exact ⟨((ended P x w1 id i p).st, subs), executeActions_ok_iff.2 ⟨rfl, _, hget, (actAll_iff _).2 k1⟩, rfl⟩
  -- the poll passed
  have hout : ∀ k, Dao.outline w'.gov k = Dao.outline (ended P x w1 id i p).gov k := by
    intro k
    rw [hs2.2.1]
    rcases hw2 with rfl | ⟨_, hrun⟩
    · rfl
    · exact ((runActions_ok hget hrun).1 hfree).1.polls k
  have hqs : q.status = p.finalStatus (endTotal (P.env x) p i.type) := by
    have := hout id
    unfold Dao.outline at this
    rw [hpoll, hq] at this
    exact (Prod.mk.inj (Option.some.inj this)).2
  obtain ⟨y, n, hy⟩ := hpass
  have hrun : runActions P x (ended P x w1 id i p) id = .ok w2 := by
    rcases hlucky hl ⟨y, n, by rw [← hqs, hy]⟩ with hr | ⟨er, hr⟩
    · exact hr
    · obtain ⟨w3, h3⟩ := hsucc
      rw [h3] at hr
      cases hr
  obtain ⟨k, hacc⟩ := (runActions_ok hget hrun).1 hfree
  rw [hqs]
  exact (hacc.trans ha).perm List.perm_append_comm

/-- The sample: proposal 1 asks for 30 of the 100 coins. -/
example : ∃ w' q i, exec smpP (smpAfter 6) (.call (smpX (20 * 10 ^ 9)) 8 (.execute 1)) = .ok w' ∧
    w'.gov.polls.get 1 = some q ∧ Passed q ∧ (smpAfter 6).st.infos.get 1 = some i ∧
    i.actions = [.requestFunding none 8 [⟨.native 5, 30⟩]] ∧ ((smpAfter 6).led (.native 5)).bal 10 = 100 ∧
    asks smpP i = [⟨10, 8, .native 5, 30⟩] ∧ depositDue smpP i q.status = [] :=
  ⟨_, _, _, rfl, rfl, ⟨_, _, rfl⟩, rfl, by decide +kernel, by decide +kernel, by decide +kernel, by decide +kernel⟩

/-- Over any history of a DAO, the treasury has at least what it had at the start, less what all the executed and passed
proposals together asked for: every proposal takes its funds at most once. -/
theorem C106_history {P : Parties} (hP : P.Wf) {w0 w : World} (h : Reach P w0 w) (a : AssetInfo) :
    (w0.led a).bal P.comps.treasury ≤ (w.led a).bal P.comps.treasury + spent P w a :=
  (reach_inv hP h).funds a

/-- The sample: 100 coins at the start, 50 are left and 50 are approved. -/
example : Reach smpP smpStart (smpAfter 8) ∧ (smpStart.led (.native 5)).bal 10 = 100 ∧
    ((smpAfter 8).led (.native 5)).bal 10 = 50 ∧ spent smpP (smpAfter 8) (.native 5) = 50 :=
  ⟨smp_reach 8 (by decide), by decide +kernel, by decide +kernel, by decide +kernel⟩

end Verif.Custody.Spending
