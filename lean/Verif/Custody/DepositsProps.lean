import Verif.Custody.Deposits

set_option linter.unusedSimpArgs false

/-!
# Property C105: deposits of proposals are there when they are due
-/

namespace Verif.Custody.Deposits
open Verif Verif.Controller

/-! ### A sample -/

/-- A DAO of denom 5, with controller 1 and treasury 10: users 7 and 8 have weights 40 and 30. -/
def smpEnv (now : Nat) : Controller.Env := { sampleEnv now with daoType := .denom, denom := some 5 }

/-- The same as a DAO of the NFTs of contract 21. -/
def smpNftEnv (now : Nat) : Controller.Env := { sampleEnv now with daoType := .nft, nft := some 21 }

/-- The balances of the sample: users 7 and 8 have 100 coins of denom 5 each. -/
def smpLed (a : AssetInfo) : Verif.Ledger :=
  if a = .native 5 then (Map.empty.set 7 100).set 8 100 else Map.empty

/-- The start of the sample: user 7 has NFTs 1 and 2 of contract 21. -/
def smpStart : World :=
  { st := sampleInit, gov := Gov.init 1, led := smpLed,
    nfts := fun c => if c = 21 then (Map.empty.set 1 ⟨7, []⟩).set 2 ⟨7, []⟩ else Map.empty,
    ops := fun _ _ _ => false, due := [] }

theorem smp_start : Start 1 smpStart := by
  refine ⟨⟨_, _, _, _, _, _, _, _, sampleInit_ok, rfl⟩, fun a => ?_, fun c t x hx => ?_, fun _ _ => rfl, rfl⟩
  · show (smpLed a).supply < _
    unfold smpLed
    split <;> decide +kernel
  · change ((if c = 21 then (Map.empty.set 1 ⟨7, []⟩).set 2 ⟨7, []⟩ else Map.empty) : Map Nat Token).get t = some x at hx
    split at hx
    · rw [Map.get_set, Map.get_set] at hx
      split at hx
      · cases hx; decide
      · split at hx
        · cases hx; decide
        · cases hx
    · cases hx

/-- 7 proposes with a deposit of 10 coins, 8 with one of 20 coins, 7 votes for both. -/
def smpOps : List Op :=
  [ .call (smpEnv 10) 7 (.createProposal ⟨0, 0, [.executeMsgs [1]], none⟩ [(5, 10)]),
    .call (smpEnv 10) 8 (.createProposal ⟨0, 0, [], none⟩ [(5, 20)]),
    .call (smpEnv 20) 7 (.castVote 1 .yes),
    .call (smpEnv 20) 7 (.castVote 2 .yes) ]

/-- The same with the NFTs of 7, the controller being an operator. -/
def smpNftOps : List Op :=
  [ .operator 21 7 1 true,
    .call (smpNftEnv 10) 7 (.createWithNft ⟨0, 0, [], none⟩ [1, 2]),
    .call (smpNftEnv 20) 7 (.castVote 1 .no) ]

theorem smp_reach : Reach 1 (run 1 smpStart smpOps) := by
  refine ⟨_, _, smp_start, fun o ho => ?_, rfl⟩
  simp only [smpOps, List.mem_cons, List.not_mem_nil, or_false] at ho
  rcases ho with rfl | rfl | rfl | rfl <;> trivial

theorem smp_nft_reach : Reach 1 (run 1 smpStart smpNftOps) := by
  refine ⟨_, _, smp_start, fun o ho => ?_, rfl⟩
  simp only [smpNftOps, List.mem_cons, List.not_mem_nil, or_false] at ho
  rcases ho with rfl | rfl | rfl <;> trivial

/-! ### What deposits are worth -/

/-- The amount of an asset in a deposit. -/
def coins (a : AssetInfo) : DepositAsset → Nat
  | .denom d n => if a = .native d then n else 0
  | .cw20 t n => if a = .cw20 t then n else 0
  | .cw721 _ _ => 0

/-- The NFTs in a deposit. -/
def tokens (c : Addr) : DepositAsset → List Nat
  | .cw721 c' l => if c = c' then l else []
  | _ => []

/-- The deposits of the proposals not yet resolved. -/
def openDeposits (s : State) : List DepositAsset :=
  s.infos.entries.filterMap (fun p => if p.2.executedAt = none then p.2.deposit.map Deposit.asset else none)

/-- The amount of an asset in a transfer. -/
def coinsSent (a : AssetInfo) : Transfer → Nat
  | .asset b n _ => if a = b then n else 0
  | .nft _ _ _ => 0

theorem coins_eq (a : AssetInfo) (d : DepositAsset) : (Item.coin a).inAsset d = coins a d := by
  cases d with
  | denom d n =>
    cases a with
    | native d' =>
      show (if d = d' then n else 0) = if AssetInfo.native d' = .native d then n else 0
      by_cases h : d = d'
      · rw [if_pos h, if_pos (by rw [h])]
      · rw [if_neg h, if_neg (by intro hh; cases hh; exact h rfl)]
    | cw20 _ => rfl
    | cw1155 _ _ => rfl
  | cw20 t n =>
    cases a with
    | native d' => rfl
    | cw20 t' =>
      show (if t = t' then n else 0) = if AssetInfo.cw20 t' = .cw20 t then n else 0
      by_cases h : t = t'
      · rw [if_pos h, if_pos (by rw [h])]
      · rw [if_neg h, if_neg (by intro hh; cases hh; exact h rfl)]
    | cw1155 _ _ => rfl
  | cw721 c l => cases a <;> rfl

theorem coinsSent_eq (a : AssetInfo) (t : Transfer) : (Item.coin a).inTransfer t = coinsSent a t := by
  cases t with
  | asset b n dst =>
    show (if b = a then n else 0) = if a = b then n else 0
    by_cases h : b = a
    · rw [if_pos h, if_pos h.symm]
    · rw [if_neg h, if_neg (fun hh => h hh.symm)]
  | nft _ _ _ => rfl

theorem inInfo_eq (x : Item) (i : Info) :
    x.inInfo i = match (if i.executedAt = none then i.deposit.map Deposit.asset else none) with
      | some d => x.inAsset d
      | none => 0 := by
  unfold Item.inInfo
  cases i.executedAt with
  | none => cases i.deposit <;> rfl
  | some _ => rfl

theorem open_sum (x : Item) (s : State) :
    s.infos.sum (fun _ i => x.inInfo i) = ((openDeposits s).map x.inAsset).sum := by
  unfold openDeposits Map.sum
  induction s.infos.entries with
  | nil => rfl
  | cons p l ih =>
    rw [List.map_cons, List.sum_cons, ih]
    beta_reduce
    rw [inInfo_eq, List.filterMap_cons]
    cases (if p.2.executedAt = none then p.2.deposit.map Deposit.asset else none) with
    | none => exact Nat.zero_add _
    | some d => rfl

/-! ## The theorems -/

/-- At any time the controller has at least the sum of the deposits of all unresolved proposals, beyond what it is
about to transfer for those resolved. -/
theorem C105_covered {me : Addr} {w : World} (h : Reach me w) (a : AssetInfo) :
    ((openDeposits w.st).map (coins a)).sum + (w.due.map (coinsSent a)).sum ≤ (w.led a).bal me := by
  have h1 := h.inv.backed (.coin a)
  unfold owed at h1
  rw [open_sum] at h1
  have e1 : (Item.coin a).inAsset = coins a := funext (coins_eq a)
  have e2 : (Item.coin a).inTransfer = coinsSent a := funext (coinsSent_eq a)
  rw [e1, e2] at h1
  exact h1

/-- In the sample, 30 coins are deposited and held. -/
example : Reach 1 (run 1 smpStart smpOps) ∧
    ((openDeposits (run 1 smpStart smpOps).st).map (coins (.native 5))).sum = 30 ∧
    ((run 1 smpStart smpOps).led (.native 5)).bal 1 = 30 := ⟨smp_reach, by decide +kernel, by decide +kernel⟩

theorem info_le (x : Item) {m : Map Nat Info} {id : Nat} {i : Info} (hi : m.get id = some i) :
    x.inInfo i ≤ m.sum (fun _ i => x.inInfo i) := Map.le_sum (fun _ i => x.inInfo i) hi

theorem two_infos_le (x : Item) {m : Map Nat Info} {id id' : Nat} {i i' : Info} (hi : m.get id = some i)
    (hi' : m.get id' = some i') (hne : id ≠ id') : x.inInfo i + x.inInfo i' ≤ m.sum (fun _ i => x.inInfo i) := by
  have h1 := Map.sum_remove m (fun _ i => x.inInfo i) id
  rw [hi, Map.contrib_some] at h1
  have h2 : (m.remove id).get id' = some i' := by rw [Map.get_remove, if_neg hne]; exact hi'
  have h3 := info_le x h2
  omega

/-- Every NFT deposited for an unresolved proposal belongs to the controller, nobody is approved for it, and it is
deposited for no other unresolved proposal. -/
theorem C105_nfts {me : Addr} {w : World} (h : Reach me w) {id : Nat} {i : Info} {d : Deposit} {c : Addr} {t : Nat}
    (hi : w.st.infos.get id = some i) (hx : i.executedAt = none) (hd : i.deposit = some d) (ht : t ∈ tokens c d.asset) :
    (w.nfts c).get t = some ⟨me, []⟩ ∧
    (∀ id' i' d', w.st.infos.get id' = some i' → i'.executedAt = none → i'.deposit = some d' →
      t ∈ tokens c d'.asset → id' = id) := by
  have hin : ∀ {i : Info} {d : Deposit}, i.executedAt = none → i.deposit = some d → t ∈ tokens c d.asset →
      1 ≤ (Item.nft c t).inInfo i := by
    intro i d hx hd ht
    unfold Item.inInfo
    rw [hx, hd]
    show 1 ≤ (Item.nft c t).inAsset d.asset
    cases ha : d.asset with
    | denom _ _ => rw [ha] at ht; cases ht
    | cw20 _ _ => rw [ha] at ht; cases ht
    | cw721 c' l =>
      rw [ha] at ht
      change t ∈ (if c = c' then l else []) at ht
      by_cases hc : c = c'
      · rw [if_pos hc] at ht
        show 1 ≤ if c' = c then l.count t else 0
        rw [if_pos hc.symm]
        exact List.count_pos_iff.2 ht
      · rw [if_neg hc] at ht; cases ht
  have hb := h.inv.backed (.nft c t)
  have hle : holds me w (.nft c t) ≤ 1 := by unfold holds; simp only; split <;> decide
  have h1 := hin hx hd ht
  refine ⟨?_, fun id' i' d' hi' hx' hd' ht' => ?_⟩
  · have h2 := info_le (.nft c t) hi
    have h3 : holds me w (.nft c t) ≠ 0 := by unfold owed at hb; omega
    have h4 : ((w.nfts c).get t).map Token.owner = some me := by
      by_contra hh
      exact h3 (if_neg hh)
    cases hy : (w.nfts c).get t with
    | none => rw [hy] at h4; cases h4
    | some y =>
      rw [hy] at h4
      have ho : y.owner = me := Option.some.inj h4
      have hs := h.inv.noSpender c t y hy ho
      cases y
      cases ho; cases hs
      rfl
  · by_contra hne
    have h2 := two_infos_le (.nft c t) hi' hi hne
    have h3 := hin hx' hd' ht'
    unfold owed at hb
    omega

/-- In the sample, NFTs 1 and 2 of contract 21 are deposited for proposal 1. -/
example : Reach 1 (run 1 smpStart smpNftOps) ∧
    ((run 1 smpStart smpNftOps).st.infos.get 1).map (fun i => (i.executedAt, i.deposit)) =
      some (none, some ⟨7, .cw721 21 [1, 2]⟩) ∧
    ((run 1 smpStart smpNftOps).nfts 21).get 2 = some ⟨1, []⟩ :=
  ⟨smp_nft_reach, by decide +kernel, by decide +kernel⟩

/-- The recipient of a transfer. -/
def recipient : Transfer → Addr
  | .asset _ _ r => r
  | .nft _ _ r => r

/-- Whatever the actions of the proposal did before: the next transfer of a deposit succeeds, and the recipient gets
exactly what it says. -/
theorem C105_pays {me : Addr} {w : World} (h : Reach me w) {t : Transfer} {l : List Transfer} (hd : w.due = t :: l) :
    ∃ w', exec me w .pay = .ok w' ∧ w'.due = l ∧ w'.st = w.st ∧
      (recipient t ≠ me → ∀ a, (w'.led a).bal (recipient t) = (w.led a).bal (recipient t) + coinsSent a t) ∧
      (∀ a v, v ≠ me → v ≠ recipient t → (w'.led a).bal v = (w.led a).bal v) ∧
      (∀ c n, (w'.nfts c).get n = if t = .nft c n (recipient t) then some ⟨recipient t, []⟩ else (w.nfts c).get n) := by
  obtain ⟨w1, h1⟩ := give_ok h.inv hd
  refine ⟨{ w1 with due := l }, ?_, rfl, ?_⟩
  · simp only [exec, hd, h1]
    rfl
  cases t with
  | asset a n dst =>
    simp only [give, bind_ok_iff, pure_ok_iff] at h1
    obtain ⟨led, hl, rfl⟩ := h1
    obtain ⟨_, e2, e3, e4⟩ := Rewards.move_effect hl
    refine ⟨rfl, fun hr b => ?_, fun b v hv hr => ?_, fun c n => by rw [if_neg (by intro hh; cases hh)]⟩
    · show (led b).bal dst = (w.led b).bal dst + if b = a then n else 0
      by_cases hb : b = a
      · subst hb
        rw [if_pos rfl]
        exact (e4 (fun hh => hr hh.symm)).2.1
      · rw [if_neg hb, e2 b hb]
        rfl
    · show (led b).bal v = _
      by_cases hb : b = a
      · subst hb
        by_cases hm : me = dst
        · exact e3 hm v
        · exact (e4 hm).2.2 v hv hr
      · rw [e2 b hb]
  | nft c t dst =>
    obtain ⟨y, _, _, rfl⟩ := transferNft_ok_iff.1 h1
    refine ⟨rfl, fun _ _ => rfl, fun _ _ _ _ => rfl, fun c' t' => ?_⟩
    show ((if c' = c then (w.nfts c).set t ⟨dst, []⟩ else w.nfts c') : Map Nat Token).get t' = _
    rw [get_moved]
    by_cases hc : c' = c ∧ t' = t
    · obtain ⟨rfl, rfl⟩ := hc
      rw [if_pos ⟨rfl, rfl⟩]
      exact (if_pos rfl).symm
    · rw [if_neg hc, if_neg (fun hh => by cases hh; exact hc ⟨rfl, rfl⟩)]

/-- In the sample, the execution of proposal 1 makes the return of 10 coins to user 7 due. -/
example : Reach 1 (run 1 smpStart (smpOps ++ [.call (smpEnv (20 * 10 ^ 9)) 8 (.execute 1)])) ∧
    (run 1 smpStart (smpOps ++ [.call (smpEnv (20 * 10 ^ 9)) 8 (.execute 1)])).due =
      [.asset (.native 5) 10 7] := by
  refine ⟨?_, by decide +kernel⟩
  rw [run_append]
  exact smp_reach.run (fun o ho => by rw [List.mem_singleton.1 ho]; trivial)

/-- All transfers that are due, when they have one recipient. -/
theorem pay_all {me r : Addr} (hr : r ≠ me) : ∀ (l : List Transfer) {w : World}, Reach me w → w.due = l →
    (∀ t ∈ l, recipient t = r) →
    (run me w (List.replicate l.length .pay)).due = [] ∧
    (∀ a, ((run me w (List.replicate l.length .pay)).led a).bal r = (w.led a).bal r + (l.map (coinsSent a)).sum) ∧
    (∀ a v, v ≠ me → v ≠ r → ((run me w (List.replicate l.length .pay)).led a).bal v = (w.led a).bal v) ∧
    (∀ c n, ((run me w (List.replicate l.length .pay)).nfts c).get n =
      if Transfer.nft c n r ∈ l then some ⟨r, []⟩ else (w.nfts c).get n) := by
  intro l
  induction l with
  | nil =>
    intro w _ hd _
    exact ⟨hd, fun a => rfl, fun _ _ _ _ => rfl, fun c n => by rw [if_neg (by intro hh; cases hh)]; rfl⟩
  | cons t l ih =>
    intro w h hd hl
    obtain ⟨w', h1, h2, _, h4, h5, h6⟩ := C105_pays h hd
    have hs : step me w .pay = w' := by unfold step; rw [h1]
    have hrt := hl t List.mem_cons_self
    rw [hrt] at h4 h5 h6
    have hreach : Reach me w' := by rw [← hs]; exact h.step trivial
    obtain ⟨i1, i2, i3, i4⟩ := ih hreach h2 (fun x hx => hl x (List.mem_cons_of_mem _ hx))
    have hrun : run me w (List.replicate (t :: l).length .pay) = run me w' (List.replicate l.length .pay) := by
      show run me (step me w .pay) _ = _
      rw [hs]
    rw [hrun]
    refine ⟨i1, fun a => ?_, fun a v hv hvr => ?_, fun c n => ?_⟩
    · rw [i2, h4 hr a, List.map_cons, List.sum_cons]; omega
    · rw [i3 a v hv hvr, h5 a v hv hvr]
    · rw [i4, h6]
      by_cases hm : Transfer.nft c n r ∈ l
      · rw [if_pos hm, if_pos (List.mem_cons_of_mem _ hm)]
      · rw [if_neg hm]
        by_cases ht : t = .nft c n r
        · rw [if_pos ht, if_pos (by rw [ht]; exact List.mem_cons_self)]
        · rw [if_neg ht, if_neg (fun hh => ?_)]
          rcases List.mem_cons.1 hh with hh | hh
          · exact ht hh.symm
          · exact hm hh

/-- Results after which a deposit is forfeited. -/
def Forfeited (st : Gov.Status) : Prop := st = .rejected .quorumNotReached ∨ st = .rejected .isVetoOutcome

theorem due_of_execute {me : Addr} {w w1 : World} {e : Controller.Env} {u : Addr} {id : Nat} {i : Info} {d : Deposit}
    {q : Gov.Poll} (hi : w.st.infos.get id = some i) (hg : i.type = .general) (hd : i.deposit = some d)
    (hx : exec me w (.call e u (.execute id)) = .ok w1) (hq : w1.gov.polls.get id = some q) {r : Addr}
    (hr : (Forfeited q.status → r = e.comps.treasury) ∧ (¬ Forfeited q.status → r = d.depositor)) :
    w1.due = w.due ++ depositTransfers d.asset r ∧ w1.led = w.led ∧ w1.nfts = w.nfts := by
  simp only [exec, ite_ok_iff, bind_ok_iff] at hx
  obtain ⟨hs, l, hl, hx⟩ := hx
  have hl' : l = w.led := by cases hl; rfl
  subst hl'
  unfold handle at hx
  rw [bind_ok_iff] at hx
  obtain ⟨z, h1, h2⟩ := hx
  have hn := notake (m := .execute id) rfl h1
  have h3 := after_plain hn h2
  obtain ⟨_, i', p, hi', hp, _, _, _, _, _, rfl⟩ := executeProposal_ok_iff.1 h1
  rw [hi] at hi'; cases hi'
  subst h3
  change (endedPoll w.gov id p (endTotal (envOf me w e) p i.type)).polls.get id = some q at hq
  unfold endedPoll at hq
  rw [Map.get_set_self] at hq
  cases hq
  refine ⟨?_, rfl, rfl⟩
  show w.due ++ subDue (outcomeSubs (envOf me w e) id i (p.finalStatus (endTotal (envOf me w e) p i.type))) = _
  congr 1
  change (Forfeited (p.finalStatus (endTotal (envOf me w e) p i.type)) → _) ∧
    (¬ Forfeited (p.finalStatus (endTotal (envOf me w e) p i.type)) → _) at hr
  have hni := Gov.finalStatus_not_inProgress p (endTotal (envOf me w e) p i.type)
  generalize p.finalStatus (endTotal (envOf me w e) p i.type) = st at hr hni
  have hret : subDue (returnDeposit id i) = depositTransfers d.asset d.depositor := by
    unfold returnDeposit
    rw [hd]
    exact subDue_map _ _
  cases st with
  | inProgress x => exact absurd rfl (hni x)
  | passed o n =>
    have hnf : ¬ Forfeited (Gov.Status.passed o n) := by rintro (hh | hh) <;> cases hh
    rw [hr.2 hnf]
    exact hret
  | rejected rs =>
    show subDue (rejectedDeposit (envOf me w e) id i rs) = _
    unfold rejectedDeposit
    rw [hg]
    simp only
    by_cases hrs : rs = .quorumNotReached ∨ rs = .isVetoOutcome
    · rw [if_pos hrs, hd]
      have hf : Forfeited (.rejected rs) := by
        rcases hrs with rfl | rfl
        · exact Or.inl rfl
        · exact Or.inr rfl
      rw [hr.1 hf]
      exact subDue_map _ _
    · rw [if_neg hrs]
      have hnf : ¬ Forfeited (.rejected rs) := by
        rintro (hh | hh)
        · cases hh; exact hrs (Or.inl rfl)
        · cases hh; exact hrs (Or.inr rfl)
      rw [hr.2 hnf]
      exact hret

theorem transfers_recipient (a : DepositAsset) (r : Addr) : ∀ t ∈ depositTransfers a r, recipient t = r := by
  intro t ht
  cases a with
  | denom d n => rw [List.mem_singleton.1 ht]; rfl
  | cw20 c n => rw [List.mem_singleton.1 ht]; rfl
  | cw721 c l =>
    obtain ⟨x, _, rfl⟩ := List.mem_map.1 ht
    rfl

theorem transfers_nft (a : DepositAsset) (r c : Addr) (n : Nat) :
    Transfer.nft c n r ∈ depositTransfers a r ↔ n ∈ tokens c a := by
  cases a with
  | denom d m =>
    constructor
    · intro h; cases List.mem_singleton.1 h
    · intro h; cases h
  | cw20 d m =>
    constructor
    · intro h; cases List.mem_singleton.1 h
    · intro h; cases h
  | cw721 c' l =>
    show _ ∈ l.map _ ↔ n ∈ if c = c' then l else []
    constructor
    · intro h
      obtain ⟨x, hx, hh⟩ := List.mem_map.1 h
      cases hh
      rw [if_pos rfl]
      exact hx
    · intro h
      by_cases hc : c = c'
      · subst hc
        rw [if_pos rfl] at h
        exact List.mem_map.2 ⟨n, h, rfl⟩
      · rw [if_neg hc] at h; cases h

/-- An execution that goes through, followed by the transfers it makes due, gives the whole deposit to the depositor,
or to the treasury when the quorum was missed or the proposal vetoed, and nothing to anybody else. -/
theorem C105_resolved {me : Addr} {w w1 : World} (h : Reach me w) (hw : w.due = []) {e : Controller.Env} {u : Addr}
    {id : Nat} {i : Info} {d : Deposit} {q : Gov.Poll} (hi : w.st.infos.get id = some i) (hg : i.type = .general)
    (hd : i.deposit = some d) (hx : exec me w (.call e u (.execute id)) = .ok w1)
    (hq : w1.gov.polls.get id = some q) {r : Addr}
    (hr : (Forfeited q.status → r = e.comps.treasury) ∧ (¬ Forfeited q.status → r = d.depositor)) (hrm : r ≠ me) :
    ∃ w2, w2 = run me w1 (List.replicate w1.due.length .pay) ∧ w2.due = [] ∧
      (∀ a, (w2.led a).bal r = (w.led a).bal r + coins a d.asset) ∧
      (∀ a v, v ≠ me → v ≠ r → (w2.led a).bal v = (w.led a).bal v) ∧
      (∀ c n, (w2.nfts c).get n = if n ∈ tokens c d.asset then some ⟨r, []⟩ else (w.nfts c).get n) := by
  obtain ⟨h1, h2, h3⟩ := due_of_execute hi hg hd hx hq hr
  rw [hw, List.nil_append] at h1
  have hreach : Reach me w1 := by
    have hs : step me w (.call e u (.execute id)) = w1 := by unfold step; rw [hx]
    rw [← hs]
    exact h.step trivial
  obtain ⟨p1, p2, p3, p4⟩ := pay_all hrm _ hreach h1 (transfers_recipient d.asset r)
  rw [h1]
  refine ⟨_, rfl, p1, fun a => ?_, fun a v hv hvr => ?_, fun c n => ?_⟩
  · rw [p2, h2]
    have e1 := transfers_sum (.coin a) d.asset r
    have e2 : (Item.coin a).inTransfer = coinsSent a := funext (coinsSent_eq a)
    rw [e2, coins_eq] at e1
    rw [e1]
  · rw [p3 a v hv hvr, h2]
  · rw [p4, h3]
    by_cases hm : n ∈ tokens c d.asset
    · rw [if_pos hm, if_pos ((transfers_nft d.asset r c n).2 hm)]
    · rw [if_neg hm, if_neg (fun hh => hm ((transfers_nft d.asset r c n).1 hh))]

/-- In the sample, proposal 1 passes, and user 7 has their 100 coins again. -/
example : Reach 1 (run 1 smpStart smpOps) ∧ (run 1 smpStart smpOps).due = [] ∧
    ((run 1 smpStart smpOps).st.infos.get 1).map (fun i => (i.type, i.deposit)) =
      some (.general, some ⟨7, .denom 5 10⟩) ∧
    (exec 1 (run 1 smpStart smpOps) (.call (smpEnv (20 * 10 ^ 9)) 8 (.execute 1))).toOption.isSome = true ∧
    ((run 1 (run 1 smpStart smpOps) [.call (smpEnv (20 * 10 ^ 9)) 8 (.execute 1), .pay]).led (.native 5)).bal 7 = 100 :=
  ⟨smp_reach, by decide +kernel, by decide +kernel, by decide +kernel, by decide +kernel⟩

/-- In the NFT sample, proposal 1 is rejected but not vetoed, and user 7 has the NFTs again. -/
example : ((run 1 (run 1 smpStart smpNftOps) [.call (smpNftEnv (20 * 10 ^ 9)) 8 (.execute 1), .pay, .pay]).nfts
    21).get 2 = some ⟨7, []⟩ := by decide +kernel

/-- Coins attached to a proposal of a DAO that is not one of a denom stay with the controller, and are recorded for no
proposal: nothing will be returned. -/
theorem C105_kept {me : Addr} {w w' : World} {e : Controller.Env} {u : Addr} (hu : u ≠ me) {p : Proposal}
    {f : List (Nat × Nat)} (ht : e.daoType ≠ .denom) (hx : exec me w (.call e u (.createProposal p f)) = .ok w') :
    (∃ i, w'.st.infos.get w'.gov.pollCount = some i ∧ i.deposit = none) ∧ w'.due = w.due ∧
    ∀ d, (w'.led (.native d)).bal me =
      (w.led (.native d)).bal me + (f.map (fun c => if c.1 = d then c.2 else 0)).sum := by
  simp only [exec, ite_ok_iff, bind_ok_iff] at hx
  obtain ⟨_, l, hl, hx⟩ := hx
  unfold handle at hx
  rw [bind_ok_iff] at hx
  obtain ⟨r, h1, h2⟩ := hx
  simp only [Controller.exec, bind_ok_iff, pure_ok_iff] at h1
  obtain ⟨r1, h1, rfl⟩ := h1
  have h3 := createWithFunds_ok h1
  rw [foldlM_nil_ok_iff] at h2
  subst h2
  have h4 := created_general h3
  refine ⟨⟨⟨.general, none, none, fundsDeposit (envOf me { w with led := l } e) u f p, p.actions⟩, ?_, ?_⟩, rfl,
    fun d => ?_⟩
  · show r1.1.infos.get r1.2.pollCount = _
    rw [h4.state]
    exact Map.get_set_self _ _ _
  · show fundsDeposit (envOf me { w with led := l } e) u f p = none
    unfold fundsDeposit
    have ht' : (envOf me { w with led := l } e).daoType = e.daoType := rfl
    rw [ht']
    cases hdt : e.daoType with
    | denom => exact absurd hdt ht
    | _ => rfl
  · show (l (.native d)).bal me = _
    rw [(Rewards.attach_effect hu hl (.native d)).2]
    congr 2
    refine List.map_congr_left (fun c _ => ?_)
    by_cases hc : c.1 = d
    · rw [if_pos hc, if_pos (by rw [hc])]
    · rw [if_neg hc, if_neg (fun hh => hc (by cases hh; rfl))]

/-- In a DAO of a token, user 7 attaches 10 coins. -/
example : (exec 1 smpStart (.call (sampleEnv 10) 7 (.createProposal ⟨0, 0, [], none⟩ [(5, 10)]))).toOption.isSome = true ∧
    (sampleEnv 10).daoType ≠ .denom := by decide +kernel

/-- Custom messages can spend deposits. In the sample, proposal 1 passes; its action, a custom message of the
controller, transfers 20 coins. Then proposal 2 can be executed no more: the return of its deposit fails, and with it
the execution. -/
theorem C105_spent_witness :
    ∃ (w0 w w1 : World) (l : List Op), Start 1 w0 ∧ w = run 1 w0 l ∧ w.due = [] ∧
      ((w.st.infos.get 2).map (fun i => (i.executedAt, i.deposit)) = some (none, some ⟨8, .denom 5 20⟩)) ∧
      exec 1 w (.call (smpEnv (20 * 10 ^ 9)) 8 (.execute 2)) = .ok w1 ∧
      w1.due = [.asset (.native 5) 20 8] ∧ exec 1 w1 .pay = .error .overflow := by
  let l := smpOps ++ [.call (smpEnv (20 * 10 ^ 9)) 8 (.execute 1), .call (smpEnv (20 * 10 ^ 9)) 1 (.executeActions 1),
    .spend (.native 5) 66 20, .pay]
  have hsome : (exec 1 (run 1 smpStart l) (.call (smpEnv (20 * 10 ^ 9)) 8 (.execute 2))).toOption.isSome = true := by
    decide +kernel
  refine ⟨smpStart, run 1 smpStart l, step 1 (run 1 smpStart l) (.call (smpEnv (20 * 10 ^ 9)) 8 (.execute 2)), l,
    smp_start, rfl, by decide +kernel, by decide +kernel, ?_, by decide +kernel, ?_⟩
  · unfold step
    cases hh : exec 1 (run 1 smpStart l) (.call (smpEnv (20 * 10 ^ 9)) 8 (.execute 2)) with
    | error _ => rw [hh] at hsome; cases hsome
    | ok w => rfl
  · have herr : (match exec 1 (step 1 (run 1 smpStart l) (.call (smpEnv (20 * 10 ^ 9)) 8 (.execute 2))) .pay with
      | .error er => some er
      | .ok _ => none) = some .overflow := by decide +kernel
    cases hh : exec 1 (step 1 (run 1 smpStart l) (.call (smpEnv (20 * 10 ^ 9)) 8 (.execute 2))) .pay with
    | error er => rw [hh] at herr; rw [Option.some.inj herr]
    | ok w => rw [hh] at herr; cases herr

end Verif.Custody.Deposits
