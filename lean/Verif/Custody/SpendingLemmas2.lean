import Verif.Custody.SpendingLemmas

set_option linter.unusedSimpArgs false

/-!
# Lemmas for property C106: messages to the controller, and histories
-/

namespace Verif.Custody.Spending
open Verif Verif.Controller

theorem sum_le_get {K V : Type} [LinearOrder K] {f g : K → V → Nat} {m m' : Map K V}
    (h : ∀ k v, m.get k = some v → ∃ v', m'.get k = some v' ∧ f k v ≤ g k v') : m.sum f ≤ m'.sum g := by
  have key : ∀ (l : List (K × V)), SortedL l → ∀ m' : Map K V,
      (∀ y ∈ l, ∃ v', m'.get y.1 = some v' ∧ f y.1 y.2 ≤ g y.1 v') →
      (l.map (fun y => f y.1 y.2)).sum ≤ m'.sum g := by
    intro l
    induction l with
    | nil => intro _ m' _; exact Nat.zero_le _
    | cons y t ih =>
      intro hs m' hy
      obtain ⟨hlt, hs'⟩ := List.pairwise_cons.1 hs
      obtain ⟨v, hv, hle⟩ := hy y List.mem_cons_self
      have h1 := Map.sum_remove m' g y.1
      rw [hv, Map.contrib_some] at h1
      have h2 := ih hs' (m'.remove y.1) (fun z hz => by
        obtain ⟨v', hv', hle'⟩ := hy z (List.mem_cons_of_mem _ hz)
        refine ⟨v', ?_, hle'⟩
        rw [Map.get_remove, if_neg (ne_of_lt (hlt z hz))]
        exact hv')
      rw [List.map_cons, List.sum_cons]
      omega
  exact key m.entries m.sorted m' (fun y hy => h y.1 y.2 (Map.get_eq_some_iff.2 hy))

/-! ### Messages other than the execution of a proposal -/

theorem runTop_eq {P : Parties} {x : Ext} {w : World} {s : Sub} (h : ∀ id, s ≠ .actions id) :
    runTop P x w s = runSub P x w s := by
  cases s <;> first | rfl | exact absurd rfl (h _)

theorem tops_eq {P : Parties} {x : Ext} : ∀ {l : List Sub} {w : World}, (∀ s ∈ l, ∀ id, s ≠ .actions id) →
    l.foldlM (runTop P x) w = l.foldlM (runSub P x) w := by
  intro l
  induction l with
  | nil => intro w _; rfl
  | cons s t ih =>
    intro w h
    rw [List.foldlM_cons, List.foldlM_cons, runTop_eq (h s List.mem_cons_self)]
    congr 1
    funext w1
    exact ih (fun y hy => h y (List.mem_cons_of_mem _ hy))

/-- Sub-messages that move nothing. -/
def quiet : Sub → Prop
  | .takeNft _ _ => True
  | .distributor (.updateWeights _) => True
  | .deploy _ => True
  | _ => False

theorem quiet_plain {P : Parties} {l : List Sub} (h : ∀ s ∈ l, quiet s) :
    (∀ s ∈ l, freeSub s = false ∧ saneSub s) ∧ (∀ s ∈ l, ∀ id, s ≠ .actions id) ∧ l.flatMap (subPays P) = [] := by
  refine ⟨fun s hs => ?_, fun s hs id hh => ?_, ?_⟩
  · have := h s hs
    cases s with
    | takeNft _ _ => exact ⟨rfl, trivial⟩
    | deploy _ => exact ⟨rfl, trivial⟩
    | distributor m => cases m <;> first | exact ⟨rfl, trivial⟩ | exact absurd this id
    | _ => exact absurd this id
  · subst hh
    exact h _ hs
  · rw [List.flatMap_eq_nil_iff]
    intro s hs
    have := h s hs
    cases s with
    | takeNft _ _ => rfl
    | deploy _ => rfl
    | distributor m => rfl
    | _ => exact absurd this id

theorem exec_quiet {e : Controller.Env} {u : Addr} {s : State} {g : Gov.State} {m : Msg}
    {r : State × Gov.State × List Sub} (hm : ∀ id, m ≠ .execute id) (hu : ∀ id, m = .executeActions id → u ≠ e.self)
    (h : Controller.exec e u s g m = .ok r) :
    (∀ y ∈ r.2.2, quiet y) ∧ (m.isCreate = false → r.2.1.pollCount = g.pollCount) ∧
    (m.isCreate = true → ∀ y ∈ r.2.2, ∃ c t, y = .takeNft c t) := by
  have hcreate : m.isCreate = true → (∀ y ∈ r.2.2, quiet y) ∧ (m.isCreate = false → r.2.1.pollCount = g.pollCount) ∧
    (m.isCreate = true → ∀ y ∈ r.2.2, ∃ c t, y = .takeNft c t) := by
    intro hc
    obtain ⟨i, cp, _, h2⟩ := created_exec hc h
    refine ⟨fun y hy => ?_, fun hn => ?_, fun _ => h2⟩
    · obtain ⟨c, t, rfl⟩ := h2 y hy
      trivial
    · rw [hc] at hn; cases hn
  cases m with
  | createProposal p f => exact hcreate rfl
  | createWithNft p l => exact hcreate rfl
  | createCouncil p => exact hcreate rfl
  | receive f a p => exact hcreate rfl
  | castVote id o =>
    simp only [Controller.exec, bind_ok_iff, pure_ok_iff] at h
    obtain ⟨r1, h1, rfl⟩ := h
    obtain ⟨_, _, i, p, q, _, _, _, _, hg, _, _⟩ := castVote_ok_iff.1 h1
    refine ⟨fun y hy => (by cases hy), fun _ => ?_, fun _ y hy => (by cases hy)⟩
    obtain ⟨_, _, p, _, _, _, _, h2⟩ := Gov.castVote_ok_iff.1 hg
    show r1.2.pollCount = _
    rw [h2]
  | castCouncilVote id o =>
    simp only [Controller.exec, bind_ok_iff, pure_ok_iff] at h
    obtain ⟨r1, h1, rfl⟩ := h
    obtain ⟨_, _, _, i, _, _, _, hg, _⟩ := castCouncilVote_ok_iff.1 h1
    refine ⟨fun y hy => (by cases hy), fun _ => ?_, fun _ y hy => (by cases hy)⟩
    obtain ⟨_, _, p, _, _, _, _, h2⟩ := Gov.castVote_ok_iff.1 hg
    show r1.2.pollCount = _
    rw [h2]
  | execute id => exact absurd rfl (hm id)
  | weightsChanged l =>
    obtain ⟨_, _, h3, h4⟩ := report_subs h
    refine ⟨fun y hy => ?_, fun _ => h3, fun hc => (by cases hc)⟩
    obtain ⟨c, rfl⟩ := h4 y hy
    trivial
  | executeActions id =>
    simp only [Controller.exec, bind_ok_iff, pure_ok_iff] at h
    obtain ⟨r1, h1, rfl⟩ := h
    obtain ⟨h2, _⟩ := executeActions_ok_iff.1 h1
    exact absurd h2 (hu id rfl)
  | deployInitial =>
    simp only [Controller.exec, bind_ok_iff, pure_ok_iff] at h
    obtain ⟨r1, h1, rfl⟩ := h
    obtain ⟨_, _, rfl⟩ := deployInitial_ok_iff.1 h1
    refine ⟨fun y hy => ?_, fun _ => rfl, fun hc => (by cases hc)⟩
    obtain ⟨d, _, rfl⟩ := List.mem_map.1 hy
    trivial

theorem takes_same {P : Parties} {x : Ext} : ∀ {l : List Sub} {w w' : World}, (∀ y ∈ l, ∃ c t, y = .takeNft c t) →
    l.foldlM (runSub P x) w = .ok w' → w' = w := by
  intro l
  induction l with
  | nil => intro w w' _ h; rw [foldlM_nil_ok_iff] at h; exact h.symm
  | cons s t ih =>
    intro w w' hl h
    rw [foldlM_cons_ok_iff] at h
    obtain ⟨w1, h1, h2⟩ := h
    obtain ⟨c, k, rfl⟩ := hl s List.mem_cons_self
    cases h1
    exact ih (fun y hy => hl y (List.mem_cons_of_mem _ hy)) h2

/-- The state after the message itself. -/
theorem handle_other {P : Parties} {x : Ext} {w w' : World} {u : Addr} {m : Msg} (hm : ∀ id, m ≠ .execute id)
    (hu : ∀ id, m = .executeActions id → u ≠ P.me) (h : handle P x w u m = .ok w') :
    ∃ r, Controller.exec (P.env x) u w.st w.gov m = .ok r ∧
      Kept { w with st := r.1, gov := r.2.1, now := x.env.block.time } w' ∧ Accounts w.led w'.led [] ∧
      (x.Tame P → Dao.EnvOk (P.env x) → (∀ s l, x.others s = some l → ∀ c ∈ l, c.new < 2 ^ 128) →
        w.gov.pollCount + 1 < 2 ^ 64 → Dao.CtlInv P.me P.type x.env.block.time r.1 r.2.1 →
        Dao.CtlInv P.me P.type x.env.block.time w'.st w'.gov) := by
  simp only [handle, bind_ok_iff] at h
  obtain ⟨r, h1, h2⟩ := h
  obtain ⟨q1, q2, q3⟩ := exec_quiet (e := P.env x) hm hu h1
  obtain ⟨b1, b2, b3⟩ := quiet_plain (P := P) q1
  rw [tops_eq b2] at h2
  obtain ⟨k, a⟩ := subs_plain b1 h2
  rw [b3] at a
  refine ⟨r, h1, k, a, fun hx he ho room hc => ?_⟩
  cases hcr : m.isCreate with
  | true =>
    have := takes_same (q3 hcr) h2
    subst this
    exact hc
  | false =>
    refine subs_inv (w := { w with st := r.1, gov := r.2.1, now := x.env.block.time }) hx he ho
      (fun s hs => (b1 s hs).2) ?_ hc h2
    show r.2.1.pollCount + 1 < _
    rw [q2 hcr]
    exact room

/-! ### The execution of a proposal -/

/-- What the controller pays when a proposal is executed. -/
def outcomePays (P : Parties) (i : Info) : Gov.Status → List Payment
  | .passed _ _ => match i.deposit with
    | some d => depositPaid P d.depositor d.asset
    | none => []
  | .rejected q => match i.type with
    | .council => []
    | .general =>
      if q = .quorumNotReached ∨ q = .isVetoOutcome then
        match i.deposit with
        | some d => depositPaid P P.comps.treasury d.asset
        | none => []
      else match i.deposit with
        | some d => depositPaid P d.depositor d.asset
        | none => []
  | .inProgress _ => []

theorem outcomePays_due {P : Parties} {i : Info} {st : Gov.Status} (hs : ∀ y, st ≠ .inProgress y)
    (hc : i.type = .council → i.deposit = none) : outcomePays P i st = depositDue P i st := by
  cases st with
  | inProgress y => exact absurd rfl (hs y)
  | passed y n =>
    unfold outcomePays depositDue
    cases i.deposit with
    | none => rfl
    | some d =>
      dsimp only
      rw [if_neg (by rintro (h | h) <;> cases h)]
  | rejected q =>
    unfold outcomePays depositDue
    cases ht : i.type with
    | council => rw [hc ht]
    | general =>
      dsimp only
      simp only [Gov.Status.rejected.injEq]
      cases i.deposit with
      | none => dsimp only; split <;> rfl
      | some d =>
        dsimp only
        split <;> rfl

theorem deposit_src {P : Parties} {i : Info} {st : Gov.Status} : ∀ p ∈ outcomePays P i st, p.src = P.me := by
  have hd : ∀ {dst : Addr} {a : DepositAsset}, ∀ p ∈ depositPaid P dst a, p.src = P.me := by
    intro dst a p hp
    cases a with
    | denom d n => rw [List.mem_singleton.1 hp]
    | cw20 d n => rw [List.mem_singleton.1 hp]
    | cw721 c l => cases hp
  intro p hp
  unfold outcomePays at hp
  split at hp
  · split at hp
    · exact hd p hp
    · cases hp
  · split at hp
    · cases hp
    · split at hp
      · split at hp
        · exact hd p hp
        · cases hp
      · split at hp
        · exact hd p hp
        · cases hp
  · cases hp

theorem send_pays {P : Parties} {id : Nat} {a : DepositAsset} {dst : Addr} :
    (sendDeposit id a dst).flatMap (subPays P) = depositPaid P dst a := by
  cases a with
  | denom d n => rfl
  | cw20 d n => rfl
  | cw721 c l =>
    show ((l.map (fun t => Transfer.nft c t dst)).map (Sub.deposit id)).flatMap (subPays P) = []
    rw [List.flatMap_eq_nil_iff]
    intro y hy
    obtain ⟨z, hz, rfl⟩ := List.mem_map.1 hy
    obtain ⟨t, _, rfl⟩ := List.mem_map.1 hz
    rfl

/-- The sub-messages without the actions. -/
def depositSubs (e : Controller.Env) (id : Nat) (i : Info) : Gov.Status → List Sub
  | .passed _ _ => returnDeposit id i
  | .rejected q => rejectedDeposit e id i q
  | .inProgress _ => []

theorem depositSubs_pays {P : Parties} {x : Ext} {id : Nat} {i : Info} {st : Gov.Status} :
    (depositSubs (P.env x) id i st).flatMap (subPays P) = outcomePays P i st ∧
    ∀ y ∈ depositSubs (P.env x) id i st, ∃ t, y = .deposit id t := by
  have hmem : ∀ {a : DepositAsset} {dst : Addr}, ∀ y ∈ sendDeposit id a dst, ∃ t, y = .deposit id t := by
    intro a dst y hy
    obtain ⟨t, _, rfl⟩ := List.mem_map.1 hy
    exact ⟨t, rfl⟩
  have hret : (returnDeposit id i).flatMap (subPays P) = (match i.deposit with
      | some d => depositPaid P d.depositor d.asset
      | none => []) ∧ ∀ y ∈ returnDeposit id i, ∃ t, y = .deposit id t := by
    unfold returnDeposit
    cases i.deposit with
    | none => exact ⟨rfl, fun y hy => (by cases hy)⟩
    | some d => exact ⟨send_pays, hmem⟩
  cases st with
  | inProgress y => exact ⟨rfl, fun y hy => (by cases hy)⟩
  | passed y n => exact hret
  | rejected q =>
    unfold depositSubs outcomePays rejectedDeposit
    dsimp only
    cases i.type with
    | council => exact ⟨rfl, fun y hy => (by cases hy)⟩
    | general =>
      dsimp only
      by_cases hq : q = .quorumNotReached ∨ q = .isVetoOutcome
      · rw [if_pos hq, if_pos hq]
        cases i.deposit with
        | none => exact ⟨rfl, fun y hy => (by cases hy)⟩
        | some d => exact ⟨send_pays, hmem⟩
      · rw [if_neg hq, if_neg hq]
        exact hret

/-- The deposits of an executed proposal. -/
theorem deposits_ok {P : Parties} {x : Ext} : ∀ {l : List Sub} {w w' : World}, (∀ y ∈ l, ∃ id t, y = .deposit id t) →
    l.foldlM (runTop P x) w = .ok w' →
    Still w w' ∧ Accounts w.led w'.led (l.flatMap (subPays P)) ∧ w'.dis = w.dis := by
  intro l
  induction l with
  | nil =>
    intro w w' _ h
    rw [foldlM_nil_ok_iff] at h
    subst h
    exact ⟨Still.refl _, Accounts.nil _, rfl⟩
  | cons s t ih =>
    intro w w' hl h
    rw [foldlM_cons_ok_iff] at h
    obtain ⟨w1, h1, h2⟩ := h
    obtain ⟨s2, a2, e2⟩ := ih (fun y hy => hl y (List.mem_cons_of_mem _ hy)) h2
    obtain ⟨id, y, rfl⟩ := hl s List.mem_cons_self
    rw [List.flatMap_cons]
    cases y with
    | asset a n dst =>
      obtain ⟨s1, a1⟩ := pay_ok h1
      exact ⟨s1.trans s2, a1.trans a2, e2.trans (pay_dis h1)⟩
    | nft c n dst =>
      cases h1
      exact ⟨s2, a2, e2⟩

/-- The state right after a poll is ended. -/
def ended (P : Parties) (x : Ext) (w : World) (id : Nat) (i : Info) (p : Gov.Poll) : World :=
  { w with st := w.st.resolved id i x.env.block, gov := endedPoll w.gov id p (endTotal (P.env x) p i.type),
           now := x.env.block.time }

theorem handle_execute {P : Parties} {x : Ext} {w w' : World} {u : Addr} {id : Nat}
    (h : handle P x w u (.execute id) = .ok w') :
    ∃ i p w1, w.st.infos.get id = some i ∧ i.executedAt = none ∧ w.gov.polls.get id = some p ∧
      Controller.exec (P.env x) u w.st w.gov (.execute id) = .ok ((ended P x w id i p).st, (ended P x w id i p).gov,
        outcomeSubs (P.env x) id i (p.finalStatus (endTotal (P.env x) p i.type))) ∧
      (w1 = ended P x w id i p ∨ ((∃ y n, p.finalStatus (endTotal (P.env x) p i.type) = .passed y n) ∧
        runActions P x (ended P x w id i p) id = .ok w1)) ∧
      (x.lucky = true → (∃ y n, p.finalStatus (endTotal (P.env x) p i.type) = .passed y n) →
        runActions P x (ended P x w id i p) id = .ok w1 ∨
        ∃ er, runActions P x (ended P x w id i p) id = .error er) ∧
      Still w1 w' ∧ Accounts w1.led w'.led (outcomePays P i (p.finalStatus (endTotal (P.env x) p i.type))) ∧
      w'.dis = w1.dis := by
  simp only [handle, bind_ok_iff] at h
  obtain ⟨r, h1, h2⟩ := h
  have h1' := h1
  simp only [Controller.exec] at h1
  obtain ⟨_, i, p, hi, hp, hne, _, _, _, _, rfl⟩ := executeProposal_ok_iff.1 h1
  change List.foldlM (runTop P x) (ended P x w id i p)
    (outcomeSubs (P.env x) id i (p.finalStatus (endTotal (P.env x) p i.type))) = .ok w' at h2
  obtain ⟨d1, d2⟩ := depositSubs_pays (P := P) (x := x) (id := id) (i := i)
    (st := p.finalStatus (endTotal (P.env x) p i.type))
  have d2' : ∀ y ∈ depositSubs (P.env x) id i (p.finalStatus (endTotal (P.env x) p i.type)),
      ∃ id t, y = Sub.deposit id t := fun y hy => ⟨id, d2 y hy⟩
  generalize hst : p.finalStatus (endTotal (P.env x) p i.type) = st at *
  cases st with
  | inProgress y => exact absurd hst (Gov.finalStatus_not_inProgress _ _ _)
  | rejected q =>
    obtain ⟨s1, a1, e1⟩ := deposits_ok (P := P) (x := x) d2' h2
    rw [d1] at a1
    exact ⟨i, p, _, hi, hne, hp, by rw [hst]; exact h1', Or.inl rfl, fun _ ⟨y, n, hh⟩ => (by rw [hst] at hh; cases hh), s1, by rw [hst]; exact a1, e1⟩
  | passed y n =>
    change (Sub.actions id :: returnDeposit id i).foldlM (runTop P x) _ = _ at h2
    rw [foldlM_cons_ok_iff] at h2
    obtain ⟨w1, h3, h4⟩ := h2
    obtain ⟨s1, a1, e1⟩ := deposits_ok (P := P) (x := x) d2' h4
    rw [d1] at a1
    change (if x.lucky = false then Except.ok (ended P x w id i p)
      else match runActions P x (ended P x w id i p) id with
        | .ok w' => .ok w'
        | .error _ => .ok (ended P x w id i p)) = _ at h3
    refine ⟨i, p, w1, hi, hne, hp, by rw [hst]; exact h1', ?_, ?_, s1, by rw [hst]; exact a1, e1⟩
    · by_cases hl : x.lucky = false
      · rw [if_pos hl] at h3
        cases h3
        exact Or.inl rfl
      · rw [if_neg hl] at h3
        cases hr : runActions P x (ended P x w id i p) id with
        | ok w2 =>
          rw [hr] at h3
          cases h3
          exact Or.inr ⟨⟨y, n, hst⟩, rfl⟩
        | error er =>
          rw [hr] at h3
          cases h3
          exact Or.inl rfl
    · intro hl _
      rw [if_neg (by rw [hl]; decide)] at h3
      cases hr : runActions P x (ended P x w id i p) id with
      | ok w2 => rw [hr] at h3; cases h3; exact Or.inl rfl
      | error er => exact Or.inr ⟨er, rfl⟩

/-! ### What was approved -/

theorem approved_kept {P : Parties} {w w' : World} (h : ∀ id, Dao.outline w'.gov id = Dao.outline w.gov id) (id : Nat)
    (i : Info) : approved P w' id i = approved P w id i := by
  unfold approved
  have := h id
  unfold Dao.outline at this
  have h2 : (w'.gov.polls.get id).map (fun p => p.status) = (w.gov.polls.get id).map (fun p => p.status) := by
    have := congrArg (fun o => o.map Prod.snd) this
    simpa only [Option.map_map, Function.comp_def] using this
  rw [h2]

theorem spent_kept {P : Parties} {w w' : World} (h : Kept w w') (a : AssetInfo) : spent P w' a = spent P w a := by
  unfold spent
  rw [h.infos]
  exact Map.sum_congr (fun id i _ => by rw [approved_kept h.polls])

theorem approved_open {P : Parties} {w : World} {id : Nat} {i : Info} (h : i.executedAt = none) :
    approved P w id i = [] := by
  unfold approved
  rw [h]

theorem spent_ctl {P : Parties} {w w' : World} {t : Nat} (hc : Dao.CtlInv P.me P.type t w.st w.gov)
    (h : Dao.CtlStep w.st w'.st w.gov w'.gov) (a : AssetInfo) : spent P w a ≤ spent P w' a := by
  unfold spent
  refine sum_le_get (fun id i hi => ?_)
  obtain ⟨i', hi', _, _, _, h5⟩ := h.infos id i hi
  refine ⟨i', hi', ?_⟩
  cases hx : i.executedAt with
  | none => rw [approved_open hx]; exact Nat.zero_le _
  | some b =>
    have hn : i.executedAt ≠ none := by rw [hx]; exact nofun
    rw [h5 hn]
    cases hp : w.gov.polls.get id with
    | none =>
      have : approved P w id i = [] := by
        unfold approved
        rw [hx, hp]
        rfl
      rw [this]
      exact Nat.zero_le _
    | some p =>
      obtain ⟨p', hp', _, h6⟩ := h.polls id p hp
      have h7 : p' = p := h6 (fun hl => hn ((hc.ended id i p hi hp).2 hl))
      have : approved P w' id i = approved P w id i := by
        unfold approved
        rw [hp, hp', h7]
      rw [this]

theorem spent_ended {P : Parties} {x : Ext} {w : World} {id : Nat} {i : Info} {p : Gov.Poll}
    (hi : w.st.infos.get id = some i) (hne : i.executedAt = none)
    (hs : ∃ y n, p.finalStatus (endTotal (P.env x) p i.type) = .passed y n) (a : AssetInfo) :
    spent P (ended P x w id i p) a = spent P w a + given a P.comps.treasury (asks P i) := by
  obtain ⟨y, n, hs⟩ := hs
  have hsum := Map.sum_set w.st.infos
    (fun j k => given a P.comps.treasury (approved P (ended P x w id i p) j k)) id
    { i with executedAt := some x.env.block }
  rw [hi, Map.contrib_some, approved_open hne] at hsum
  have h2 : approved P (ended P x w id i p) id { i with executedAt := some x.env.block } = asks P i := by
    have hg : (ended P x w id i p).gov.polls.get id =
        some { p with status := p.finalStatus (endTotal (P.env x) p i.type) } := Map.get_set_self _ _ _
    unfold approved
    rw [hg, hs]
    rfl
  rw [h2] at hsum
  have h3 : w.st.infos.sum (fun j k => given a P.comps.treasury (approved P (ended P x w id i p) j k)) = spent P w a := by
    refine Map.sum_congr (fun j k hk => ?_)
    by_cases hj : j = id
    · subst hj
      rw [hi] at hk
      cases hk
      rw [approved_open hne, approved_open hne]
    · have : approved P (ended P x w id i p) j k = approved P w j k := by
        have hg : (ended P x w id i p).gov.polls.get j = w.gov.polls.get j :=
          Map.get_set_ne _ _ (fun hh => hj hh.symm)
        unfold approved
        rw [hg]
      rw [this]
  rw [h3] at hsum
  show (w.st.infos.set id { i with executedAt := some x.env.block }).sum _ = _
  have h4 : given a P.comps.treasury ([] : List Payment) = 0 := rfl
  omega

/-! ### Histories -/

/-- The invariant of all histories. -/
structure Inv (P : Parties) (w0 w : World) : Prop where
  ctl : Dao.CtlInv P.me P.type w.now w.st w.gov
  admin : w.tre.admin = P.me
  funds : ∀ a, (w0.led a).bal P.comps.treasury ≤ (w.led a).bal P.comps.treasury + spent P w a

theorem CtlInv.later {me : Addr} {t : DaoType} {n n' : Nat} {s : State} {g : Gov.State} (h : Dao.CtlInv me t n s g)
    (hn : n ≤ n') : Dao.CtlInv me t n' s g :=
  { h with started := fun id p hp => le_trans (h.started id p hp) hn }

theorem start_inv {P : Parties} {w : World} (h : Start P w) : Inv P w w := by
  obtain ⟨b, ent, cfg, council, tr, st, y, hc, hw⟩ := h.ctl
  obtain ⟨h1, h2, h3⟩ := init_ok hc
  obtain ⟨assets, nfts, ht⟩ := h.tre
  refine ⟨?_, ?_, fun a => Nat.le_add_right _ _⟩
  · rw [hw, h3, h.gov]
    refine ⟨Dao.GovHist.init _, ⟨rfl, rfl, rfl⟩, h1, ?_, fun id => rfl, fun id i p hi => ?_, fun id i hi => ?_,
      fun id i hi => ?_, fun id p hp => ?_, fun id i p x hi => ?_, fun id p hp => ?_⟩
    · intro c hc
      cases council with
      | none => cases hc
      | some spec =>
        cases hc
        exact (h2 _ rfl).2
    all_goals first | cases hi | cases hp
  · unfold Treasury.init at ht
    simp only [bind_ok_iff, pure_ok_iff] at ht
    obtain ⟨_, _, ht⟩ := ht
    rw [← ht]

/-- A step of the controller other than the execution of a proposal. -/
theorem Inv.other {P : Parties} {w0 w w1 w' : World} {x : Ext} {u : Addr} {m : Msg} (hi : Inv P w0 w)
    (hf : x.Fair P w) (ht : x.Tame P) (hl : ∀ l, m = .weightsChanged l → ∀ c ∈ l, c.new < 2 ^ 128)
    (hs : Still w w1) (hb : ∀ a, (w.led a).bal P.comps.treasury ≤ (w1.led a).bal P.comps.treasury)
    (hm : ∀ id, m ≠ .execute id) (hu : ∀ id, m = .executeActions id → u ≠ P.me)
    (h : handle P x w1 u m = .ok w') : Inv P w0 w' := by
  obtain ⟨r, h1, hk, ha, hc⟩ := handle_other hm hu h
  rw [hs.1, hs.2.1] at h1
  have hci : Dao.CtlInv P.me P.type x.env.block.time w.st w.gov := CtlInv.later hi.ctl hf.time
  obtain ⟨c1, c2⟩ := Dao.ctl_exec (e := P.env x) hci hf.weights hf.room hl h1
  refine ⟨?_, ?_, fun a => ?_⟩
  · rw [hk.now]
    exact hc ht hf.weights hf.reports (by rw [hs.2.1]; exact hf.room) c1
  · rw [hk.admin]
    show w1.tre.admin = _
    rw [hs.2.2.1]
    exact hi.admin
  · have h2 := hi.funds a
    have h3 := hb a
    have h4 := ha a P.comps.treasury
    have h5 : spent P w a ≤ spent P w' a := by
      rw [spent_kept hk]
      exact spent_ctl (w' := { w1 with st := r.1, gov := r.2.1, now := x.env.block.time }) hi.ctl c2 a
    have h6 : given a P.comps.treasury ([] : List Payment) = 0 := rfl
    have h7 : gotten a P.comps.treasury ([] : List Payment) = 0 := rfl
    omega

/-- The execution of a proposal. -/
theorem Inv.execute {P : Parties} (hP : P.Wf) {w0 w w' : World} {x : Ext} {u : Addr} {id : Nat} (hi : Inv P w0 w)
    (hf : x.Fair P w) (ht : x.Tame P) (h : handle P x w u (.execute id) = .ok w') : Inv P w0 w' := by
  obtain ⟨i, p, w1, hg, hne, hp, hx, hw1, _, hs, ha, _⟩ := handle_execute h
  have hci : Dao.CtlInv P.me P.type x.env.block.time w.st w.gov := CtlInv.later hi.ctl hf.time
  obtain ⟨c1, c2⟩ := Dao.ctl_exec (e := P.env x) hci hf.weights hf.room (fun l hh => by cases hh) hx
  have hdep : ∀ a, (w1.led a).bal P.comps.treasury ≤ (w'.led a).bal P.comps.treasury := by
    intro a
    have := ha a P.comps.treasury
    rw [given_none (fun q hq => by rw [deposit_src q hq]; exact fun hh => hP.tre hh.symm)] at this
    omega
  have hsp : ∀ a, spent P w' a = spent P w1 a := fun a => spent_kept hs.kept a
  rcases hw1 with rfl | ⟨hpass, hrun⟩
  · refine ⟨?_, ?_, fun a => ?_⟩
    · rw [hs.1, hs.2.1, hs.2.2.2]
      exact c1
    · rw [hs.2.2.1]
      exact hi.admin
    · have h1 := hi.funds a
      have h2 := hdep a
      rw [hsp]
      have h3 : spent P w a ≤ spent P (ended P x w id i p) a := spent_ctl hi.ctl c2 a
      have h4 : ((ended P x w id i p).led a).bal P.comps.treasury = (w.led a).bal P.comps.treasury := rfl
      omega
  · have hget : (ended P x w id i p).st.infos.get id = some { i with executedAt := some x.env.block } :=
      Map.get_set_self _ _ _
    obtain ⟨_, r2, r3⟩ := runActions_ok hget hrun
    obtain ⟨k, hb⟩ := r2 ht
    refine ⟨?_, ?_, fun a => ?_⟩
    · rw [hs.1, hs.2.1, hs.2.2.2, k.now]
      exact r3 ht hf.weights hf.reports hf.room c1
    · rw [hs.2.2.1, k.admin]
      exact hi.admin
    · have h1 := hi.funds a
      have h2 := hdep a
      have h3 := hb a
      have h4 : asks P { i with executedAt := some x.env.block } = asks P i := rfl
      have h5 : ((ended P x w id i p).led a).bal P.comps.treasury = (w.led a).bal P.comps.treasury := rfl
      rw [hsp, spent_kept k, spent_ended hg hne hpass]
      rw [h4, h5] at h3
      omega

/-- Anything that leaves the contracts alone. -/
theorem Inv.still {P : Parties} {w0 w w' : World} (hi : Inv P w0 w) (hs : Still w w')
    (hb : ∀ a, (w.led a).bal P.comps.treasury ≤ (w'.led a).bal P.comps.treasury) : Inv P w0 w' := by
  refine ⟨?_, ?_, fun a => ?_⟩
  · rw [hs.1, hs.2.1, hs.2.2.2]
    exact hi.ctl
  · rw [hs.2.2.1]
    exact hi.admin
  · have := hi.funds a
    have := hb a
    rw [spent_kept hs.kept]
    omega

/-- Operations that are no messages to the controller, and what comes before those. -/
theorem pay_still {P : Parties} {w w' : World} {a : AssetInfo} {src dst : Addr} {n : Nat}
    (hsrc : src ≠ P.comps.treasury) (h : pay w a src dst n = .ok w') :
    Still w w' ∧ ∀ b, (w.led b).bal P.comps.treasury ≤ (w'.led b).bal P.comps.treasury := by
  obtain ⟨s1, a1⟩ := pay_ok h
  refine ⟨s1, fun b => ?_⟩
  have := a1 b P.comps.treasury
  rw [given_none (fun q hq => by rw [List.mem_singleton.1 hq]; exact hsrc)] at this
  omega

theorem attach_keeps {P : Parties} {led led' : AssetInfo → Verif.Ledger} {src dst : Addr} {l : List (Nat × Nat)}
    (hsrc : src ≠ P.comps.treasury) (h : Rewards.attach dst led src l = .ok led') (b : AssetInfo) :
    (led b).bal P.comps.treasury ≤ (led' b).bal P.comps.treasury := by
  have := attach_accounts h b P.comps.treasury
  rw [given_none (fun q hq => by obtain ⟨f, _, rfl⟩ := List.mem_map.1 hq; exact hsrc)] at this
  omega

theorem runDis_still {P : Parties} (hP : P.Wf) {x : Ext} {w w' : World} {u : Addr} {m : Distributor.Msg}
    (h : runDis P x w u m = .ok w') :
    Still w w' ∧ ∀ b, (w.led b).bal P.comps.treasury ≤ (w'.led b).bal P.comps.treasury := by
  obtain ⟨s1, l, a1, hl, _⟩ := runDis_ok h
  refine ⟨s1, fun b => ?_⟩
  have := a1 b P.comps.treasury
  rw [given_none (fun q hq => by rw [hl q hq]; exact hP.dis)] at this
  omega

/-- Everything but messages to the controller. -/
def Op.outer : Op → Bool
  | .send _ _ _ _ _ | .call _ _ _ => false
  | _ => true

theorem outer_ok {P : Parties} (hP : P.Wf) {w w' : World} (ha : w.tre.admin = P.me) {o : Op} (ho : o.outer = true)
    (h : exec P w o = .ok w') :
    Still w w' ∧ ∀ b, (w.led b).bal P.comps.treasury ≤ (w'.led b).bal P.comps.treasury := by
  cases o with
  | mint a dst n =>
    simp only [exec, bind_ok_iff, pure_ok_iff] at h
    obtain ⟨l, h1, rfl⟩ := h
    refine ⟨⟨rfl, rfl, rfl, rfl⟩, fun b => ?_⟩
    show _ ≤ (if b = a then l else w.led b).bal _
    by_cases hb : b = a
    · rw [if_pos hb, hb]
      obtain ⟨_, _, h2, h3⟩ := Ledger.mint_effect h1
      by_cases hd : P.comps.treasury = dst
      · rw [hd, h2]; exact Nat.le_add_right _ _
      · rw [h3 _ hd]
    · rw [if_neg hb]
  | burn a src n =>
    simp only [exec, ite_ok_iff, bind_ok_iff, pure_ok_iff] at h
    obtain ⟨hsrc, l, h1, rfl⟩ := h
    refine ⟨⟨rfl, rfl, rfl, rfl⟩, fun b => ?_⟩
    show _ ≤ (if b = a then l else w.led b).bal _
    by_cases hb : b = a
    · rw [if_pos hb, hb]
      unfold Ledger.burn at h1
      simp only [bind_ok_iff, pure_ok_iff] at h1
      obtain ⟨c, _, rfl⟩ := h1
      rw [Ledger.bal_set, if_neg hsrc]
    · rw [if_neg hb]
  | transfer a src dst n =>
    simp only [exec, ite_ok_iff] at h
    exact pay_still h.1 h.2
  | send token src n p x => cases ho
  | sendDis token src n known x =>
    simp only [exec, ite_ok_iff, bind_ok_iff] at h
    obtain ⟨hsrc, w1, h1, h2⟩ := h
    obtain ⟨s1, b1⟩ := pay_still hsrc h1
    obtain ⟨s2, b2⟩ := runDis_still hP h2
    exact ⟨s1.trans s2, fun b => le_trans (b1 b) (b2 b)⟩
  | call x u m => cases ho
  | callTre x u m =>
    simp only [exec, ite_ok_iff] at h
    obtain ⟨hu, h1⟩ := h
    simp only [runTreasury, bind_ok_iff] at h1
    obtain ⟨r, h2, _⟩ := h1
    rw [Treasury.C61_only_admin _ _ _ (by rw [ha]; exact fun hh => hu (Or.inl hh))] at h2
    cases h2
  | callDis x u m =>
    simp only [exec, ite_ok_iff, bind_ok_iff] at h
    obtain ⟨hu, l, h1, h2⟩ := h
    obtain ⟨s2, b2⟩ := runDis_still hP h2
    exact ⟨s2, fun b => le_trans (attach_keeps (fun hh => hu (Or.inr (Or.inl hh))) h1 b) (b2 b)⟩

/-- The messages to the controller: what arrives before them. -/
theorem inner_ok {P : Parties} {w w' : World} {o : Op} (ho : o.outer = false) (h : exec P w o = .ok w') :
    ∃ x u m w1, handle P x w1 u m = .ok w' ∧ Still w w1 ∧
      (∀ b, (w.led b).bal P.comps.treasury ≤ (w1.led b).bal P.comps.treasury) ∧
      (∀ id, m = .executeActions id → u ≠ P.me) ∧
      (o = .call x u m ∨ ∃ token src n p, o = .send token src n p x ∧ u = token ∧ m = .receive src n p) ∧
      (∀ id, m = .execute id → w1 = w) := by
  cases o with
  | send token src n p x =>
    simp only [exec, ite_ok_iff, bind_ok_iff] at h
    obtain ⟨hsrc, w1, h1, h2⟩ := h
    obtain ⟨s1, b1⟩ := pay_still hsrc h1
    exact ⟨x, token, _, w1, h2, s1, b1, fun id hh => (by cases hh), Or.inr ⟨_, _, _, _, rfl, rfl, rfl⟩,
      fun id hh => (by cases hh)⟩
  | call x u m =>
    simp only [exec, ite_ok_iff, bind_ok_iff] at h
    obtain ⟨hu, l, h1, h2⟩ := h
    refine ⟨x, u, m, _, h2, ⟨rfl, rfl, rfl, rfl⟩, fun b => attach_keeps (fun hh => hu (Or.inr (Or.inl hh))) h1 b,
      fun _ _ hh => hu (Or.inl hh), Or.inl rfl, fun id hh => ?_⟩
    subst hh
    change Except.ok w.led = .ok l at h1
    cases h1
    rfl
  | _ => cases ho

theorem step_inv {P : Parties} (hP : P.Wf) {w0 w : World} {o : Op} (hi : Inv P w0 w) (ho : o.Fine P w) :
    Inv P w0 (step P w o) := by
  unfold step
  cases h : exec P w o with
  | error er => exact hi
  | ok w' =>
    show Inv P w0 w'
    cases hb : o.outer with
    | true =>
      obtain ⟨s, b⟩ := outer_ok hP hi.admin hb h
      exact hi.still s b
    | false =>
      obtain ⟨x, u, m, w1, h1, hs, hb, hu, hop, hex⟩ := inner_ok hb h
      have hft : x.Fair P w ∧ x.Tame P ∧ ∀ l, m = .weightsChanged l → ∀ c ∈ l, c.new < 2 ^ 128 := by
        rcases hop with rfl | ⟨token, src, n, p, rfl, rfl, rfl⟩
        · exact ho
        · exact ⟨ho.1, ho.2, fun l hh => (by cases hh)⟩
      by_cases hm : ∃ id, m = .execute id
      · obtain ⟨id, rfl⟩ := hm
        have := hex id rfl
        subst this
        exact Inv.execute hP hi hft.1 hft.2.1 h1
      · exact Inv.other hi hft.1 hft.2.1 hft.2.2 hs hb (fun id hh => hm ⟨id, hh⟩) hu h1

theorem reach_inv {P : Parties} (hP : P.Wf) {w0 w : World} (h : Reach P w0 w) : Inv P w0 w := by
  induction h with
  | start h => exact start_inv h
  | step h ho ih => exact step_inv hP ih ho

end Verif.Custody.Spending
