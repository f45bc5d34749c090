import Verif.Custody.SpendingProps
import Verif.Distributor.Lemmas3

set_option linter.unusedSimpArgs false

/-!
# Funds of the treasury that a proposal distributes to the members: vocabulary and lemmas
-/

namespace Verif.Custody.Spending
open Verif Verif.Controller

/-! ### Vocabulary -/

/-- The rewards of an asset per unit of weight so far, in units of 10^-18. -/
def rate (s : Distributor.State) : AssetInfo → Nat
  | .native d => s.native.global d
  | .cw20 t => s.cw20.global t
  | .cw1155 _ _ => 0

/-- What a distribution adds to that: each amount of the asset, divided by the total weight and rounded down. -/
def raise (total : Nat) (a : AssetInfo) (l : List Asset) : Nat :=
  (l.map (fun y => if y.info = a then y.amount * 10 ^ 18 / total else 0)).sum

/-- The distributor took in these assets: the rates rise, and nothing else changes. -/
structure Shared (s s' : Distributor.State) (l : List Asset) : Prop where
  admin : s'.admin = s.admin
  min : s'.min = s.min
  weights : s'.weights = s.weights
  effective : s'.effective = s.effective
  total : s'.total = s.total
  native : s'.native.dist = s.native.dist
  cw20 : s'.cw20.dist = s.cw20.dist
  members : l ≠ [] → s.total ≠ 0
  rates : ∀ a, rate s' a = rate s a + raise s.total a l

/-- What an action distributes to the members. -/
def actionShares : Action → List Asset
  | .distributeFunds l => l
  | _ => []

/-- What a proposal distributes to the members. -/
def shares (i : Info) : List Asset := i.actions.flatMap actionShares

/-- The action hands out funds of the treasury on this chain: to a recipient, or to the members. -/
def HandsOut (b : Action) : Prop := (∃ dst l, b = .requestFunding none dst l) ∨ ∃ l, b = .distributeFunds l

/-- A distribution is possible: there is a member to get rewards, the assets are whitelisted by the treasury or globally,
and the rates stay below 2^128. -/
structure Possible (x : Ext) (w : World) (l : List Asset) : Prop where
  members : l ≠ [] → w.dis.total ≠ 0
  listed : ∀ y ∈ l, w.tre.assets.Has y.info ∨ y.info ∈ x.denv.global
  fits : ∀ a, rate w.dis a + raise w.dis.total a l < 2 ^ 128

/-! ### Rates -/

theorem raise_append (t : Nat) (a : AssetInfo) (l m : List Asset) : raise t a (l ++ m) = raise t a l + raise t a m := by
  unfold raise; rw [List.map_append, List.sum_append]

theorem raise_cons (t : Nat) (a : AssetInfo) (y : Asset) (l : List Asset) :
    raise t a (y :: l) = (if y.info = a then y.amount * 10 ^ 18 / t else 0) + raise t a l := by
  unfold raise; rw [List.map_cons, List.sum_cons]

theorem raise_perm {t : Nat} {l m : List Asset} (h : l.Perm m) (a : AssetInfo) : raise t a l = raise t a m :=
  (h.map _).sum_nat

theorem Shared.refl (s : Distributor.State) : Shared s s [] :=
  ⟨rfl, rfl, rfl, rfl, rfl, rfl, rfl, fun h => absurd rfl h, fun _ => rfl⟩

theorem Shared.trans {s s1 s2 : Distributor.State} {l m : List Asset} (h1 : Shared s s1 l) (h2 : Shared s1 s2 m) :
    Shared s s2 (l ++ m) := by
  refine ⟨h2.admin.trans h1.admin, h2.min.trans h1.min, h2.weights.trans h1.weights, h2.effective.trans h1.effective,
    h2.total.trans h1.total, h2.native.trans h1.native, h2.cw20.trans h1.cw20, fun h => ?_, fun a => ?_⟩
  · by_cases hl : l = []
    · rw [hl, List.nil_append] at h
      rw [← h1.total]
      exact h2.members h
    · exact h1.members hl
  · rw [h2.rates, h1.rates, h1.total, raise_append, Nat.add_assoc]

theorem Shared.perm {s s' : Distributor.State} {l m : List Asset} (h : Shared s s' l) (hp : l.Perm m) : Shared s s' m := by
  refine ⟨h.admin, h.min, h.weights, h.effective, h.total, h.native, h.cw20, fun hm => h.members ?_, fun a => ?_⟩
  · rintro rfl
    exact hm hp.nil_eq.symm
  · rw [h.rates, raise_perm hp]

theorem Possible.perm {x : Ext} {w : World} {l m : List Asset} (h : Possible x w l) (hp : l.Perm m) : Possible x w m := by
  refine ⟨fun hm => h.members ?_, fun y hy => h.listed y (hp.mem_iff.2 hy), fun a => ?_⟩
  · rintro rfl
    exact hm hp.nil_eq.symm
  · rw [← raise_perm hp]
    exact h.fits a

theorem Possible.left {x : Ext} {w : World} {l m : List Asset} (h : Possible x w (l ++ m)) : Possible x w l := by
  refine ⟨fun hm => h.members ?_, fun y hy => h.listed y (List.mem_append_left _ hy), fun a => ?_⟩
  · intro hh
    exact hm (List.append_eq_nil_iff.1 hh).1
  · have := h.fits a
    rw [raise_append] at this
    omega

/-- What is left to distribute stays possible. -/
theorem Possible.right {x : Ext} {w w' : World} {l m : List Asset} (h : Possible x w (l ++ m))
    (hs : Shared w.dis w'.dis l) (ht : w'.tre = w.tre) : Possible x w' m := by
  refine ⟨fun hm => ?_, fun y hy => ?_, fun a => ?_⟩
  · rw [hs.total]
    refine h.members ?_
    intro hh
    exact hm (List.append_eq_nil_iff.1 hh).2
  · rw [ht]
    exact h.listed y (List.mem_append_right _ hy)
  · have := h.fits a
    rw [raise_append] at this
    rw [hs.rates, hs.total]
    omega

/-! ### The distributor -/

theorem share_cw20 {s : Distributor.State} {e : Distributor.Env} {k : Bool} {n : Nat} {r}
    (h : Distributor.exec s e (.receiveCw20 k n) = .ok r) : Shared s r.1 [⟨.cw20 e.sender, n⟩] ∧ r.2 = [] := by
  simp only [Distributor.exec, bind_ok_iff, pure_ok_iff] at h
  obtain ⟨s', h1, rfl⟩ := h
  obtain ⟨_, _, ht, c, h2, rfl⟩ := Distributor.receiveCw20_ok_iff.1 h1
  obtain ⟨_, _, _, hd, hg⟩ := Distributor.Ledger.distributeOne_ok h2
  refine ⟨⟨rfl, rfl, rfl, rfl, rfl, rfl, hd, fun _ => ht, fun a => ?_⟩, rfl⟩
  rw [raise_cons]
  cases a with
  | native d => rfl
  | cw1155 c k => rfl
  | cw20 t =>
    show c.global t = s.cw20.global t + _
    rw [hg t]
    by_cases hh : e.sender = t
    · rw [if_pos hh, if_pos (by rw [hh])]
      rfl
    · rw [if_neg hh, if_neg (fun hx => hh (by injection hx))]
      rfl

/-- Coins as assets. -/
def coinAssets (l : List (Nat × Nat)) : List Asset := l.map (fun c => ⟨.native c.1, c.2⟩)

theorem share_fold {t : Nat} : ∀ {l : List (Nat × Nat)} {L L' : Distributor.Ledger},
    l.foldlM (Distributor.Ledger.distributeOne t) L = .ok L' →
    L'.dist = L.dist ∧ ∀ d, L'.global d = L.global d + raise t (.native d) (coinAssets l) := by
  intro l
  induction l with
  | nil =>
    intro L L' h
    rw [foldlM_nil_ok_iff] at h
    subst h
    exact ⟨rfl, fun _ => rfl⟩
  | cons f l ih =>
    intro L L' h
    rw [foldlM_cons_ok_iff] at h
    obtain ⟨L1, h1, h2⟩ := h
    obtain ⟨_, _, _, hd, hg⟩ := Distributor.Ledger.distributeOne_ok h1
    obtain ⟨id1, ig⟩ := ih h2
    refine ⟨id1.trans hd, fun d => ?_⟩
    rw [ig, hg]
    unfold coinAssets
    rw [List.map_cons, raise_cons]
    by_cases hh : f.1 = d
    · rw [if_pos hh, if_pos (by rw [hh]), Nat.add_assoc]
    · rw [if_neg hh, if_neg (fun hx => hh (by injection hx)), Nat.add_assoc]

theorem raise_coins_other {t : Nat} {a : AssetInfo} (ha : ∀ d, a ≠ .native d) (l : List (Nat × Nat)) :
    raise t a (coinAssets l) = 0 := by
  induction l with
  | nil => rfl
  | cons f l ih =>
    unfold coinAssets at ih ⊢
    rw [List.map_cons, raise_cons, ih, if_neg (fun hx => ha _ hx.symm)]

theorem share_native {s : Distributor.State} {e : Distributor.Env} {l : List (Nat × Nat)} {r}
    (h : Distributor.exec s e (.distributeNative l) = .ok r) : Shared s r.1 (coinAssets l) ∧ r.2 = [] := by
  simp only [Distributor.exec, bind_ok_iff, pure_ok_iff] at h
  obtain ⟨s', h1, rfl⟩ := h
  obtain ⟨_, ht, n, h2, rfl⟩ := Distributor.distributeNative_ok_iff.1 h1
  obtain ⟨hd, hg⟩ := share_fold h2
  refine ⟨⟨rfl, rfl, rfl, rfl, rfl, hd, rfl, fun _ => ht, fun a => ?_⟩, rfl⟩
  cases a with
  | native d => exact hg d
  | cw20 t => rw [raise_coins_other (fun d hh => by cases hh)]; rfl
  | cw1155 c k => rw [raise_coins_other (fun d hh => by cases hh)]; rfl

/-! ### Messages of the treasury -/

/-- What a message of the treasury distributes. -/
def outShares : Treasury.Out → List Asset
  | .cw20SendDistribute t _ n => [⟨.cw20 t, n⟩]
  | .distributeNative _ l => coinAssets l
  | _ => []

theorem treasuryOut_shares {P : Parties} {x : Ext} {w w' : World} {o : Treasury.Out} (ho : ∀ m, o ≠ .cosmos m)
    (h : treasuryOut P x w o = .ok w') : Shared w.dis w'.dis (outShares o) := by
  cases o with
  | bankSend dst d n => rw [pay_dis h]; exact Shared.refl _
  | cw20Transfer t dst n => rw [pay_dis h]; exact Shared.refl _
  | cw20SendDistribute t dst n =>
    simp only [treasuryOut, ite_ok_iff, bind_ok_iff] at h
    obtain ⟨_, w1, h1, h2⟩ := h
    simp only [runDis, bind_ok_iff, pure_ok_iff] at h2
    obtain ⟨r, hr, led, hl, rfl⟩ := h2
    rw [← pay_dis h1]
    exact (share_cw20 hr).1
  | distributeNative dst coins =>
    simp only [treasuryOut, ite_ok_iff, bind_ok_iff] at h
    obtain ⟨_, l1, h1, h2⟩ := h
    simp only [runDis, bind_ok_iff, pure_ok_iff] at h2
    obtain ⟨r, hr, led, hl, rfl⟩ := h2
    exact (share_native hr).1
  | cosmos m => exact absurd rfl (ho m)

theorem outs_shares {P : Parties} {x : Ext} : ∀ {l : List Treasury.Out} {w w' : World}, (∀ o ∈ l, ∀ m, o ≠ .cosmos m) →
    l.foldlM (treasuryOut P x) w = .ok w' → Shared w.dis w'.dis (l.flatMap outShares) := by
  intro l
  induction l with
  | nil =>
    intro w w' _ h
    rw [foldlM_nil_ok_iff] at h
    subst h
    exact Shared.refl _
  | cons o t ih =>
    intro w w' ho h
    rw [foldlM_cons_ok_iff] at h
    obtain ⟨w1, h1, h2⟩ := h
    exact (treasuryOut_shares (ho o List.mem_cons_self) h1).trans (ih (fun y hy => ho y (List.mem_cons_of_mem _ hy)) h2)

theorem distribute_shares {dst : Addr} : ∀ {l : List Asset} {y r : List (Nat × Nat) × List Treasury.Out},
    l.foldlM (Treasury.distributeOne dst) y = .ok r →
    (r.2.flatMap outShares ++ coinAssets r.1).Perm (y.2.flatMap outShares ++ coinAssets y.1 ++ l) := by
  intro l
  induction l with
  | nil =>
    intro y r h
    rw [foldlM_nil_ok_iff] at h
    subst h
    rw [List.append_nil]
  | cons a t ih =>
    intro y r h
    rw [foldlM_cons_ok_iff] at h
    obtain ⟨y1, h1, h2⟩ := h
    unfold Treasury.distributeOne at h1
    obtain ⟨info, n⟩ := a
    cases info with
    | native d =>
      cases h1
      refine (ih h2).trans ?_
      simp only [coinAssets, List.map_append, List.map_cons, List.map_nil, List.append_assoc, List.singleton_append]
      exact List.Perm.refl _
    | cw20 c =>
      cases h1
      refine (ih h2).trans ?_
      simp only [List.flatMap_append, List.flatMap_cons, List.flatMap_nil, List.append_nil, List.append_assoc, outShares]
      refine List.Perm.append_left _ ?_
      rw [List.singleton_append]
      exact List.perm_middle.symm
    | cw1155 c i => cases h1

theorem spend_shares {dst : Addr} : ∀ {l : List Asset} {outs : List Treasury.Out},
    l.mapM (Treasury.transferMsg dst) = .ok outs → outs.flatMap outShares = [] := by
  intro l
  induction l with
  | nil => intro outs h; cases h; rfl
  | cons a t ih =>
    intro outs h
    simp only [List.mapM_cons, bind_ok_iff, pure_ok_iff] at h
    obtain ⟨o, h1, os, h2, rfl⟩ := h
    unfold Treasury.transferMsg at h1
    rw [List.flatMap_cons, ih h2]
    cases hi : a.info with
    | native d => rw [hi] at h1; cases h1; rfl
    | cw20 c => rw [hi] at h1; cases h1; rfl
    | cw1155 c i => rw [hi] at h1; cases h1

/-- What a message to the treasury distributes. -/
def msgShares : Treasury.Msg → List Asset
  | .distribute _ l => l
  | _ => []

theorem exec_shares {s s' : Treasury.State} {u : Addr} {m : Treasury.Msg} {outs : List Treasury.Out}
    (hm : (∃ dst l, m = .spend dst l) ∨ ∃ dst l, m = .distribute dst l) (h : Treasury.exec s u m = .ok (s', outs)) :
    (outs.flatMap outShares).Perm (msgShares m) := by
  rcases hm with ⟨dst, l, rfl⟩ | ⟨dst, l, rfl⟩
  · simp only [Treasury.exec, Treasury.spend, ite_ok_iff, bind_ok_iff, pure_ok_iff] at h
    obtain ⟨_, os, h1, h⟩ := h
    cases h
    rw [spend_shares h1]
    exact List.Perm.refl _
  · simp only [Treasury.exec, Treasury.distribute, ite_ok_iff, bind_ok_iff, pure_ok_iff] at h
    obtain ⟨_, r, h1, h⟩ := h
    have g := distribute_shares h1
    cases h
    by_cases he : r.1.isEmpty = true
    · rw [if_pos he]
      rw [List.isEmpty_iff.1 he] at g
      simpa [msgShares, coinAssets] using g
    · rw [if_neg he, List.flatMap_append]
      simpa [outShares, msgShares, coinAssets] using g

theorem runTreasury_shares {P : Parties} {x : Ext} {w w' : World} {u : Addr} {m : Treasury.Msg}
    (hm : (∃ dst l, m = .spend dst l) ∨ ∃ dst l, m = .distribute dst l) (h : runTreasury P x w u m = .ok w') :
    Shared w.dis w'.dis (msgShares m) := by
  simp only [runTreasury, bind_ok_iff] at h
  obtain ⟨⟨s', outs⟩, h1, h2⟩ := h
  obtain ⟨_, _, g3⟩ := exec_outs (P := P) h1
  have hc : ∀ l, m ≠ .cosmosMsgs l := by
    rcases hm with ⟨_, _, rfl⟩ | ⟨_, _, rfl⟩ <;> exact fun l hl => (by cases hl)
  exact (outs_shares (g3 hc) h2).perm (exec_shares hm h1)

/-! ### The actions of a proposal -/

theorem doesAll_shares {P : Parties} {x : Ext} {s s' : State} {l : List Action} {subs : List Sub}
    (h : DoesAll (P.env x) s l s' subs) (hl : ∀ b ∈ l, HandsOut b) :
    ∀ {w w' : World}, subs.foldlM (runSub P x) w = .ok w' → Shared w.dis w'.dis (l.flatMap actionShares) := by
  induction h with
  | nil s =>
    intro w w' h
    rw [foldlM_nil_ok_iff] at h
    subst h
    exact Shared.refl _
  | cons h t ih =>
    intro w w' hr
    rcases hl _ List.mem_cons_self with ⟨dst, l, rfl⟩ | ⟨l, rfl⟩
    · cases h
      change List.foldlM (runSub P x) w (_ :: _) = _ at hr
      rw [foldlM_cons_ok_iff] at hr
      obtain ⟨w1, h1, h2⟩ := hr
      exact (runTreasury_shares (Or.inl ⟨_, _, rfl⟩) h1).trans (ih (fun b hb => hl b (List.mem_cons_of_mem _ hb)) h2)
    · cases h
      change List.foldlM (runSub P x) w (_ :: _) = _ at hr
      rw [foldlM_cons_ok_iff] at hr
      obtain ⟨w1, h1, h2⟩ := hr
      exact (runTreasury_shares (Or.inr ⟨_, _, rfl⟩) h1).trans (ih (fun b hb => hl b (List.mem_cons_of_mem _ hb)) h2)

theorem HandsOut.notFree {b : Action} (h : HandsOut b) : isFree b = false := by
  rcases h with ⟨dst, l, rfl⟩ | ⟨l, rfl⟩ <;> rfl

theorem runActions_shares {P : Parties} {x : Ext} {w w' : World} {id : Nat} {i : Info} (hi : w.st.infos.get id = some i)
    (hl : ∀ b ∈ i.actions, HandsOut b) (h : runActions P x w id = .ok w') : Shared w.dis w'.dis (shares i) := by
  simp only [runActions, bind_ok_iff] at h
  obtain ⟨r, h1, h2⟩ := h
  simp only [Controller.exec, bind_ok_iff, pure_ok_iff] at h1
  obtain ⟨r1, h1, rfl⟩ := h1
  obtain ⟨_, j, hj, h3⟩ := executeActions_ok_iff.1 h1
  rw [hi] at hj
  cases hj
  exact doesAll_shares (w := { w with st := r1.1 }) ((actAll_iff _).1 h3) hl h2

/-! ### Distributions succeed -/

theorem Ready.perm {P : Parties} {w : World} {l m : List Payment} (h : Ready P w l) (hp : l.Perm m) : Ready P w m :=
  ⟨h.fits, fun a => by rw [← given_perm hp]; exact h.enough a⟩

theorem attach_ready {P : Parties} {dst : Addr} {m : List Payment} : ∀ {l : List (Nat × Nat)} {w : World},
    Ready P w (l.map (fun c => ⟨P.comps.treasury, dst, .native c.1, c.2⟩) ++ m) →
    ∃ led, Rewards.attach dst w.led P.comps.treasury l = .ok led ∧ Ready P { w with led := led } m := by
  intro l
  induction l with
  | nil => intro w h; exact ⟨_, rfl, h⟩
  | cons c t ih =>
    intro w h
    obtain ⟨w1, h1, h2, _⟩ := pay_ready h
    simp only [pay, bind_ok_iff, pure_ok_iff] at h1
    obtain ⟨led, h1, rfl⟩ := h1
    obtain ⟨led', h3, h4⟩ := ih h2
    refine ⟨led', ?_, h4⟩
    unfold Rewards.attach
    rw [foldlM_cons_ok_iff]
    exact ⟨_, h1, h3⟩

theorem fold_possible {t : Nat} (ht : t ≠ 0) : ∀ {l : List (Nat × Nat)} {L : Distributor.Ledger},
    (∀ d, L.global d + raise t (.native d) (coinAssets l) < 2 ^ 128) →
    ∃ L', l.foldlM (Distributor.Ledger.distributeOne t) L = .ok L' := by
  intro l
  induction l with
  | nil => intro L _; exact ⟨L, rfl⟩
  | cons f l ih =>
    intro L h
    have hf : ∀ d, raise t (.native d) (coinAssets (f :: l)) =
        (if f.1 = d then f.2 * ONE / t else 0) + raise t (.native d) (coinAssets l) := by
      intro d
      unfold coinAssets
      rw [List.map_cons, raise_cons]
      by_cases hh : f.1 = d
      · rw [if_pos hh, if_pos (by rw [hh])]
      · rw [if_neg hh, if_neg (fun hx => hh (by injection hx))]
    obtain ⟨L1, h1⟩ := Distributor.Ledger.distributeOne_exists (L := L) (f := f) ht (by
      have := h f.1
      rw [hf, if_pos rfl] at this
      unfold M128
      omega)
    obtain ⟨_, _, _, _, hg⟩ := Distributor.Ledger.distributeOne_ok h1
    obtain ⟨L2, h2⟩ := ih (L := L1) (fun d => by
      have := h d
      rw [hf] at this
      rw [hg]
      omega)
    exact ⟨L2, foldlM_cons_ok_iff.2 ⟨L1, h1, h2⟩⟩

theorem out_ready {P : Parties} {x : Ext} {w : World} {o : Treasury.Out} {m : List Payment} {k : List Asset}
    (ho : ∀ m, o ≠ .cosmos m) (hd1 : ∀ t dst n, o = .cw20SendDistribute t dst n → dst = P.comps.distributor)
    (hd2 : ∀ dst l, o = .distributeNative dst l → dst = P.comps.distributor ∧ l ≠ [])
    (h : Ready P w (outPays P o ++ m)) (hp : Possible x w (outShares o ++ k)) :
    ∃ w', treasuryOut P x w o = .ok w' ∧ Ready P w' m ∧ Possible x w' k ∧ Still w w' := by
  cases o with
  | bankSend dst d n =>
    obtain ⟨w1, h1, h2, h3⟩ := pay_ready h
    exact ⟨w1, h1, h2, hp.right (by rw [pay_dis h1]; exact Shared.refl _) h3.2.2.1, h3⟩
  | cw20Transfer t dst n =>
    obtain ⟨w1, h1, h2, h3⟩ := pay_ready h
    exact ⟨w1, h1, h2, hp.right (by rw [pay_dis h1]; exact Shared.refl _) h3.2.2.1, h3⟩
  | cw20SendDistribute t dst n =>
    obtain rfl := hd1 _ _ _ rfl
    obtain ⟨w1, h1, h2, h3⟩ := pay_ready h
    have hp' := hp.left
    have hfit := hp'.fits (.cw20 t)
    simp only [outShares] at hfit hp'
    rw [raise_cons, if_pos rfl] at hfit
    have ht := hp'.members (List.cons_ne_nil _ _)
    obtain ⟨c, hc⟩ := Distributor.Ledger.distributeOne_exists (L := w.dis.cw20) (f := (t, n)) ht (by
      change w.dis.cw20.global t + n * ONE / w.dis.total < M128
      change w.dis.cw20.global t + (n * ONE / w.dis.total + 0) < 2 ^ 128 at hfit
      unfold M128
      omega)
    have hal : Distributor.Allowed { x.denv with sender := t, treasury := w1.tre.assets } (.cw20 t) := by
      have := hp'.listed _ List.mem_cons_self
      unfold Distributor.Allowed
      rw [h3.2.2.1]
      exact this
    have hex : Distributor.exec w1.dis { x.denv with sender := t, treasury := w1.tre.assets } (.receiveCw20 true n) =
        .ok ({ w1.dis with cw20 := c }, []) := by
      simp only [Distributor.exec, bind_ok_iff, pure_ok_iff]
      refine ⟨_, Distributor.receiveCw20_ok_iff.2 ⟨rfl, hal, ?_, c, ?_, rfl⟩, rfl⟩
      · rw [pay_dis h1]; exact ht
      · rw [pay_dis h1]; exact hc
    have hrun : treasuryOut P x w (.cw20SendDistribute t P.comps.distributor n) =
        .ok { w1 with dis := { w1.dis with cw20 := c } } := by
      simp only [treasuryOut, ite_ok_iff, bind_ok_iff]
      refine ⟨fun hh => hh rfl, w1, h1, ?_⟩
      unfold runDis
      rw [hex]
      rfl
    refine ⟨_, hrun, ⟨h2.fits, h2.enough⟩, hp.right (treasuryOut_shares (fun m hm => by cases hm) hrun) ?_, h3⟩
    exact h3.2.2.1
  | distributeNative dst l =>
    obtain ⟨rfl, hl⟩ := hd2 _ _ rfl
    obtain ⟨led, h1, h2⟩ := attach_ready h
    have hp' := hp.left
    simp only [outShares] at hp'
    have ht := hp'.members (by
      unfold coinAssets
      intro hh
      exact hl (List.map_eq_nil_iff.1 hh))
    obtain ⟨L, hL⟩ := fold_possible (L := w.dis.native) (l := l) ht (fun d => hp'.fits (.native d))
    have hex : Distributor.exec w.dis { x.denv with sender := P.comps.treasury, treasury := w.tre.assets }
        (.distributeNative l) = .ok ({ w.dis with native := L }, []) := by
      simp only [Distributor.exec, bind_ok_iff, pure_ok_iff]
      refine ⟨_, Distributor.distributeNative_ok_iff.2 ⟨fun f hf => ?_, ht, L, hL, rfl⟩, rfl⟩
      exact hp'.listed ⟨.native f.1, f.2⟩ (List.mem_map.2 ⟨f, hf, rfl⟩)
    have hrun : treasuryOut P x w (.distributeNative P.comps.distributor l) =
        .ok { w with led := led, dis := { w.dis with native := L } } := by
      simp only [treasuryOut, ite_ok_iff, bind_ok_iff]
      refine ⟨fun hh => hh rfl, led, h1, ?_⟩
      unfold runDis
      rw [hex]
      rfl
    exact ⟨_, hrun, ⟨h2.fits, h2.enough⟩, hp.right (treasuryOut_shares (fun m hm => by cases hm) hrun) rfl,
      Still.refl _⟩
  | cosmos m => exact absurd rfl (ho m)

theorem outs_ready {P : Parties} {x : Ext} {m : List Payment} {k : List Asset} : ∀ {l : List Treasury.Out} {w : World},
    (∀ o ∈ l, (∀ m, o ≠ .cosmos m) ∧ (∀ t dst n, o = .cw20SendDistribute t dst n → dst = P.comps.distributor) ∧
      (∀ dst l, o = .distributeNative dst l → dst = P.comps.distributor ∧ l ≠ [])) →
    Ready P w (l.flatMap (outPays P) ++ m) → Possible x w (l.flatMap outShares ++ k) →
    ∃ w', l.foldlM (treasuryOut P x) w = .ok w' ∧ Ready P w' m ∧ Possible x w' k ∧ Still w w' := by
  intro l
  induction l with
  | nil => intro w _ h hp; exact ⟨w, rfl, h, hp, Still.refl _⟩
  | cons o t ih =>
    intro w ho h hp
    rw [List.flatMap_cons, List.append_assoc] at h hp
    obtain ⟨o1, o2, o3⟩ := ho o List.mem_cons_self
    obtain ⟨w1, h1, h2, h3, h4⟩ := out_ready o1 o2 o3 h hp
    obtain ⟨w2, g1, g2, g3, g4⟩ := ih (fun y hy => ho y (List.mem_cons_of_mem _ hy)) h2 h3
    exact ⟨w2, foldlM_cons_ok_iff.2 ⟨w1, h1, g1⟩, g2, g3, h4.trans g4⟩

theorem distribute_dst {dst : Addr} : ∀ {l : List Asset} {y r : List (Nat × Nat) × List Treasury.Out},
    l.foldlM (Treasury.distributeOne dst) y = .ok r → (∀ o ∈ y.2, ∃ t n, o = .cw20SendDistribute t dst n) →
    ∀ o ∈ r.2, ∃ t n, o = .cw20SendDistribute t dst n := by
  intro l
  induction l with
  | nil =>
    intro y r h hy
    rw [foldlM_nil_ok_iff] at h
    subst h
    exact hy
  | cons a t ih =>
    intro y r h hy
    rw [foldlM_cons_ok_iff] at h
    obtain ⟨y1, h1, h2⟩ := h
    refine ih h2 ?_
    unfold Treasury.distributeOne at h1
    cases hi : a.info with
    | native d => rw [hi] at h1; cases h1; exact hy
    | cw20 c =>
      rw [hi] at h1; cases h1
      intro o ho
      rcases List.mem_append.1 ho with ho | ho
      · exact hy o ho
      · rw [List.mem_singleton.1 ho]; exact ⟨_, _, rfl⟩
    | cw1155 c i => rw [hi] at h1; cases h1

theorem distribute_goes {dst : Addr} : ∀ {l : List Asset} {y : List (Nat × Nat) × List Treasury.Out},
    (∀ a ∈ l, ∀ c k, a.info ≠ .cw1155 c k) → ∃ r, l.foldlM (Treasury.distributeOne dst) y = .ok r := by
  intro l
  induction l with
  | nil => intro y _; exact ⟨y, rfl⟩
  | cons a t ih =>
    intro y h
    have ha := h a List.mem_cons_self
    have h1 : ∃ y1, Treasury.distributeOne dst y a = .ok y1 := by
      unfold Treasury.distributeOne
      cases hi : a.info with
      | native d => exact ⟨_, rfl⟩
      | cw20 c => exact ⟨_, rfl⟩
      | cw1155 c i => exact absurd hi (ha c i)
    obtain ⟨y1, h1⟩ := h1
    obtain ⟨r, h2⟩ := ih (y := y1) (fun b hb => h b (List.mem_cons_of_mem _ hb))
    exact ⟨r, foldlM_cons_ok_iff.2 ⟨y1, h1, h2⟩⟩

/-- The assets that an action hands out. -/
def handed : Action → List Asset
  | .requestFunding none _ l => l
  | .distributeFunds l => l
  | _ => []

theorem distribution_ready {P : Parties} {x : Ext} {s : State} : ∀ {l : List Action} {w : World}, w.tre.admin = P.me →
    (∀ b ∈ l, HandsOut b) → (∀ b ∈ l, ∀ a ∈ handed b, ∀ c k, a.info ≠ .cw1155 c k) →
    Ready P w (l.flatMap (actionAsks P)) → Possible x w (l.flatMap actionShares) →
    ∃ subs w', DoesAll (P.env x) s l s subs ∧ subs.foldlM (runSub P x) w = .ok w' := by
  intro l
  induction l with
  | nil => intro w _ _ _ _ _; exact ⟨[], w, .nil _, rfl⟩
  | cons b t ih =>
    intro w hadm hb hn h hp
    have hnb := hn b List.mem_cons_self
    rw [List.flatMap_cons] at h hp
    rcases hb b List.mem_cons_self with ⟨dst, as, rfl⟩ | ⟨as, rfl⟩
    · obtain ⟨outs, w1, g1, g2, g3, g4⟩ := spend_ready (l := as) (x := x) hnb h
      have hrun : runTreasury P x w P.me (.spend dst as) = .ok w1 := by
        unfold runTreasury
        rw [bind_ok_iff]
        refine ⟨(w.tre, outs), ?_, g2⟩
        show Treasury.spend w.tre P.me dst as = _
        unfold Treasury.spend
        rw [if_neg (by rw [hadm]; exact fun hh => hh rfl), g1]
        rfl
      have hp1 : Possible x w1 (t.flatMap actionShares) :=
        hp.right (runTreasury_shares (Or.inl ⟨_, _, rfl⟩) hrun) g4.2.2.1
      obtain ⟨subs, w2, k1, k2⟩ := ih (by rw [g4.2.2.1]; exact hadm) (fun c hc => hb c (List.mem_cons_of_mem _ hc))
        (fun c hc => hn c (List.mem_cons_of_mem _ hc)) g3 hp1
      refine ⟨_, w2, .cons (.funding none dst as) k1, ?_⟩
      show List.foldlM (runSub P x) w (Sub.treasury none (.spend dst as) :: subs) = _
      rw [foldlM_cons_ok_iff]
      exact ⟨w1, hrun, k2⟩
    · obtain ⟨r, hr⟩ := distribute_goes (l := as) (dst := P.comps.distributor) (y := ([], [])) hnb
      have hex : Treasury.exec w.tre P.me (.distribute P.comps.distributor as) =
          .ok (w.tre, if r.1.isEmpty then r.2 else r.2 ++ [.distributeNative P.comps.distributor r.1]) := by
        show Treasury.distribute w.tre P.me P.comps.distributor as = _
        unfold Treasury.distribute
        rw [if_neg (by rw [hadm]; exact fun hh => hh rfl), hr]
        rfl
      obtain ⟨_, q1, _⟩ := exec_outs (P := P) hex
      have q2 := exec_shares (Or.inr ⟨_, _, rfl⟩) hex
      have hall : ∀ o ∈ (if r.1.isEmpty then r.2 else r.2 ++ [Treasury.Out.distributeNative P.comps.distributor r.1]),
          (∀ m, o ≠ .cosmos m) ∧ (∀ t dst n, o = .cw20SendDistribute t dst n → dst = P.comps.distributor) ∧
          (∀ dst l, o = .distributeNative dst l → dst = P.comps.distributor ∧ l ≠ []) := by
        have hc := distribute_dst hr (fun o ho => (by cases ho))
        have hc' : ∀ o ∈ r.2, (∀ m, o ≠ .cosmos m) ∧
            (∀ t dst n, o = .cw20SendDistribute t dst n → dst = P.comps.distributor) ∧
            (∀ dst l, o = .distributeNative dst l → dst = P.comps.distributor ∧ l ≠ []) := by
          intro o ho
          obtain ⟨t, n, rfl⟩ := hc o ho
          exact ⟨fun m hm => (by cases hm), fun t dst n hh => (by cases hh; rfl), fun dst l hh => (by cases hh)⟩
        intro o ho
        by_cases he : r.1.isEmpty = true
        · rw [if_pos he] at ho
          exact hc' o ho
        · rw [if_neg he] at ho
          rcases List.mem_append.1 ho with ho | ho
          · exact hc' o ho
          · rw [List.mem_singleton.1 ho]
            refine ⟨fun m hm => (by cases hm), fun t dst n hh => (by cases hh), fun dst l hh => ?_⟩
            cases hh
            exact ⟨rfl, fun hh => he (List.isEmpty_iff.2 hh)⟩
      obtain ⟨w1, g1, g2, g3, g4⟩ := outs_ready (x := x) (m := t.flatMap (actionAsks P)) (k := t.flatMap actionShares)
        hall (h.perm (q1.symm.append_right _)) (hp.perm (q2.symm.append_right _))
      have hrun : runTreasury P x w P.me (.distribute P.comps.distributor as) = .ok w1 := by
        unfold runTreasury
        rw [bind_ok_iff]
        exact ⟨_, hex, g1⟩
      obtain ⟨subs, w2, k1, k2⟩ := ih (by rw [g4.2.2.1]; exact hadm) (fun c hc => hb c (List.mem_cons_of_mem _ hc))
        (fun c hc => hn c (List.mem_cons_of_mem _ hc)) g2 g3
      refine ⟨_, w2, .cons (.distribute as) k1, ?_⟩
      show List.foldlM (runSub P x) w (Sub.treasury none (.distribute P.comps.distributor as) :: subs) = _
      rw [foldlM_cons_ok_iff]
      exact ⟨w1, hrun, k2⟩

end Verif.Custody.Spending
