import Verif.Custody.Spending
import Verif.Dao.Lemmas6
import Verif.Treasury.Props

set_option linter.unusedSimpArgs false

/-!
# Lemmas about the treasury among the contracts of a DAO
-/

namespace Verif.Custody.Spending
open Verif Verif.Controller

/-! ### Payments -/

theorem given_append (a : AssetInfo) (v : Addr) (l m : List Payment) : given a v (l ++ m) = given a v l + given a v m := by
  unfold given; rw [List.map_append, List.sum_append]

theorem gotten_append (a : AssetInfo) (v : Addr) (l m : List Payment) :
    gotten a v (l ++ m) = gotten a v l + gotten a v m := by
  unfold gotten; rw [List.map_append, List.sum_append]

theorem given_cons (a : AssetInfo) (v : Addr) (p : Payment) (l : List Payment) :
    given a v (p :: l) = (if p.src = v ∧ p.asset = a then p.amount else 0) + given a v l := by
  unfold given; rw [List.map_cons, List.sum_cons]

theorem gotten_cons (a : AssetInfo) (v : Addr) (p : Payment) (l : List Payment) :
    gotten a v (p :: l) = (if p.dst = v ∧ p.asset = a then p.amount else 0) + gotten a v l := by
  unfold gotten; rw [List.map_cons, List.sum_cons]

theorem given_perm {l m : List Payment} (h : l.Perm m) (a : AssetInfo) (v : Addr) : given a v l = given a v m :=
  (h.map _).sum_nat

theorem gotten_perm {l m : List Payment} (h : l.Perm m) (a : AssetInfo) (v : Addr) : gotten a v l = gotten a v m :=
  (h.map _).sum_nat

theorem given_none {a : AssetInfo} {v : Addr} {l : List Payment} (h : ∀ p ∈ l, p.src ≠ v) : given a v l = 0 := by
  induction l with
  | nil => rfl
  | cons p t ih =>
    rw [given_cons, ih (fun q hq => h q (List.mem_cons_of_mem _ hq)), if_neg (fun hh => h p List.mem_cons_self hh.1)]

theorem Accounts.nil (led : AssetInfo → Verif.Ledger) : Accounts led led [] := fun _ _ => rfl

theorem Accounts.trans {l1 l2 l3 : AssetInfo → Verif.Ledger} {p q : List Payment} (h1 : Accounts l1 l2 p)
    (h2 : Accounts l2 l3 q) : Accounts l1 l3 (p ++ q) := by
  intro a v
  have := h1 a v
  have := h2 a v
  rw [given_append, gotten_append]
  omega

theorem Accounts.perm {l1 l2 : AssetInfo → Verif.Ledger} {p q : List Payment} (h : Accounts l1 l2 p) (hp : p.Perm q) :
    Accounts l1 l2 q := by
  intro a v
  rw [← given_perm hp, ← gotten_perm hp]
  exact h a v

/-- An account that gives nothing away does not lose. -/
theorem Accounts.keeps {l1 l2 : AssetInfo → Verif.Ledger} {p : List Payment} (h : Accounts l1 l2 p) {v : Addr}
    (hv : ∀ x ∈ p, x.src ≠ v) (a : AssetInfo) : (l1 a).bal v ≤ (l2 a).bal v := by
  have := h a v
  rw [given_none hv] at this
  omega

theorem move_accounts {led led' : AssetInfo → Verif.Ledger} {a : AssetInfo} {src dst : Addr} {n : Nat}
    (h : Rewards.move led a src dst n = .ok led') : Accounts led led' [⟨src, dst, a, n⟩] := by
  unfold Rewards.move at h
  simp only [bind_ok_iff, pure_ok_iff] at h
  obtain ⟨l, hl, rfl⟩ := h
  obtain ⟨hn, _, e2, e3⟩ := Verif.Ledger.transfer_effect hl
  intro b v
  rw [given_cons, gotten_cons]
  show ((if b = a then l else led b) : Verif.Ledger).bal v + ((if src = v ∧ a = b then n else 0) + 0) =
    (led b).bal v + ((if dst = v ∧ a = b then n else 0) + 0)
  by_cases hb : b = a
  · subst hb
    simp only [if_true, and_true]
    by_cases hsd : src = dst
    · subst hsd
      rw [e2 rfl v]
    · obtain ⟨f1, f2, f3⟩ := e3 hsd
      by_cases hs : src = v
      · subst hs
        rw [if_pos rfl, if_neg (Ne.symm hsd), f1]
        omega
      · rw [if_neg hs]
        by_cases hd : dst = v
        · subst hd
          rw [if_pos rfl, f2]
          omega
        · rw [if_neg hd, f3 v (Ne.symm hs) (Ne.symm hd)]
  · have hb' : ¬ a = b := fun hh => hb hh.symm
    simp only [hb, hb', and_false, if_false]

theorem attach_accounts {src dst : Addr} : ∀ {l : List (Nat × Nat)} {led led' : AssetInfo → Verif.Ledger},
    Rewards.attach dst led src l = .ok led' → Accounts led led' (l.map (fun c => ⟨src, dst, .native c.1, c.2⟩)) := by
  intro l
  induction l with
  | nil => intro led led' h; cases h; exact Accounts.nil _
  | cons c t ih =>
    intro led led' h
    unfold Rewards.attach at h
    rw [foldlM_cons_ok_iff] at h
    obtain ⟨l1, h1, h2⟩ := h
    exact (move_accounts h1).trans (ih h2)

theorem payOut_accounts {me : Addr} : ∀ {outs : List Distributor.Out} {led led' : AssetInfo → Verif.Ledger},
    Rewards.payOut me led outs = .ok led' → Accounts led led' (outs.map (fun o => ⟨me, o.to, o.asset, o.amount⟩)) := by
  intro outs
  induction outs with
  | nil => intro led led' h; cases h; exact Accounts.nil _
  | cons o t ih =>
    intro led led' h
    unfold Rewards.payOut at h
    rw [foldlM_cons_ok_iff] at h
    obtain ⟨l1, h1, h2⟩ := h
    exact (move_accounts h1).trans (ih h2)

/-! ### Messages that concern the balances only -/

/-- Everything but the balances and the distributor is as before. -/
def Still (w w' : World) : Prop := w'.st = w.st ∧ w'.gov = w.gov ∧ w'.tre = w.tre ∧ w'.now = w.now

theorem Still.refl (w : World) : Still w w := ⟨rfl, rfl, rfl, rfl⟩

theorem Still.trans {w w1 w2 : World} (h1 : Still w w1) (h2 : Still w1 w2) : Still w w2 :=
  ⟨h2.1.trans h1.1, h2.2.1.trans h1.2.1, h2.2.2.1.trans h1.2.2.1, h2.2.2.2.trans h1.2.2.2⟩

theorem pay_ok {w w' : World} {a : AssetInfo} {src dst : Addr} {n : Nat} (h : pay w a src dst n = .ok w') :
    Still w w' ∧ Accounts w.led w'.led [⟨src, dst, a, n⟩] := by
  simp only [pay, bind_ok_iff, pure_ok_iff] at h
  obtain ⟨l, hl, rfl⟩ := h
  exact ⟨Still.refl _, move_accounts hl⟩

theorem pay_dis {w w' : World} {a : AssetInfo} {src dst : Addr} {n : Nat} (h : pay w a src dst n = .ok w') :
    w'.dis = w.dis := by
  simp only [pay, bind_ok_iff, pure_ok_iff] at h
  obtain ⟨l, hl, rfl⟩ := h
  rfl

/-- The distributor only pays what is its own. -/
theorem runDis_ok {P : Parties} {x : Ext} {w w' : World} {u : Addr} {m : Distributor.Msg}
    (h : runDis P x w u m = .ok w') :
    Still w w' ∧ ∃ l, Accounts w.led w'.led l ∧ (∀ p ∈ l, p.src = P.comps.distributor) ∧
      ((∀ v d t, m ≠ .claim v d t) → l = []) := by
  simp only [runDis, bind_ok_iff, pure_ok_iff] at h
  obtain ⟨r, hr, led, hl, rfl⟩ := h
  refine ⟨Still.refl _, _, payOut_accounts hl, fun p hp => ?_, fun hm => ?_⟩
  · obtain ⟨o, _, rfl⟩ := List.mem_map.1 hp
    rfl
  · have : r.2 = [] := by
      cases m with
      | claim v d t => exact absurd rfl (hm v d t)
      | _ =>
        simp only [Distributor.exec, bind_ok_iff, pure_ok_iff] at hr
        obtain ⟨_, _, rfl⟩ := hr
        rfl
    rw [this]
    rfl

/-- What a message of the treasury moves. -/
def outPays (P : Parties) : Treasury.Out → List Payment
  | .bankSend dst d n => [⟨P.comps.treasury, dst, .native d, n⟩]
  | .cw20Transfer t dst n => [⟨P.comps.treasury, dst, .cw20 t, n⟩]
  | .cw20SendDistribute t dst n => [⟨P.comps.treasury, dst, .cw20 t, n⟩]
  | .distributeNative dst l => l.map (fun c => ⟨P.comps.treasury, dst, .native c.1, c.2⟩)
  | .cosmos _ => []

theorem treasuryOut_ok {P : Parties} {x : Ext} {w w' : World} {o : Treasury.Out} (ho : ∀ m, o ≠ .cosmos m)
    (h : treasuryOut P x w o = .ok w') : Still w w' ∧ Accounts w.led w'.led (outPays P o) := by
  cases o with
  | bankSend dst d n => exact pay_ok h
  | cw20Transfer t dst n => exact pay_ok h
  | cw20SendDistribute t dst n =>
    simp only [treasuryOut, ite_ok_iff, bind_ok_iff] at h
    obtain ⟨_, w1, h1, h2⟩ := h
    obtain ⟨s1, a1⟩ := pay_ok h1
    obtain ⟨s2, l, a2, _, hl⟩ := runDis_ok h2
    rw [hl (fun _ _ _ hh => by cases hh)] at a2
    refine ⟨s1.trans s2, ?_⟩
    have := a1.trans a2
    rwa [List.append_nil] at this
  | distributeNative dst coins =>
    simp only [treasuryOut, ite_ok_iff, bind_ok_iff] at h
    obtain ⟨_, l1, h1, h2⟩ := h
    obtain ⟨s2, l, a2, _, hl⟩ := runDis_ok h2
    rw [hl (fun _ _ _ hh => by cases hh)] at a2
    refine ⟨s2, ?_⟩
    have := (attach_accounts h1).trans a2
    rwa [List.append_nil] at this
  | cosmos m => exact absurd rfl (ho m)

theorem outs_ok {P : Parties} {x : Ext} : ∀ {l : List Treasury.Out} {w w' : World}, (∀ o ∈ l, ∀ m, o ≠ .cosmos m) →
    l.foldlM (treasuryOut P x) w = .ok w' → Still w w' ∧ Accounts w.led w'.led (l.flatMap (outPays P)) := by
  intro l
  induction l with
  | nil =>
    intro w w' _ h
    rw [foldlM_nil_ok_iff] at h
    subst h
    exact ⟨Still.refl _, Accounts.nil _⟩
  | cons o t ih =>
    intro w w' ho h
    rw [foldlM_cons_ok_iff] at h
    obtain ⟨w1, h1, h2⟩ := h
    obtain ⟨s1, a1⟩ := treasuryOut_ok (ho o List.mem_cons_self) h1
    obtain ⟨s2, a2⟩ := ih (fun y hy => ho y (List.mem_cons_of_mem _ hy)) h2
    exact ⟨s1.trans s2, a1.trans a2⟩

/-- The messages of a distribution. -/
theorem distribute_outs {P : Parties} {dst : Addr} : ∀ {l : List Asset} {y r : List (Nat × Nat) × List Treasury.Out},
    l.foldlM (Treasury.distributeOne dst) y = .ok r → (∀ o ∈ y.2, ∀ m, o ≠ .cosmos m) →
    (∀ o ∈ r.2, ∀ m, o ≠ .cosmos m) ∧
    (r.2.flatMap (outPays P) ++ r.1.map (fun c => (⟨P.comps.treasury, dst, .native c.1, c.2⟩ : Payment))).Perm
      (y.2.flatMap (outPays P) ++ y.1.map (fun c => ⟨P.comps.treasury, dst, .native c.1, c.2⟩) ++
        l.map (fun a => ⟨P.comps.treasury, dst, a.info, a.amount⟩)) := by
  intro l
  induction l with
  | nil =>
    intro y r h hy
    rw [foldlM_nil_ok_iff] at h
    subst h
    exact ⟨hy, by rw [List.map_nil, List.append_nil]⟩
  | cons a t ih =>
    intro y r h hy
    rw [foldlM_cons_ok_iff] at h
    obtain ⟨y1, h1, h2⟩ := h
    unfold Treasury.distributeOne at h1
    cases hi : a.info with
    | native d =>
      rw [hi] at h1
      cases h1
      obtain ⟨g1, g2⟩ := ih h2 hy
      refine ⟨g1, g2.trans ?_⟩
      simp only [List.map_append, List.map_cons, List.map_nil, List.append_assoc, hi, List.singleton_append]
      exact List.Perm.refl _
    | cw20 c =>
      rw [hi] at h1
      cases h1
      obtain ⟨g1, g2⟩ := ih h2 (fun o ho m hm => by
        rcases List.mem_append.1 ho with ho | ho
        · exact hy o ho m hm
        · rw [List.mem_singleton.1 ho] at hm; cases hm)
      refine ⟨g1, g2.trans ?_⟩
      simp only [List.flatMap_append, List.flatMap_cons, List.flatMap_nil, List.append_nil, List.append_assoc, outPays, hi,
        List.map_cons]
      refine List.Perm.append_left _ ?_
      rw [List.singleton_append]
      exact List.perm_middle.symm
    | cw1155 c i => rw [hi] at h1; cases h1

theorem spend_outs {P : Parties} {dst : Addr} : ∀ {l : List Asset} {outs : List Treasury.Out},
    l.mapM (Treasury.transferMsg dst) = .ok outs → (∀ o ∈ outs, ∀ m, o ≠ .cosmos m) ∧
    outs.flatMap (outPays P) = l.map (fun a => ⟨P.comps.treasury, dst, a.info, a.amount⟩) := by
  intro l
  induction l with
  | nil => intro outs h; cases h; exact ⟨fun o ho => (by cases ho), rfl⟩
  | cons a t ih =>
    intro outs h
    simp only [List.mapM_cons, bind_ok_iff, pure_ok_iff] at h
    obtain ⟨o, h1, os, h2, rfl⟩ := h
    obtain ⟨g1, g2⟩ := ih h2
    unfold Treasury.transferMsg at h1
    cases hi : a.info with
    | native d =>
      rw [hi] at h1; cases h1
      refine ⟨fun y hy m hm => ?_, ?_⟩
      · rcases List.mem_cons.1 hy with rfl | hy
        · cases hm
        · exact g1 y hy m hm
      · rw [List.flatMap_cons, g2, List.map_cons, hi]; rfl
    | cw20 c =>
      rw [hi] at h1; cases h1
      refine ⟨fun y hy m hm => ?_, ?_⟩
      · rcases List.mem_cons.1 hy with rfl | hy
        · cases hm
        · exact g1 y hy m hm
      · rw [List.flatMap_cons, g2, List.map_cons, hi]; rfl
    | cw1155 c i => rw [hi] at h1; cases h1

/-- What a message to the treasury makes it pay. -/
def msgPays (P : Parties) : Treasury.Msg → List Payment
  | .spend dst l => l.map (fun a => ⟨P.comps.treasury, dst, a.info, a.amount⟩)
  | .distribute dst l => l.map (fun a => ⟨P.comps.treasury, dst, a.info, a.amount⟩)
  | _ => []

/-- Only the admin of the treasury makes it do anything. -/
theorem runTreasury_admin {P : Parties} {x : Ext} {w w' : World} {u : Addr} {m : Treasury.Msg}
    (h : runTreasury P x w u m = .ok w') : u = w.tre.admin := by
  simp only [runTreasury, bind_ok_iff] at h
  obtain ⟨r, h1, _⟩ := h
  by_contra hu
  rw [Treasury.C61_only_admin w.tre u m hu] at h1
  cases h1

theorem exec_outs {P : Parties} {s s' : Treasury.State} {u : Addr} {m : Treasury.Msg} {outs : List Treasury.Out}
    (h : Treasury.exec s u m = .ok (s', outs)) :
    ((∀ a, m ≠ .setAdmin a) → s'.admin = s.admin) ∧
    (outs.flatMap (outPays P)).Perm (msgPays P m) ∧ ((∀ l, m ≠ .cosmosMsgs l) → ∀ o ∈ outs, ∀ k, o ≠ .cosmos k) := by
  cases m with
  | setAdmin a =>
    simp only [Treasury.exec, Treasury.setAdmin, ite_ok_iff] at h
    obtain ⟨_, h⟩ := h
    cases h
    exact ⟨fun hh => absurd rfl (hh a), List.Perm.refl _, fun _ o ho => (by cases ho)⟩
  | updateAssets a r =>
    simp only [Treasury.exec, Treasury.updateAssets, ite_ok_iff, bind_ok_iff, pure_ok_iff] at h
    obtain ⟨_, _, _, h⟩ := h
    cases h
    exact ⟨fun _ => rfl, List.Perm.refl _, fun _ o ho => (by cases ho)⟩
  | updateNfts a r =>
    simp only [Treasury.exec, Treasury.updateNfts, ite_ok_iff] at h
    obtain ⟨_, h⟩ := h
    cases h
    exact ⟨fun _ => rfl, List.Perm.refl _, fun _ o ho => (by cases ho)⟩
  | spend dst l =>
    simp only [Treasury.exec, Treasury.spend, ite_ok_iff, bind_ok_iff, pure_ok_iff] at h
    obtain ⟨_, os, h1, h⟩ := h
    cases h
    obtain ⟨g1, g2⟩ := spend_outs (P := P) h1
    exact ⟨fun _ => rfl, by rw [g2]; exact List.Perm.refl _, fun _ => g1⟩
  | distribute dst l =>
    simp only [Treasury.exec, Treasury.distribute, ite_ok_iff, bind_ok_iff, pure_ok_iff] at h
    obtain ⟨_, r, h1, h⟩ := h
    obtain ⟨g1, g2⟩ := distribute_outs (P := P) h1 (fun o ho => (by cases ho))
    cases h
    refine ⟨fun _ => rfl, ?_, fun _ => ?_⟩
    · by_cases he : r.1.isEmpty = true
      · rw [if_pos he]
        rw [List.isEmpty_iff.1 he] at g2
        simpa [msgPays] using g2
      · rw [if_neg he, List.flatMap_append]
        simpa [outPays, msgPays] using g2
    · intro o ho k hk
      by_cases he : r.1.isEmpty = true
      · rw [if_pos he] at ho; exact g1 o ho k hk
      · rw [if_neg he] at ho
        rcases List.mem_append.1 ho with ho | ho
        · exact g1 o ho k hk
        · rw [List.mem_singleton.1 ho] at hk; cases hk
  | cosmosMsgs l =>
    simp only [Treasury.exec, Treasury.cosmosMsgs, ite_ok_iff, bind_ok_iff, pure_ok_iff] at h
    obtain ⟨_, os, h1, h⟩ := h
    simp only [Prod.mk.injEq] at h
    obtain ⟨rfl, rfl⟩ := h
    refine ⟨fun _ => rfl, ?_, fun hh => absurd rfl (hh l)⟩
    have : ∀ (l : List (Option Nat)) (os : List Treasury.Out), l.mapM (fun x => match x with
        | some m => Except.ok (Treasury.Out.cosmos m)
        | none => .error Err.invalidArgument) = .ok os → os.flatMap (outPays P) = [] := by
      intro l
      induction l with
      | nil => intro os h; cases h; rfl
      | cons y t ih =>
        intro os h
        simp only [List.mapM_cons, bind_ok_iff, pure_ok_iff] at h
        obtain ⟨o, h1, os2, h2, rfl⟩ := h
        rw [List.flatMap_cons, ih os2 h2]
        cases y with
        | none => cases h1
        | some k => cases h1; rfl
    rw [this l _ h1]
    exact List.Perm.refl _

/-! ### Sub-messages of the controller -/

/-- Proposals, and the terms and statuses of polls, are as before. -/
structure Kept (w w' : World) : Prop where
  infos : w'.st.infos = w.st.infos
  polls : ∀ id, Dao.outline w'.gov id = Dao.outline w.gov id
  count : w'.gov.pollCount = w.gov.pollCount
  now : w'.now = w.now
  admin : w'.tre.admin = w.tre.admin

theorem Kept.refl (w : World) : Kept w w := ⟨rfl, fun _ => rfl, rfl, rfl, rfl⟩

theorem Kept.trans {w w1 w2 : World} (h1 : Kept w w1) (h2 : Kept w1 w2) : Kept w w2 :=
  ⟨h2.infos.trans h1.infos, fun id => (h2.polls id).trans (h1.polls id), h2.count.trans h1.count, h2.now.trans h1.now,
    h2.admin.trans h1.admin⟩

theorem Still.kept {w w' : World} (h : Still w w') : Kept w w' :=
  ⟨by rw [h.1], fun id => by rw [h.2.1], by rw [h.2.1], h.2.2.2, by rw [h.2.2.1]⟩

theorem outline_updateAll {e : Controller.Env} : ∀ {l : List WeightChange} {g g' : Gov.State},
    Controller.updateAllVotes e g l = .ok g' → ∀ id, Dao.outline g' id = Dao.outline g id := by
  intro l
  induction l with
  | nil => intro g g' h; cases h; exact fun _ => rfl
  | cons c t ih =>
    intro g g' h id
    unfold Controller.updateAllVotes at h
    rw [foldlM_cons_ok_iff] at h
    obtain ⟨g1, h1, h2⟩ := h
    unfold Gov.exec at h1
    rw [ite_ok_iff] at h1
    rw [ih h2, Dao.outline_updateVotes h1.2]

/-- The sub-messages of a report. -/
theorem notified_ok {P : Parties} {x : Ext} : ∀ {l : List Sub} {w w' : World},
    (∀ s ∈ l, ∃ c, s = .distributor (.updateWeights c)) →
    l.foldlM (runNotified P x) w = .ok w' → Still w w' ∧ Accounts w.led w'.led [] := by
  intro l
  induction l with
  | nil =>
    intro w w' _ h
    rw [foldlM_nil_ok_iff] at h
    subst h
    exact ⟨Still.refl _, Accounts.nil _⟩
  | cons o t ih =>
    intro w w' ho h
    rw [foldlM_cons_ok_iff] at h
    obtain ⟨w1, h1, h2⟩ := h
    obtain ⟨s2, a2⟩ := ih (fun y hy => ho y (List.mem_cons_of_mem _ hy)) h2
    obtain ⟨c, rfl⟩ := ho o List.mem_cons_self
    obtain ⟨s1, l1, a1, _, hl⟩ := runDis_ok h1
    rw [hl (fun _ _ _ hh => by cases hh)] at a1
    exact ⟨s1.trans s2, a1.trans a2⟩

theorem report_subs {e : Controller.Env} {u : Addr} {s : State} {g : Gov.State} {l : List WeightChange}
    {r : State × Gov.State × List Sub} (h : Controller.exec e u s g (.weightsChanged l) = .ok r) :
    r.1 = s ∧ (∀ id, Dao.outline r.2.1 id = Dao.outline g id) ∧ r.2.1.pollCount = g.pollCount ∧
    ∀ s ∈ r.2.2, ∃ c, s = .distributor (.updateWeights c) := by
  simp only [Controller.exec, bind_ok_iff, pure_ok_iff] at h
  obtain ⟨r1, h1, rfl⟩ := h
  rcases weightsChanged_ok_iff.1 h1 with ⟨_, rfl⟩ | ⟨_, _, h2, h3⟩
  · exact ⟨rfl, fun _ => rfl, rfl, fun s hs => (by cases hs)⟩
  · refine ⟨rfl, outline_updateAll h2, Dao.updateAll_count h2, fun s hs => ?_⟩
    change s ∈ r1.2 at hs
    rw [h3] at hs
    exact ⟨_, List.mem_singleton.1 hs⟩

theorem notify_ok {P : Parties} {x : Ext} {w w' : World} {l : List WeightChange} (h : notify P x w l = .ok w') :
    Kept w w' ∧ Accounts w.led w'.led [] := by
  simp only [notify, bind_ok_iff] at h
  obtain ⟨r, h1, h2⟩ := h
  obtain ⟨g1, g2, g3, g4⟩ := report_subs h1
  obtain ⟨s1, a1⟩ := notified_ok g4 h2
  have k0 : Kept w { w with st := r.1, gov := r.2.1 } := ⟨by show r.1.infos = _; rw [g1], g2, g3, rfl, rfl⟩
  exact ⟨k0.trans s1.kept, a1⟩

theorem runOther_ok {P : Parties} {x : Ext} {w w' : World} {s : Sub} (h : runOther P x w s = .ok w') :
    Kept w w' ∧ Accounts w.led w'.led [] := by
  unfold runOther at h
  cases hx : x.others s with
  | none => rw [hx] at h; cases h
  | some l =>
    rw [hx] at h
    cases l with
    | nil => cases h; exact ⟨Kept.refl _, Accounts.nil _⟩
    | cons c l => exact notify_ok h

/-- What a sub-message of the controller moves. -/
def subPays (P : Parties) : Sub → List Payment
  | .treasury none m => msgPays P m
  | .deposit _ (.asset a n dst) => [⟨P.me, dst, a, n⟩]
  | _ => []

/-- Custom messages and upgrades. -/
def freeSub : Sub → Bool
  | .custom _ | .enterprise (.upgradeDao _) | .enterprise (.executeMsgs _) | .treasury none (.cosmosMsgs _) => true
  | _ => false

/-- The controller never changes the admin of the treasury by itself; the messages to the distributor are those of its
own. -/
def saneSub : Sub → Prop
  | .treasury none (.setAdmin _) => False
  | .distributor (.claim _ _ _) => False
  | _ => True

theorem runSub_plain {P : Parties} {x : Ext} {w w' : World} {s : Sub} (hf : freeSub s = false) (hs : saneSub s)
    (h : runSub P x w s = .ok w') : Kept w w' ∧ Accounts w.led w'.led (subPays P s) := by
  cases s with
  | actions id => cases h
  | deposit id t =>
    cases t with
    | asset a n dst =>
      obtain ⟨s1, a1⟩ := pay_ok h
      exact ⟨s1.kept, a1⟩
    | nft c n dst => cases h; exact ⟨Kept.refl _, Accounts.nil _⟩
  | takeNft c n => cases h; exact ⟨Kept.refl _, Accounts.nil _⟩
  | treasury r m =>
    cases r with
    | some d => exact runOther_ok h
    | none =>
      change runTreasury P x w P.me m = _ at h
      simp only [runTreasury, bind_ok_iff] at h
      obtain ⟨⟨s', outs⟩, h1, h2⟩ := h
      obtain ⟨g1, g2, g3⟩ := exec_outs (P := P) h1
      have hm : ∀ l, m ≠ .cosmosMsgs l := by rintro l rfl; cases hf
      have ha : ∀ a, m ≠ .setAdmin a := by rintro a rfl; exact hs
      obtain ⟨s1, a1⟩ := outs_ok (g3 hm) h2
      have k0 : Kept w { w with tre := s' } := ⟨rfl, fun _ => rfl, rfl, rfl, g1 ha⟩
      exact ⟨k0.trans s1.kept, a1.perm g2⟩
  | enterprise m =>
    cases m with
    | updateMetadata k => exact runOther_ok h
    | upgradeDao v => cases hf
    | executeMsgs l => cases hf
  | council l => exact runOther_ok h
  | unlocking d => exact runOther_ok h
  | members l => exact runOther_ok h
  | distributor m =>
    obtain ⟨s1, l, a1, _, hl⟩ := runDis_ok h
    rw [hl (fun v d t hh => by subst hh; exact hs)] at a1
    exact ⟨s1.kept, a1⟩
  | deploy d => exact runOther_ok h
  | custom m => cases hf

theorem cosmos_tame {P : Parties} {x : Ext} (hx : x.Tame P) : ∀ {l : List Treasury.Out} {w w' : World},
    (∀ o ∈ l, ∃ m, o = .cosmos m) → l.foldlM (treasuryOut P x) w = .ok w' →
    w'.st = w.st ∧ w'.gov = w.gov ∧ w'.now = w.now ∧ w'.tre.admin = w.tre.admin ∧
      ∀ a, (w.led a).bal P.comps.treasury ≤ (w'.led a).bal P.comps.treasury := by
  intro l
  induction l with
  | nil =>
    intro w w' _ h
    rw [foldlM_nil_ok_iff] at h
    subst h
    exact ⟨rfl, rfl, rfl, rfl, fun _ => le_rfl⟩
  | cons o t ih =>
    intro w w' ho h
    rw [foldlM_cons_ok_iff] at h
    obtain ⟨w1, h1, h2⟩ := h
    obtain ⟨m, rfl⟩ := ho o List.mem_cons_self
    obtain ⟨a1, a2, a3, a4, a5⟩ := hx.cosmos h1
    obtain ⟨b1, b2, b3, b4, b5⟩ := ih (fun y hy => ho y (List.mem_cons_of_mem _ hy)) h2
    exact ⟨b1.trans a1, b2.trans a2, b3.trans a3, b4.trans a4, fun a => le_trans (a5 a) (b5 a)⟩

theorem cosmos_outs : ∀ {l : List (Option Nat)} {os : List Treasury.Out}, l.mapM (fun x => match x with
    | some m => Except.ok (Treasury.Out.cosmos m)
    | none => .error Err.invalidArgument) = .ok os → ∀ o ∈ os, ∃ m, o = .cosmos m := by
  intro l
  induction l with
  | nil => intro os h; cases h; exact fun o ho => (by cases ho)
  | cons y t ih =>
    intro os h o ho
    simp only [List.mapM_cons, bind_ok_iff, pure_ok_iff] at h
    obtain ⟨o1, h1, os2, h2, rfl⟩ := h
    rcases List.mem_cons.1 ho with rfl | ho
    · cases y with
      | none => cases h1
      | some k => cases h1; exact ⟨k, rfl⟩
    · exact ih h2 o ho

/-- A custom message or upgrade, when these are tame. -/
theorem free_tame {P : Parties} {x : Ext} (hx : x.Tame P) {w w' : World} {s : Sub} (hf : freeSub s = true)
    (h : runSub P x w s = .ok w') : w'.st = w.st ∧ w'.gov = w.gov ∧ w'.now = w.now ∧ w'.tre.admin = w.tre.admin ∧
      ∀ a, (w.led a).bal P.comps.treasury ≤ (w'.led a).bal P.comps.treasury := by
  cases s with
  | treasury r m =>
    cases r with
    | some d => cases hf
    | none =>
      cases m with
      | cosmosMsgs l =>
        change runTreasury P x w P.me _ = _ at h
        simp only [runTreasury, Treasury.exec, Treasury.cosmosMsgs, ite_ok_iff, bind_ok_iff, pure_ok_iff] at h
        obtain ⟨r, ⟨_, os, h1, rfl⟩, h2⟩ := h
        exact cosmos_tame hx (cosmos_outs h1) h2
      | _ => cases hf
  | enterprise m =>
    cases m with
    | updateMetadata k => cases hf
    | upgradeDao v => exact hx.free h
    | executeMsgs l => exact hx.free h
  | custom m => exact hx.free h
  | _ => cases hf

theorem runSub_tame {P : Parties} {x : Ext} (hx : x.Tame P) {w w' : World} {s : Sub} (hs : saneSub s)
    (h : runSub P x w s = .ok w') :
    Kept w w' ∧ ∀ a, (w.led a).bal P.comps.treasury ≤
      (w'.led a).bal P.comps.treasury + given a P.comps.treasury (subPays P s) := by
  cases hf : freeSub s with
  | false =>
    obtain ⟨k, a1⟩ := runSub_plain hf hs h
    refine ⟨k, fun a => ?_⟩
    have := a1 a P.comps.treasury
    omega
  | true =>
    obtain ⟨a1, a2, a3, a4, a5⟩ := free_tame hx hf h
    exact ⟨⟨by rw [a1], fun _ => by rw [a2], by rw [a2], a3, a4⟩, fun a => le_trans (a5 a) (Nat.le_add_right _ _)⟩

/-- The invariant of the controller and governance survives. -/
theorem runSub_inv {P : Parties} {x : Ext} (hx : x.Tame P) (hw : Dao.EnvOk (P.env x))
    (hr : ∀ s l, x.others s = some l → ∀ c ∈ l, c.new < 2 ^ 128) {w w' : World} {s : Sub}
    (room : w.gov.pollCount + 1 < 2 ^ 64) (hi : Dao.CtlInv P.me P.type x.env.block.time w.st w.gov)
    (h : runSub P x w s = .ok w') : Dao.CtlInv P.me P.type x.env.block.time w'.st w'.gov := by
  have hstill : ∀ {v v' : World}, Still v v' → Dao.CtlInv P.me P.type x.env.block.time v.st v.gov →
      Dao.CtlInv P.me P.type x.env.block.time v'.st v'.gov := by
    intro v v' hs hi
    rw [hs.1, hs.2.1]
    exact hi
  have hother : ∀ {s : Sub}, runOther P x w s = .ok w' → Dao.CtlInv P.me P.type x.env.block.time w'.st w'.gov := by
    intro s h
    unfold runOther at h
    cases ho : x.others s with
    | none => rw [ho] at h; cases h
    | some l =>
      rw [ho] at h
      cases l with
      | nil => cases h; exact hi
      | cons c l =>
        change notify P x w (c :: l) = _ at h
        simp only [notify, bind_ok_iff] at h
        obtain ⟨r, h1, h2⟩ := h
        obtain ⟨_, _, _, g4⟩ := report_subs h1
        obtain ⟨s1, _⟩ := notified_ok g4 h2
        refine hstill s1 ?_
        exact (Dao.ctl_exec (e := P.env x) hi hw room
          (fun l' hl' => by cases hl'; exact hr s (c :: l) ho) h1).1
  cases hf : freeSub s with
  | true =>
    obtain ⟨a1, a2, _⟩ := free_tame hx hf h
    rw [a1, a2]
    exact hi
  | false =>
    cases s with
    | actions id => cases h
    | deposit id t =>
      cases t with
      | asset a n dst => exact hstill (pay_ok h).1 hi
      | nft c n dst => cases h; exact hi
    | takeNft c n => cases h; exact hi
    | treasury r m =>
      cases r with
      | some d => exact hother h
      | none =>
        change runTreasury P x w P.me m = _ at h
        simp only [runTreasury, bind_ok_iff] at h
        obtain ⟨⟨s', outs⟩, h1, h2⟩ := h
        obtain ⟨_, _, g3⟩ := exec_outs (P := P) h1
        have hm : ∀ l, m ≠ .cosmosMsgs l := by rintro l rfl; cases hf
        obtain ⟨s1, _⟩ := outs_ok (g3 hm) h2
        exact hstill s1 hi
    | enterprise m =>
      cases m with
      | updateMetadata k => exact hother h
      | upgradeDao v => cases hf
      | executeMsgs l => cases hf
    | council l => exact hother h
    | unlocking d => exact hother h
    | members l => exact hother h
    | distributor m => exact hstill (runDis_ok h).1 hi
    | deploy d => exact hother h
    | custom m => cases hf

/-! ### Lists of sub-messages -/

theorem subs_plain {P : Parties} {x : Ext} : ∀ {l : List Sub} {w w' : World},
    (∀ s ∈ l, freeSub s = false ∧ saneSub s) → l.foldlM (runSub P x) w = .ok w' →
    Kept w w' ∧ Accounts w.led w'.led (l.flatMap (subPays P)) := by
  intro l
  induction l with
  | nil =>
    intro w w' _ h
    rw [foldlM_nil_ok_iff] at h
    subst h
    exact ⟨Kept.refl _, Accounts.nil _⟩
  | cons o t ih =>
    intro w w' ho h
    rw [foldlM_cons_ok_iff] at h
    obtain ⟨w1, h1, h2⟩ := h
    obtain ⟨s2, a2⟩ := ih (fun y hy => ho y (List.mem_cons_of_mem _ hy)) h2
    obtain ⟨f, s⟩ := ho o List.mem_cons_self
    obtain ⟨s1, a1⟩ := runSub_plain f s h1
    exact ⟨s1.trans s2, a1.trans a2⟩

theorem subs_tame {P : Parties} {x : Ext} (hx : x.Tame P) : ∀ {l : List Sub} {w w' : World},
    (∀ s ∈ l, saneSub s) → l.foldlM (runSub P x) w = .ok w' →
    Kept w w' ∧ ∀ a, (w.led a).bal P.comps.treasury ≤
      (w'.led a).bal P.comps.treasury + given a P.comps.treasury (l.flatMap (subPays P)) := by
  intro l
  induction l with
  | nil =>
    intro w w' _ h
    rw [foldlM_nil_ok_iff] at h
    subst h
    exact ⟨Kept.refl _, fun _ => Nat.le_add_right _ _⟩
  | cons o t ih =>
    intro w w' ho h
    rw [foldlM_cons_ok_iff] at h
    obtain ⟨w1, h1, h2⟩ := h
    obtain ⟨s2, a2⟩ := ih (fun y hy => ho y (List.mem_cons_of_mem _ hy)) h2
    obtain ⟨s1, a1⟩ := runSub_tame hx (ho o List.mem_cons_self) h1
    refine ⟨s1.trans s2, fun a => ?_⟩
    have := a1 a
    have := a2 a
    rw [List.flatMap_cons, given_append]
    omega

theorem subs_inv {P : Parties} {x : Ext} (hx : x.Tame P) (hw : Dao.EnvOk (P.env x))
    (hr : ∀ s l, x.others s = some l → ∀ c ∈ l, c.new < 2 ^ 128) : ∀ {l : List Sub} {w w' : World},
    (∀ s ∈ l, saneSub s) → w.gov.pollCount + 1 < 2 ^ 64 → Dao.CtlInv P.me P.type x.env.block.time w.st w.gov →
    l.foldlM (runSub P x) w = .ok w' → Dao.CtlInv P.me P.type x.env.block.time w'.st w'.gov := by
  intro l
  induction l with
  | nil =>
    intro w w' _ _ hi h
    rw [foldlM_nil_ok_iff] at h
    subst h
    exact hi
  | cons o t ih =>
    intro w w' ho room hi h
    rw [foldlM_cons_ok_iff] at h
    obtain ⟨w1, h1, h2⟩ := h
    have hk := (runSub_tame hx (ho o List.mem_cons_self) h1).1
    exact ih (fun y hy => ho y (List.mem_cons_of_mem _ hy)) (by rw [hk.count]; exact room)
      (runSub_inv hx hw hr room hi h1) h2

/-! ### The actions of a proposal -/

theorem does_pays {P : Parties} {x : Ext} {s s' : State} {a : Action} {subs : List Sub}
    (h : Does (P.env x) s a s' subs) :
    subs.flatMap (subPays P) = actionAsks P a ∧ (∀ y ∈ subs, saneSub y) ∧
    (isFree a = false → ∀ y ∈ subs, freeSub y = false) := by
  have one : ∀ {y : Sub}, saneSub y → ∀ z ∈ [y], saneSub z := by
    intro y hy z hz; rw [List.mem_singleton.1 hz]; exact hy
  have onef : ∀ {y : Sub}, freeSub y = false → ∀ z ∈ [y], freeSub z = false := by
    intro y hy z hz; rw [List.mem_singleton.1 hz]; exact hy
  cases h with
  | updateMetadata m => exact ⟨rfl, one trivial, fun _ => onef rfl⟩
  | config h hv hu => exact ⟨rfl, fun y hy => (by cases hy), fun _ y hy => (by cases hy)⟩
  | configUnlocking h hv hu hd ht => exact ⟨rfl, one trivial, fun _ => onef rfl⟩
  | configMultisig h hv hu hd ht => exact ⟨rfl, fun y hy => (by cases hy), fun _ y hy => (by cases hy)⟩
  | noCouncil => exact ⟨rfl, one trivial, fun _ => onef rfl⟩
  | council h => exact ⟨rfl, one trivial, fun _ => onef rfl⟩
  | assets r a d => cases r <;> exact ⟨rfl, one trivial, fun _ => onef rfl⟩
  | nfts r a d => cases r <;> exact ⟨rfl, one trivial, fun _ => onef rfl⟩
  | funding r dst l =>
    cases r with
    | none => exact ⟨by simp only [List.flatMap_cons, List.flatMap_nil, List.append_nil]; rfl, one trivial, fun _ => onef rfl⟩
    | some d => exact ⟨rfl, one trivial, fun _ => onef rfl⟩
  | upgrade h => exact ⟨rfl, one trivial, fun hf => (by cases hf)⟩
  | msgs h =>
    rename_i l
    refine ⟨?_, ?_, fun hf => (by cases hf)⟩
    · clear h
      induction l with
      | nil => rfl
      | cons y t ih =>
        have ht : (t.map Sub.custom).flatMap (subPays P) = [] := ih
        rw [List.map_cons, List.flatMap_cons, ht]
        rfl
    · intro y hy
      obtain ⟨k, _, rfl⟩ := List.mem_map.1 hy
      trivial
  | treasuryMsgs r l =>
    cases r with
    | none => exact ⟨rfl, one trivial, fun hf => (by cases hf)⟩
    | some d => exact ⟨rfl, one trivial, fun _ => onef rfl⟩
  | enterpriseMsgs l => exact ⟨rfl, one trivial, fun hf => (by cases hf)⟩
  | multisig ht h => exact ⟨rfl, one trivial, fun _ => onef rfl⟩
  | distribute l =>
    exact ⟨by simp only [List.flatMap_cons, List.flatMap_nil, List.append_nil]; rfl, one trivial, fun _ => onef rfl⟩
  | minWeight w => exact ⟨rfl, one trivial, fun _ => onef rfl⟩
  | deploy d => exact ⟨rfl, one trivial, fun _ => onef rfl⟩

theorem doesAll_pays {P : Parties} {x : Ext} {s s' : State} {l : List Action} {subs : List Sub}
    (h : DoesAll (P.env x) s l s' subs) :
    subs.flatMap (subPays P) = l.flatMap (actionAsks P) ∧ (∀ y ∈ subs, saneSub y) ∧
    ((∀ a ∈ l, isFree a = false) → ∀ y ∈ subs, freeSub y = false) := by
  induction h with
  | nil s => exact ⟨rfl, fun y hy => (by cases hy), fun _ y hy => (by cases hy)⟩
  | cons h t ih =>
    obtain ⟨a1, a2, a3⟩ := does_pays h
    obtain ⟨b1, b2, b3⟩ := ih
    refine ⟨by rw [List.flatMap_append, List.flatMap_cons, a1, b1], fun y hy => ?_, fun hf y hy => ?_⟩
    · rcases List.mem_append.1 hy with hy | hy
      · exact a2 y hy
      · exact b2 y hy
    · rcases List.mem_append.1 hy with hy | hy
      · exact a3 (hf _ List.mem_cons_self) y hy
      · exact b3 (fun a ha => hf a (List.mem_cons_of_mem _ ha)) y hy

/-- The actions of a proposal, when they go through. -/
theorem runActions_ok {P : Parties} {x : Ext} {w w' : World} {id : Nat} {i : Info} (hi : w.st.infos.get id = some i)
    (h : runActions P x w id = .ok w') :
    ((∀ a ∈ i.actions, isFree a = false) → Kept w w' ∧ Accounts w.led w'.led (asks P i)) ∧
    (x.Tame P → Kept w w' ∧ ∀ a, (w.led a).bal P.comps.treasury ≤
      (w'.led a).bal P.comps.treasury + given a P.comps.treasury (asks P i)) ∧
    (x.Tame P → Dao.EnvOk (P.env x) → (∀ s l, x.others s = some l → ∀ c ∈ l, c.new < 2 ^ 128) →
      w.gov.pollCount + 1 < 2 ^ 64 → Dao.CtlInv P.me P.type x.env.block.time w.st w.gov →
      Dao.CtlInv P.me P.type x.env.block.time w'.st w'.gov) := by
  simp only [runActions, bind_ok_iff] at h
  obtain ⟨r, h1, h2⟩ := h
  have h1' := h1
  simp only [Controller.exec, bind_ok_iff, pure_ok_iff] at h1
  obtain ⟨r1, h1, rfl⟩ := h1
  obtain ⟨_, j, hj, h3⟩ := executeActions_ok_iff.1 h1
  rw [hi] at hj
  cases hj
  have hsame := (actAll_ok _ h3).1.same
  obtain ⟨b1, b2, b3⟩ := doesAll_pays ((actAll_iff _).1 h3)
  have hk : Kept w { w with st := r1.1, gov := w.gov } :=
    ⟨by show r1.1.infos = _; rw [hsame], fun _ => rfl, rfl, rfl, rfl⟩
  refine ⟨fun hf => ?_, fun hx => ?_, fun hx he ho room hc => ?_⟩
  · obtain ⟨k, a1⟩ := subs_plain (fun s hs => ⟨b3 hf s hs, b2 s hs⟩) h2
    refine ⟨hk.trans k, ?_⟩
    rw [b1] at a1
    exact a1
  · obtain ⟨k, a1⟩ := subs_tame hx b2 h2
    refine ⟨hk.trans k, fun a => ?_⟩
    have := a1 a
    rw [b1] at this
    exact this
  · refine subs_inv (w := { w with st := r1.1, gov := w.gov }) hx he ho b2 room ?_ h2
    exact (Dao.ctl_exec (e := P.env x) hc he room (fun l hl => by cases hl) h1').1

end Verif.Custody.Spending
