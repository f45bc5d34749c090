import Verif.Dao.Props7
import Verif.Distributor.Lemmas3
import Verif.Gov.Props

/-!
# The contracts of a DAO together: reports of lower weights are never refused
-/

set_option linter.unusedSimpArgs false

namespace Verif.Distributor
open Verif

theorem updates_total : ∀ (l : List (Addr × Nat)) {s s' : State}, Inv s → s.total < M128 →
    l.foldlM updateOne s = .ok s' → s'.total < M128
  | [], s, s', _, hs, h => by
    rw [foldlM_nil_ok_iff] at h
    subst h
    exact hs
  | p :: l, s, s', hi, _, h => by
    obtain ⟨s1, h1, h2⟩ := foldlM_cons_ok_iff.1 h
    obtain ⟨i1, _, _, t1⟩ := updateOne_ok hi h1
    exact updates_total l i1 t1 h2

theorem mins_total {b : Bool} : ∀ (l : List (Addr × Nat)) {s s' : State}, Core s → s.total < M128 →
    l.foldlM (minOne b) s = .ok s' → s'.total < M128
  | [], s, s', _, hs, h => by
    rw [foldlM_nil_ok_iff] at h
    subst h
    exact hs
  | p :: l, s, s', hi, _, h => by
    obtain ⟨s1, h1, h2⟩ := foldlM_cons_ok_iff.1 h
    obtain ⟨q, _, _, t1⟩ := minOne_ok hi h1
    exact mins_total l q.core t1 h2

theorem exec_total {s : State} (hi : Inv s) (ht : s.total < M128) {e : Env} {m : Msg} {x : State × List Out}
    (h : exec s e m = .ok x) : x.1.total < M128 := by
  cases m with
  | updateWeights l =>
    simp only [exec] at h
    obtain ⟨s', h1, h⟩ := bind_ok_iff.1 h
    cases pure_ok_iff.1 h
    unfold updateWeights at h1
    exact updates_total l hi ht (ite_ok_iff.1 h1).2
  | updateMin n =>
    simp only [exec] at h
    obtain ⟨s', h1, h⟩ := bind_ok_iff.1 h
    cases pure_ok_iff.1 h
    unfold updateMin at h1
    obtain ⟨_, h1⟩ := ite_ok_iff.1 h1
    by_cases hm : s.min = n
    · rw [if_pos hm] at h1; cases h1; exact ht
    · rw [if_neg hm] at h1
      obtain ⟨s1, h2, h3⟩ := bind_ok_iff.1 h1
      cases pure_ok_iff.1 h3
      have := mins_total _ hi.toCore ht h2
      exact this
  | distributeNative l =>
    simp only [exec] at h
    obtain ⟨s', h1, h⟩ := bind_ok_iff.1 h
    cases pure_ok_iff.1 h
    obtain ⟨_, _, n, h2, rfl⟩ := distributeNative_ok_iff.1 h1
    exact ht
  | claim u l t => rw [(claim_effect hi.toCore h).2.2.frame.2.2.2.2]; exact ht
  | receiveCw20 k n =>
    simp only [exec] at h
    obtain ⟨s', h1, h⟩ := bind_ok_iff.1 h
    cases pure_ok_iff.1 h
    obtain ⟨_, _, _, c, h2, rfl⟩ := receiveCw20_ok_iff.1 h1
    exact ht

theorem inits_total : ∀ (l : List (Addr × Nat)) {s s' : State}, s.total < M128 → l.foldlM initOne s = .ok s' →
    s'.total < M128
  | [], s, s', hs, h => by
    rw [foldlM_nil_ok_iff] at h
    subst h
    exact hs
  | p :: l, s, s', _, h => by
    obtain ⟨s1, h1, h2⟩ := foldlM_cons_ok_iff.1 h
    refine inits_total l ?_ h2
    unfold initOne at h1
    obtain ⟨_, h1⟩ := ite_ok_iff.1 h1
    obtain ⟨t, h3, h4⟩ := bind_ok_iff.1 h1
    cases pure_ok_iff.1 h4
    obtain ⟨h5, h6⟩ := cadd128_ok.1 h3
    show t < M128
    omega

/-- A lower weight is always accepted. -/
theorem lower_exists {s : State} (hi : Inv s) (ht : s.total < M128) (ho : ∀ a, owedOf s a < ONE * M128) {u : Addr}
    {n : Nat} (hn : n ≤ (s.weights.get u).getD 0) : ∃ s', updateOne s (u, n) = .ok s' := by
  obtain ⟨⟨nn, hnn⟩, c, hcw⟩ := settle_both_exists hi.toCore ho u
  have hr : ∃ x, refresh s u = .ok x := by
    unfold refresh
    cases hu : s.effective.get u with
    | none => exact ⟨_, rfl⟩
    | some w =>
      rw [hu] at hnn hcw
      exact ⟨(nn, c), bind_ok_iff.2 ⟨nn, hnn, bind_ok_iff.2 ⟨c, hcw, rfl⟩⟩⟩
  obtain ⟨x, hx⟩ := hr
  have h6 : Map.contrib (fun _ w => w) u (s.effective.get u) = (s.effective.get u).getD 0 := by
    cases s.effective.get u <;> rfl
  have h5 := Map.contrib_le_sum s.effective (fun _ w => w) u
  have htot := hi.total
  have hle : effWeight n s.min ≤ (s.effective.get u).getD 0 := by
    rw [hi.eff u]
    cases hw : s.weights.get u with
    | none =>
      rw [hw] at hn
      have : n = 0 := by simpa using hn
      subst this
      unfold effWeight; split <;> simp
    | some w =>
      rw [hw] at hn
      have hn : n ≤ w := by simpa using hn
      simp only [Option.map_some, Option.getD_some]
      unfold effWeight
      split <;> split <;> omega
  have h1 : csub s.total ((s.effective.get u).getD 0) = .ok (s.total - (s.effective.get u).getD 0) :=
    csub_ok.2 ⟨by omega, rfl⟩
  have h2 : cadd128 (s.total - (s.effective.get u).getD 0) (effWeight n s.min) =
      .ok (s.total - (s.effective.get u).getD 0 + effWeight n s.min) := cadd128_ok.2 ⟨by omega, rfl⟩
  exact ⟨_, bind_ok_iff.2 ⟨x, hx, bind_ok_iff.2 ⟨_, h1, bind_ok_iff.2 ⟨_, h2, rfl⟩⟩⟩⟩

end Verif.Distributor

namespace Verif.Dao
open Verif
open Verif.Staking (Explains)

theorem explained_or (u : Addr) : ∀ (l : List WeightChange) (W : Map Addr Nat) (f f' : Addr → Nat), Explains f l f' →
    (((l.map (fun ch => (ch.user, ch.new))).foldl (fun m p => m.set p.1 p.2) W).get u).getD 0 = f' u ∨
    f' u = f u ∧ ((l.map (fun ch => (ch.user, ch.new))).foldl (fun m p => m.set p.1 p.2) W).get u = W.get u := by
  intro l
  induction l with
  | nil => intro W f f' h; exact Or.inr ⟨h u, rfl⟩
  | cons ch t ih =>
    intro W f f' h
    rw [List.map_cons, List.foldl_cons]
    rcases ih (W.set ch.user ch.new) _ _ h.2 with h1 | ⟨h1, h2⟩
    · exact Or.inl h1
    · by_cases hc : u = ch.user
      · left
        rw [h2, h1]
        simp [hc]
      · right
        refine ⟨by rw [h1]; simp [hc], ?_⟩
        rw [h2, Map.get_set, if_neg (fun hh => hc hh.symm)]

/-- The membership contract does not know of more weight than the distributor, and the total of the distributor fits. -/
structure Led (w : World) : Prop where
  weight : ∀ u, w.mem.weight u ≤ rewardWeight w.dist u
  total : w.dist.total < M128

theorem Handled.led {c : Cfg} (hw : c.Wf) {e : Ext} {w w1 : World} {a : Addr} {m : Msg} {subs : List Item}
    (hb : Base c w) (hk : Known c a m) (hr : handle c e w a m = .ok (w1, subs))
    (hd : DistOk c w) (h : Led w) : Led w1 := by
  cases m with
  | ctl m =>
    obtain ⟨r, hx⟩ := handle_ctl hr
    have hworld := hx.world
    simp only at hworld
    rw [hworld]
    exact ⟨h.weight, h.total⟩
  | gov m =>
    simp only [handle, bind_ok_iff, pure_ok_iff] at hr
    obtain ⟨g, _, hx⟩ := hr
    cases hx
    exact ⟨h.weight, h.total⟩
  | dist m =>
    simp only [handle, bind_ok_iff, pure_ok_iff] at hr
    obtain ⟨r, h1, h2⟩ := hr
    cases h2
    have hne : ∀ l, m ≠ .updateWeights l := by
      rintro l rfl
      rcases hk with hk | ⟨_, hk | ⟨id, hk⟩⟩
      · simp only [Distributor.exec] at h1
        obtain ⟨s', h3, _⟩ := bind_ok_iff.1 h1
        unfold Distributor.updateWeights at h3
        obtain ⟨h4, _⟩ := ite_ok_iff.1 h3
        have h4 : a = w.dist.admin := Classical.not_not.1 h4
        exact hk.1 (h4.trans hd.admin)
      · cases hk
      · cases hk
    refine ⟨fun u => ?_, Distributor.exec_total hd.inv h.total h1⟩
    unfold rewardWeight
    show w.mem.weight u ≤ (r.1.weights.get u).getD 0
    rw [dist_weights hd.inv hne h1]
    exact h.weight u
  | mem m =>
    have hm : a = c.self → m.tame = true := by
      intro ha
      rcases hk with hk | ⟨_, hk | ⟨id, hk⟩⟩
      · exact absurd ha hk.1
      · exact hk
      · cases hk
    have hs := handle_mem hw hb.mem hm hr
    simp only at hs
    rcases hs.gov with ⟨l, e', hex, _, _, d, hd0, hd1⟩ | ⟨_, hd0, hwt⟩
    · refine ⟨fun u => ?_, by rw [hd1]; exact Distributor.exec_total hd.inv h.total hd0⟩
      simp only [Distributor.exec] at hd0
      obtain ⟨s', h3, h4⟩ := bind_ok_iff.1 hd0
      cases pure_ok_iff.1 h4
      unfold Distributor.updateWeights at h3
      obtain ⟨_, h3⟩ := ite_ok_iff.1 h3
      obtain ⟨_, _, hwt⟩ := Distributor.updates_ok _ hd.inv h3
      unfold rewardWeight
      rw [hd1, hwt]
      rcases explained_or u l w.dist.weights _ _ hex with h5 | ⟨h5, h6⟩
      · exact le_of_eq h5.symm
      · rw [h5, h6]; exact h.weight u
    · exact ⟨fun u => by rw [hd0, hwt]; exact h.weight u, by rw [hd0]; exact h.total⟩
  | council m =>
    have hm : a = c.self → (Msg.council m).tame = true := by
      intro ha
      rcases hk with hk | ⟨_, hk | ⟨id, hk⟩⟩
      · exact absurd ha hk.1
      · exact hk
      · cases hk
    obtain ⟨_, h2, _⟩ := handle_council hb.council hm hr
    simp only at h2
    rw [h2]
    exact ⟨h.weight, h.total⟩

theorem led_cases {c : Cfg} (hw : c.Wf) : Cases c (fun w _ w' => DistOk c w → Led w → DistOk c w' ∧ Led w') := by
  refine ⟨fun _ _ h g => ⟨h, g⟩, ?_, ?_, fun _ _ _ _ _ _ h => h, ?_, ?_⟩
  · intro w w1 w2 w3 a m subs rest e hb b2 b3 m2 m3 hk room hr hh p2 p3 h g
    have hk : Known c a m := by
      rcases hk with hk | ⟨hk, hm⟩
      · exact Or.inl hk
      · exact Or.inr ⟨hk, Or.inl hm⟩
    obtain ⟨a1, a2⟩ := p2 (hh.dist hw hb hk hr h).1 (Handled.led hw hb hk hr h g)
    exact p3 a1 a2
  · intro w w1 w2 w3 id subs rest e hb b2 b3 m2 m3 room hr hh p2 p3 h g
    have hk : Known c c.self (.ctl (.executeActions id)) := Or.inr ⟨rfl, Or.inr ⟨id, rfl⟩⟩
    obtain ⟨a1, a2⟩ := p2 (hh.dist hw hb hk hr h).1 (Handled.led hw hb hk hr h g)
    exact p3 a1 a2
  · intro w w1 w2 id t calls rest hb b1 b2 hc m1 m2 p1 p2 h g
    obtain ⟨a1, a2⟩ := p1 ⟨h.admin, h.inv⟩ ⟨g.weight, g.total⟩
    exact p2 a1 a2
  · intro w w1 w2 calls rest hb b1 b2 hc m1 m2 p1 p2 h g
    obtain ⟨a1, a2⟩ := p1 h g
    exact p2 a1 a2

/-- No DAO changes to another kind of membership. -/
theorem Reachable.led {c : Cfg} (hw : c.Wf) (ht : c.Tame) {w : World} (h : Reachable c w)
    (hm : w.mem.daoType ≠ .multisig) : Led w := by
  induction h with
  | @init w h =>
    obtain ⟨m, l, hl⟩ := h.dist
    refine ⟨fun u => ?_, Distributor.inits_total l (by simp only; decide) hl⟩
    have h0 : w.mem.weight u = 0 := by
      have hf := h.mem
      rw [Member.weight_eq]
      cases hx : w.mem with
      | staking k s =>
        rw [hx] at hf
        obtain ⟨_, _, rfl⟩ := hf
        rfl
      | nft s =>
        rw [hx] at hf
        obtain ⟨_, _, rfl⟩ := hf
        rfl
      | multisig s => rw [hx] at hm; exact absurd rfl hm
    rw [h0]; exact Nat.zero_le _
  | @tx w w1 a m h ha hx ih =>
    have hal : ∀ i ∈ [Item.call a m], Allowed c i := fun i hi => by rw [List.mem_singleton.1 hi]; exact Or.inl ha
    have hty := (hx.moved hw ht hal (h.base hw ht)).2.type
    obtain ⟨_, _, hl⟩ := hx.induct hw ht (led_cases hw) hal (h.base hw ht)
    exact (hl (h.dist hw ht) (ih (by rw [← hty]; exact hm))).2
  | block h _ _ ih =>
    have := ih hm
    exact ⟨this.weight, this.total⟩

/-- A report of a lower weight of one user to the controller is accepted. -/
theorem report_lower {c : Cfg} (hw : c.Wf) {w : World} (hb : Base c w) (hd : DistOk c w) (hl : Led w)
    (ho : ∀ a, Distributor.owedOf w.dist a < ONE * M128) (e : Ext) {x : Member} {u : Addr} {n : Nat}
    (hn : n ≤ w.mem.weight u) :
    ∃ g d, deliver c e c.comps.membership { w with mem := x } [.notify c.self [⟨u, w.mem.weight u, n⟩]] =
      .ok ({ w with mem := x, gov := g, dist := d }, []) ∧ g.pollCount = w.gov.pollCount := by
  have hlt : n < 2 ^ 128 := by
    have h1 := (hb.env e).weight u
    have h1 : w.mem.weight u < M128 := h1
    unfold M128 at h1
    omega
  obtain ⟨g, hg, _, _, _, hc⟩ := Gov.C10_update_votes hb.ctl.gov.reachable (now := w.block.time) (voter := u) (amount := n) hlt
    (fun i p hp => hb.ctl.started i p (Controller.queryPoll_ok_iff.1 hp))
  obtain ⟨d, hd1⟩ := Distributor.lower_exists hd.inv hl.total ho (u := u) (n := n) (le_trans hn (hl.weight u))
  refine ⟨g, d, ?_, hc⟩
  have hadm : w.gov.admin = c.self := hb.ctl.gov.admin
  rw [hadm] at hg
  have hwc : Controller.weightsChanged (c.env e { w with mem := x }) c.comps.membership w.gov [⟨u, w.mem.weight u, n⟩] =
      .ok (g, [.distributor (.updateWeights [(u, n)])]) := by
    refine Controller.weightsChanged_ok_iff.2 (Or.inr ⟨hw.both, rfl, ?_, rfl⟩)
    exact foldlM_cons_ok_iff.2 ⟨g, hg, rfl⟩
  have hdd : updateDist c e w.dist [.distributor (.updateWeights [(u, n)])] = .ok d := by
    unfold updateDist
    refine bind_ok_iff.2 ⟨(d, []), ?_, rfl⟩
    simp only [Distributor.exec]
    refine bind_ok_iff.2 ⟨d, ?_, rfl⟩
    unfold Distributor.updateWeights
    exact ite_ok_iff.2 ⟨by simp [Ext.denv, hd.admin], foldlM_cons_ok_iff.2 ⟨d, hd1, rfl⟩⟩
  unfold deliver
  rw [if_pos rfl]
  exact bind_ok_iff.2 ⟨_, hwc, bind_ok_iff.2 ⟨_, hdd, rfl⟩⟩

end Verif.Dao
