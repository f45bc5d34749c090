import Verif.Dao.Props37

/-!
# The contracts of a DAO together: states that differ in rewards only

Helper lemmas for C173: what happens in the funds distributor matters to no other contract.
-/

set_option linter.unusedSimpArgs false

namespace Verif.Distributor
open Verif

/-- Two distributors with the same weights; the second one has room for all the rewards it owes. -/
structure Shadow (s t : State) : Prop where
  same : t = { s with native := t.native, cw20 := t.cw20 }
  inv : Inv t
  fit : ∀ a, owedOf t a < ONE * M128

theorem updateOne_like {s s' : State} {n c : Ledger} {p : Addr × Nat} (hi : Inv { s with native := n, cw20 := c })
    (ho : ∀ a, owedOf { s with native := n, cw20 := c } a < ONE * M128) (h : updateOne s p = .ok s') :
    ∃ n' c', updateOne { s with native := n, cw20 := c } p = .ok { s' with native := n', cw20 := c' } := by
  unfold updateOne at h
  obtain ⟨x, _, h⟩ := bind_ok_iff.1 h
  obtain ⟨t1, h2, h⟩ := bind_ok_iff.1 h
  obtain ⟨t, h3, h⟩ := bind_ok_iff.1 h
  cases pure_ok_iff.1 h
  obtain ⟨⟨n1, hn⟩, c1, hc⟩ := settle_both_exists hi.toCore ho p.1
  have hr : ∃ x, refresh { s with native := n, cw20 := c } p.1 = .ok x := by
    unfold refresh
    cases hu : s.effective.get p.1 with
    | none => exact ⟨_, rfl⟩
    | some w =>
      have hn : n.settle p.1 ((s.effective.get p.1).getD 0) = .ok n1 := hn
      have hc : c.settle p.1 ((s.effective.get p.1).getD 0) = .ok c1 := hc
      rw [hu] at hn hc
      exact ⟨(n1, c1), bind_ok_iff.2 ⟨n1, hn, bind_ok_iff.2 ⟨c1, hc, rfl⟩⟩⟩
  obtain ⟨y, hy⟩ := hr
  exact ⟨y.1, y.2, bind_ok_iff.2 ⟨y, hy, bind_ok_iff.2 ⟨t1, h2, bind_ok_iff.2 ⟨t, h3, rfl⟩⟩⟩⟩

theorem updates_like : ∀ (l : List (Addr × Nat)) {s s' : State} {n c : Ledger}, Inv { s with native := n, cw20 := c } →
    (∀ a, owedOf { s with native := n, cw20 := c } a < ONE * M128) → l.foldlM updateOne s = .ok s' →
    ∃ n' c', l.foldlM updateOne { s with native := n, cw20 := c } = .ok { s' with native := n', cw20 := c' } ∧
      Inv { s' with native := n', cw20 := c' } ∧ ∀ a, owedOf { s' with native := n', cw20 := c' } a < ONE * M128
  | [], s, s', n, c, hi, ho, h => by
    cases foldlM_nil_ok_iff.1 h
    exact ⟨n, c, rfl, hi, ho⟩
  | p :: l, s, s', n, c, hi, ho, h => by
    obtain ⟨s1, h1, h2⟩ := foldlM_cons_ok_iff.1 h
    obtain ⟨n1, c1, k1⟩ := updateOne_like hi ho h1
    obtain ⟨i1, q1, _⟩ := updateOne_ok hi k1
    obtain ⟨n2, c2, k2, k3⟩ := updates_like l i1 (fun a => lt_of_le_of_lt (q1.owed a) (ho a)) h2
    exact ⟨n2, c2, foldlM_cons_ok_iff.2 ⟨_, k1, k2⟩, k3⟩

theorem minOne_like {b : Bool} {s s' : State} {n c : Ledger} {p : Addr × Nat} (hi : Core { s with native := n, cw20 := c })
    (ho : ∀ a, owedOf { s with native := n, cw20 := c } a < ONE * M128) (h : minOne b s p = .ok s') :
    ∃ n' c', minOne b { s with native := n, cw20 := c } p = .ok { s' with native := n', cw20 := c' } := by
  unfold minOne at h
  obtain ⟨_, _, h⟩ := bind_ok_iff.1 h
  obtain ⟨_, _, h⟩ := bind_ok_iff.1 h
  obtain ⟨t1, h2, h⟩ := bind_ok_iff.1 h
  obtain ⟨t, h3, h⟩ := bind_ok_iff.1 h
  cases pure_ok_iff.1 h
  obtain ⟨⟨n1, hn⟩, c1, hc⟩ := settle_both_exists hi ho p.1
  exact ⟨n1, c1, bind_ok_iff.2 ⟨n1, hn, bind_ok_iff.2 ⟨c1, hc, bind_ok_iff.2 ⟨t1, h2, bind_ok_iff.2 ⟨t, h3, rfl⟩⟩⟩⟩⟩

theorem mins_like {b : Bool} : ∀ (l : List (Addr × Nat)) {s s' : State} {n c : Ledger},
    Core { s with native := n, cw20 := c } → (∀ a, owedOf { s with native := n, cw20 := c } a < ONE * M128) →
    l.foldlM (minOne b) s = .ok s' →
    ∃ n' c', l.foldlM (minOne b) { s with native := n, cw20 := c } = .ok { s' with native := n', cw20 := c' }
  | [], s, s', n, c, hi, ho, h => by
    cases foldlM_nil_ok_iff.1 h
    exact ⟨n, c, rfl⟩
  | p :: l, s, s', n, c, hi, ho, h => by
    obtain ⟨s1, h1, h2⟩ := foldlM_cons_ok_iff.1 h
    obtain ⟨n1, c1, k1⟩ := minOne_like hi ho h1
    obtain ⟨q1, _⟩ := minOne_ok hi k1
    obtain ⟨n2, c2, k2⟩ := mins_like l q1.core (fun a => lt_of_le_of_lt (q1.owed a) (ho a)) h2
    exact ⟨n2, c2, foldlM_cons_ok_iff.2 ⟨_, k1, k2⟩⟩

/-- The message sets weights or the minimum weight. -/
def Msg.sets : Msg → Bool
  | .updateWeights _ => true
  | .updateMin _ => true
  | _ => false

theorem exec_shadow {s t : State} (h : Shadow s t) {e : Env} {m : Msg} {r : State × List Out} (hm : m.sets = true)
    (hr : exec s e m = .ok r) : ∃ r2, exec t e m = .ok r2 ∧ Shadow r.1 r2.1 ∧ r2.2 = r.2 := by
  obtain ⟨n, c, rfl⟩ : ∃ n c, t = { s with native := n, cw20 := c } := ⟨_, _, h.same⟩
  cases m with
  | updateWeights l =>
    simp only [exec, bind_ok_iff, pure_ok_iff] at hr
    obtain ⟨s', h1, rfl⟩ := hr
    unfold updateWeights at h1
    obtain ⟨h2, h3⟩ := ite_ok_iff.1 h1
    obtain ⟨n', c', k1, k2, k3⟩ := updates_like l h.inv h.fit h3
    refine ⟨({ s' with native := n', cw20 := c' }, []), ?_, ⟨rfl, k2, k3⟩, rfl⟩
    simp only [exec, bind_ok_iff, pure_ok_iff]
    refine ⟨_, ?_, rfl⟩
    unfold updateWeights
    exact ite_ok_iff.2 ⟨h2, k1⟩
  | updateMin m =>
    simp only [exec, bind_ok_iff, pure_ok_iff] at hr
    obtain ⟨s', h1, rfl⟩ := hr
    have key : ∃ n' c', updateMin { s with native := n, cw20 := c } e m = .ok { s' with native := n', cw20 := c' } := by
      unfold updateMin at h1 ⊢
      obtain ⟨h2, h3⟩ := ite_ok_iff.1 h1
      rw [if_neg h2]
      by_cases hmin : s.min = m
      · rw [if_pos hmin] at h3
        cases h3
        exact ⟨n, c, if_pos hmin⟩
      · rw [if_neg hmin] at h3
        obtain ⟨s1, h4, h5⟩ := bind_ok_iff.1 h3
        cases pure_ok_iff.1 h5
        obtain ⟨n', c', k1⟩ := mins_like _ h.inv.toCore h.fit h4
        refine ⟨n', c', ?_⟩
        rw [if_neg hmin]
        exact bind_ok_iff.2 ⟨_, k1, rfl⟩
    obtain ⟨n', c', k1⟩ := key
    obtain ⟨_, k2, _, _, _, _, _, k3⟩ := updateMin_ok h.inv k1
    refine ⟨({ s' with native := n', cw20 := c' }, []), ?_, ⟨rfl, k2, fun a => lt_of_le_of_lt (k3 a) (h.fit a)⟩, rfl⟩
    simp only [exec, bind_ok_iff, pure_ok_iff]
    exact ⟨_, k1, rfl⟩
  | _ => cases hm

/-- Distributions and claims do not touch the weights. -/
theorem exec_aside {s t : State} (h : Shadow s t) {e : Env} {m : Msg} {r : State × List Out} (hm : m.sets = false)
    (hr : exec s e m = .ok r) : Shadow r.1 t := by
  have key : ∃ n c, r.1 = { s with native := n, cw20 := c } := by
    cases m with
    | updateWeights l => cases hm
    | updateMin n => cases hm
    | distributeNative l =>
      simp only [exec, bind_ok_iff, pure_ok_iff] at hr
      obtain ⟨s', h1, rfl⟩ := hr
      obtain ⟨_, _, n, h2, rfl⟩ := distributeNative_ok_iff.1 h1
      exact ⟨n, s.cw20, rfl⟩
    | claim u l t =>
      simp only [exec] at hr
      unfold claim at hr
      obtain ⟨_, hr⟩ := ite_ok_iff.1 hr
      obtain ⟨_, hr⟩ := ite_ok_iff.1 hr
      simp only [bind_ok_iff, pure_ok_iff] at hr
      obtain ⟨n, _, c, _, rfl⟩ := hr
      exact ⟨n.1, c.1, rfl⟩
    | receiveCw20 k n =>
      simp only [exec, bind_ok_iff, pure_ok_iff] at hr
      obtain ⟨s', h1, rfl⟩ := hr
      obtain ⟨_, _, _, c, h2, rfl⟩ := receiveCw20_ok_iff.1 h1
      exact ⟨s.native, c, rfl⟩
  obtain ⟨n, c, hr1⟩ := key
  refine ⟨?_, h.inv, h.fit⟩
  rw [hr1, h.same]

end Verif.Distributor

namespace Verif.Dao
open Verif
open Verif.Controller (Transfer Sub)
open Verif.Distributor (Shadow)

/-- Two states that differ at most in the rewards. -/
structure Unpaid (w v : World) : Prop where
  same : v = { w with dist := v.dist }
  dist : Shadow w.dist v.dist

theorem deliver_shadow {c : Cfg} {e : Ext} {a : Addr} : ∀ (outs : List Out) {w w1 : World} {items : List Item}
    {d : Distributor.State}, Shadow w.dist d → deliver c e a w outs = .ok (w1, items) →
    ∃ d1, deliver c e a { w with dist := d } outs = .ok ({ w1 with dist := d1 }, items) ∧ Shadow w1.dist d1
  | [], w, w1, items, d, hs, h => by
    cases h
    exact ⟨d, rfl, hs⟩
  | .notify x l :: t, w, w1, items, d, hs, h => by
    unfold deliver at h ⊢
    by_cases hx : x = c.self
    · rw [if_pos hx] at h ⊢
      simp only [bind_ok_iff] at h ⊢
      obtain ⟨y, hy, d1, hd, h3⟩ := h
      have hy' : Controller.weightsChanged (c.env e { w with dist := d }) a w.gov l = .ok y := hy
      have key : ∃ d2, updateDist c e d y.2 = .ok d2 ∧ Shadow d1 d2 := by
        rcases Controller.weightsChanged_ok_iff.1 hy with ⟨_, rfl⟩ | ⟨_, _, _, hs2⟩
        · cases hd
          exact ⟨d, rfl, hs⟩
        · rw [hs2] at hd ⊢
          simp only [updateDist, bind_ok_iff] at hd
          obtain ⟨r, h4, h5⟩ := hd
          cases h5
          obtain ⟨r2, k1, k2, _⟩ := Distributor.exec_shadow hs rfl h4
          exact ⟨r2.1, bind_ok_iff.2 ⟨r2, k1, rfl⟩, k2⟩
      obtain ⟨d2, k1, k2⟩ := key
      obtain ⟨d3, k3, k4⟩ := deliver_shadow t (w := { w with gov := y.1, dist := d1 }) (d := d2) k2 h3
      exact ⟨d3, ⟨y, hy', d2, k1, k3⟩, k4⟩
    · rw [if_neg hx] at h ⊢
      cases h
      exact ⟨d, rfl, hs⟩
  | .pay _ _ :: t, w, w1, items, d, hs, h => by
    cases h
    exact ⟨d, rfl, hs⟩
  | .sendNft _ _ :: t, w, w1, items, d, hs, h => by
    cases h
    exact ⟨d, rfl, hs⟩

end Verif.Dao
