import Verif.Dao.Leave

/-!
# Lemmas: a new weight is accepted if the totals fit (for C119)
-/

set_option linter.unusedSimpArgs false

namespace Verif.Distributor
open Verif

/-- A new weight is accepted if the total and the weight fit. -/
theorem raise_exists {s : State} (hi : Inv s) (ho : ∀ a, owedOf s a < ONE * M128) {u : Addr} {n : Nat}
    (hn : s.total + n < M128) : ∃ s', updateOne s (u, n) = .ok s' := by
  obtain ⟨⟨nn, hnn⟩, c, hcw⟩ := settle_both_exists hi.toCore ho u
  have hr : ∃ x, refresh s u = .ok x := by
    unfold refresh
    cases hu : s.effective.get u with
    | none => exact ⟨_, rfl⟩
    | some w =>
      rw [hu] at hnn hcw
      exact ⟨(nn, c), bind_ok_iff.2 ⟨nn, hnn, bind_ok_iff.2 ⟨c, hcw, rfl⟩⟩⟩
  obtain ⟨x, hx⟩ := hr
  have h6 : Map.contrib (fun _ w => w) u (s.effective.get u) = (s.effective.get u).getD 0 := by
    cases s.effective.get u <;> rfl
  have h5 := Map.contrib_le_sum s.effective (fun _ w => w) u
  have htot := hi.total
  have hle : effWeight n s.min ≤ n := by unfold effWeight; split <;> omega
  have h1 : csub s.total ((s.effective.get u).getD 0) = .ok (s.total - (s.effective.get u).getD 0) :=
    csub_ok.2 ⟨by omega, rfl⟩
  have h2 : cadd128 (s.total - (s.effective.get u).getD 0) (effWeight n s.min) =
      .ok (s.total - (s.effective.get u).getD 0 + effWeight n s.min) := cadd128_ok.2 ⟨by omega, rfl⟩
  exact ⟨_, bind_ok_iff.2 ⟨x, hx, bind_ok_iff.2 ⟨_, h1, bind_ok_iff.2 ⟨_, h2, rfl⟩⟩⟩⟩

end Verif.Distributor

namespace Verif.Dao
open Verif

/-- A report of a new weight of one user to the controller is accepted. -/
theorem report_raise {c : Cfg} (hw : c.Wf) {w : World} (hb : Base c w) (hd : DistOk c w)
    (ho : ∀ a, Distributor.owedOf w.dist a < ONE * M128) (e : Ext) {x : Member} {u : Addr} {o n : Nat}
    (hn : w.dist.total + n < M128) :
    ∃ g d, deliver c e c.comps.membership { w with mem := x } [.notify c.self [⟨u, o, n⟩]] =
      .ok ({ w with mem := x, gov := g, dist := d }, []) ∧ g.pollCount = w.gov.pollCount := by
  have hlt : n < 2 ^ 128 := by unfold M128 at hn; omega
  obtain ⟨g, hg, _, _, _, hc⟩ := Gov.C10_update_votes hb.ctl.gov.reachable (now := w.block.time) (voter := u) (amount := n) hlt
    (fun i p hp => hb.ctl.started i p (Controller.queryPoll_ok_iff.1 hp))
  obtain ⟨d, hd1⟩ := Distributor.raise_exists hd.inv ho (u := u) (n := n) hn
  refine ⟨g, d, ?_, hc⟩
  have hadm : w.gov.admin = c.self := hb.ctl.gov.admin
  rw [hadm] at hg
  have hwc : Controller.weightsChanged (c.env e { w with mem := x }) c.comps.membership w.gov [⟨u, o, n⟩] =
      .ok (g, [.distributor (.updateWeights [(u, n)])]) := by
    refine Controller.weightsChanged_ok_iff.2 (Or.inr ⟨hw.both, rfl, ?_, rfl⟩)
    exact foldlM_cons_ok_iff.2 ⟨g, hg, rfl⟩
  have hdd : updateDist c e w.dist [.distributor (.updateWeights [(u, n)])] = .ok d := by
    unfold updateDist
    refine bind_ok_iff.2 ⟨(d, []), ?_, rfl⟩
    simp only [Distributor.exec]
    refine bind_ok_iff.2 ⟨d, ?_, rfl⟩
    unfold Distributor.updateWeights
    exact ite_ok_iff.2 ⟨by simp [Ext.denv, hd.admin], foldlM_cons_ok_iff.2 ⟨d, hd1, rfl⟩⟩
  unfold deliver
  rw [if_pos rfl]
  exact bind_ok_iff.2 ⟨_, hwc, bind_ok_iff.2 ⟨_, hdd, rfl⟩⟩

/-- A message to the membership contract that notifies the controller of a new weight of one user. -/
theorem raise_handled {c : Cfg} (hw : c.Wf) (ht : c.Tame) {w : World} (h : Reachable c w)
    (hf : ∀ a, Distributor.owedOf w.dist a < ONE * M128) {e : Ext} {a u : Addr} {m : MemberMsg} {x : Member} {o n : Nat}
    (hn : w.dist.total + n < M128)
    (hx : w.mem.exec ⟨c.menv e w a, e.proxy⟩ m = .ok (x, w.mem.mem.report [⟨u, o, n⟩])) :
    ∃ g d, handle c e w a (.mem m) = .ok ({ w with mem := x, gov := g, dist := d }, []) := by
  have hb := h.base hw ht
  obtain ⟨g, d, hdel, _⟩ := report_raise hw hb (h.dist hw ht) hf e (x := x) (u := u) (o := o) hn
  refine ⟨g, d, ?_⟩
  simp only [handle]
  refine bind_ok_iff.2 ⟨_, hx, ?_⟩
  rw [report_single hb.mem.hooks]
  exact hdel

end Verif.Dao
