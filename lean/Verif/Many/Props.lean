import Verif.Many.Sim

/-!
# Many DAOs on one chain: a DAO behaves among others as it does alone (C174)
-/

set_option linter.unusedSimpArgs false

namespace Verif.Many
open Verif
open Verif.Dao (Cfg World Item Entry Msg Ext Genesis handle Calls Traced History Reachable)
open Verif.Controller (Transfer)

variable {ι : Type} [DecidableEq ι]

/-! ## C174 -/

/-- **A DAO behaves among others as it does alone.** In any history of any number of DAOs on one chain, whatever messages they
send each other, each DAO goes through a history that it could have alone, with the messages to its own contracts and with
all the others being outsiders. -/
theorem C174_alone {cs : ι → Cfg} {W : Daos ι} {T : List (ι × Entry)} (h : Story cs W T) (d : ι) :
    (∀ w, W d = some w → ∃ w0, Genesis (cs d) w0 ∧ History (cs d) w0 w (pick d T)) ∧ (W d = none → pick d T = []) := by
  induction h with
  | start => exact ⟨fun w hw => (by cases hw), fun _ => rfl⟩
  | @birth W T k v h hd hg hb ih =>
    by_cases hk : d = k
    · subst hk
      rw [set_same]
      refine ⟨fun w hw => ?_, fun hw => by cases hw⟩
      cases hw
      refine ⟨v, hg, ?_⟩
      rw [ih.2 hd]
      exact .start
    · rw [set_other _ hk]
      exact ih
  | @tx W W' T t k a m h ha hx ih =>
    cases hw : W d with
    | none =>
      obtain ⟨h1, h2⟩ := hx.unborn d hw
      rw [h1, pick_append, ih.2 hw, h2]
      exact ⟨fun w hw => (by cases hw), fun _ => rfl⟩
    | some w1 =>
      obtain ⟨w2, l, s⟩ := hx.seen d w1 hw
      rw [s.after]
      refine ⟨fun w hw' => ?_, fun hw => by cases hw⟩
      cases hw'
      obtain ⟨w0, g1, g2⟩ := ih.1 w1 hw
      refine ⟨w0, g1, ?_⟩
      rw [pick_append]
      exact Traced.history l (s.outside (tx_outside d k m ha)) g2 s.run
  | @block W T b h hb ih =>
    refine ⟨fun w hw => ?_, fun hw => ih.2 (by simpa using hw)⟩
    obtain ⟨v, hv, rfl⟩ := Option.map_eq_some_iff.1 hw
    obtain ⟨w0, g1, g2⟩ := ih.1 v hv
    exact ⟨w0, g1, .block g2 (hb d v hv).1 (hb d v hv).2⟩

/-- So everything proved of the reachable states of a DAO holds of each DAO among others. -/
theorem C174_reachable {cs : ι → Cfg} {W : Daos ι} {T : List (ι × Entry)} (h : Story cs W T) {d : ι} {w : World}
    (hw : W d = some w) : Reachable (cs d) w := by
  obtain ⟨w0, h1, h2⟩ := (C174_alone h d).1 w hw
  exact h2.later.reachable (.init h1)

/-- A transaction in which nothing is sent to the contracts of a DAO does not change this DAO. -/
theorem C174_apart {cs : ι → Cfg} {W W' : Daos ι} {t : List (ι × Entry)} {k : ι} {a : Addr} {m : Msg}
    (ha : (cs k).outsider a) (hx : Run cs W [(k, .call a m)] W' t) {d : ι} (hn : ∀ x ∈ t, x.1 ≠ d) : W' d = W d := by
  have hp : pick d t = [] := by
    unfold pick
    rw [List.filter_eq_nil_iff.2 (fun x h => by simpa using hn x h)]
    rfl
  cases hw : W d with
  | none => exact (hx.unborn d hw).1
  | some w =>
    obtain ⟨w', l, s⟩ := hx.seen d w hw
    rw [s.after]
    have hr := s.run
    rw [hp] at hr
    cases l with
    | nil => cases hr; rfl
    | cons i l =>
      obtain ⟨b, n, rfl, _⟩ := s.outside (tx_outside d k m ha) _ List.mem_cons_self
      cases hr

/-- The members decide in the first DAO that it sends a custom message; the message is a vote in the second DAO, in which the
first one has a stake. -/
example : ∃ W T w, Story twoCfg W T ∧ W false = some w ∧ (pick true T).length = 5 ∧ (pick false T).length = 4 ∧
    Gov.queryPollVoter w.gov 1 1 = some ⟨1, 1, .yes, 25⟩ := by
  have hs : ((runSteps twoCfg Dao.sampleExt twoNew [
      .tx true 10 (.mem (.staking (.stakeDenom [⟨20, 60⟩] none))) [],
      .tx false 12 (.mem (.staking (.stakeDenom [⟨20, 30⟩] none))) [],
      .tx false 12 (.mem (.staking (.stakeDenom [⟨20, 25⟩] (some 1)))) [],
      .block ⟨2, 2 * 10 ^ 9⟩,
      .tx false 12 (.ctl (.createProposal ⟨0, 0, [.updateMetadata 7], none⟩ [(20, 30)])) [],
      .tx true 12 (.ctl (.createProposal ⟨0, 0, [.executeMsgs [1]], none⟩ [(20, 30)])) [],
      .block ⟨3, 3 * 10 ^ 9⟩,
      .tx true 10 (.ctl (.castVote 1 .yes)) [],
      .block ⟨20, 20 * 10 ^ 9⟩,
      .tx true 13 (.ctl (.execute 1)) [[(false, 1, .ctl (.castVote 1 .yes))]]]).map (fun r =>
        ((pick true r.2).length, (pick false r.2).length, (r.1 false).map (fun w => Gov.queryPollVoter w.gov 1 1)))) =
      some (5, 4, some (some ⟨1, 1, .yes, 25⟩)) := by decide +kernel
  obtain ⟨⟨W, T⟩, h1, h2⟩ := Option.map_eq_some_iff.1 hs
  simp only [Prod.mk.injEq] at h2
  obtain ⟨w, h3, h4⟩ := Option.map_eq_some_iff.1 h2.2.2
  exact ⟨W, T, w, runSteps_story _ two_story h1, h3, h2.1, h2.2.1, h4⟩

/-- Hypotheses of `C174_apart`: a stake in the first DAO. -/
example : ∃ W W' T t, Story twoCfg W T ∧ (twoCfg true).outsider 10 ∧
    Run twoCfg W [(true, .call 10 (.mem (.staking (.stakeDenom [⟨20, 60⟩] none))))] W' t ∧ (∀ x ∈ t, x.1 ≠ false) ∧
    (W' true).map (fun w => w.mem.weight 10) = some 60 := by
  have hs : ((sim twoCfg Dao.sampleExt 60 twoNew [] [(true, .call 10 (.mem (.staking (.stakeDenom [⟨20, 60⟩] none))))]).map
      (fun r => (r.2.1.all (fun x => x.1), (r.1 true).map (fun w => w.mem.weight 10)))) = some (true, some 60) := by
    decide +kernel
  obtain ⟨r, h1, h2⟩ := Option.map_eq_some_iff.1 hs
  simp only [Prod.mk.injEq] at h2
  refine ⟨twoNew, r.1, [], r.2.1, two_story, by decide, sim_run _ h1, fun x hx => ?_, h2.2⟩
  have := List.all_eq_true.1 h2.1 x hx
  rw [this]
  decide

end Verif.Many
