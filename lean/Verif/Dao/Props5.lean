import Verif.Dao.Props2
import Verif.Dao.Lemmas4
import Verif.Dao.Lemmas6

/-!
# The contracts of a DAO together: exactly how C55, C56 and C57 fail

Each of these properties is violated by the code. The theorems here describe, for all reachable states, the behaviour
that the code has instead.
-/

set_option linter.unusedSimpArgs false

namespace Verif.Dao
open Verif
open Verif.Gov (vkey openAt)
open Verif.Staking (Explains)

/-! ## C55 -/

/-- All the reports of a message, for the votes of one user. -/
theorem updateAll_votes {e : Controller.Env} {s : Controller.State} : ∀ (l : List WeightChange) {g g' : Gov.State}
    {f f' : Addr → Nat}, (∀ c ∈ l, c.new < M128) → CtlInv e.self e.daoType e.block.time s g →
    Controller.updateAllVotes e g l = .ok g' → Explains f l f' →
    (∀ id, openAt g e.block.time id → ∀ u, g'.votes.get (vkey u id) =
      if u ∈ l.map (·.user) then (g.votes.get (vkey u id)).map (fun v => { v with amount := f' u })
      else g.votes.get (vkey u id)) ∧
    (∀ id, ¬ openAt g e.block.time id → ∀ u, g'.votes.get (vkey u id) = g.votes.get (vkey u id)) := by
  intro l
  induction l with
  | nil =>
    intro g g' f f' _ h hx hf
    cases hx
    exact ⟨fun id _ u => (if_neg (by simp)).symm, fun _ _ _ => rfl⟩
  | cons c t ih =>
    intro g g' f f' hl h hx hf
    have hone : ∃ g1, Controller.updateAllVotes e g [c] = .ok g1 ∧ Controller.updateAllVotes e g1 t = .ok g' ∧
        Gov.updateVotes g e.block.time c.user c.new = .ok g1 := by
      unfold Controller.updateAllVotes at hx ⊢
      rw [foldlM_cons_ok_iff] at hx
      obtain ⟨g1, h1, h2⟩ := hx
      refine ⟨g1, by rw [foldlM_cons_ok_iff]; exact ⟨g1, h1, rfl⟩, h2, ?_⟩
      unfold Gov.exec at h1
      rw [ite_ok_iff] at h1
      exact h1.2
    obtain ⟨g1, h1, h2, h3⟩ := hone
    have hc := hl c List.mem_cons_self
    obtain ⟨a1, a2, a3⟩ := updateVotes_votes h.inv h.started hc h3
    have hi1 := (updateAll_inv [c] (fun x hx => by rw [List.mem_singleton.1 hx]; exact hc) h h1).1
    obtain ⟨b1, b2⟩ := ih (fun x hx => hl x (List.mem_cons_of_mem _ hx)) hi1 h2 hf.2
    refine ⟨fun id ho u => ?_, fun id ho u => ?_⟩
    · rw [b1 id ((a3 id).2 ho) u, a1 id ho u]
      by_cases hm : u ∈ t.map (·.user)
      · rw [if_pos hm, if_pos (show u ∈ (c :: t).map (·.user) from List.mem_cons_of_mem _ hm)]
        by_cases hu : u = c.user
        · rw [if_pos hu, Option.map_map]; rfl
        · rw [if_neg hu]
      · rw [if_neg hm]
        by_cases hu : u = c.user
        · rw [if_pos hu, if_pos (show u ∈ (c :: t).map (·.user) from by rw [hu]; exact List.mem_cons_self)]
          have hfr := explains_frame t hf.2 u (fun x hx hh => hm (List.mem_map.2 ⟨x, hx, hh⟩))
          rw [if_pos hu] at hfr
          rw [hfr]
        · rw [if_neg hu, if_neg]
          intro hh
          rcases List.mem_cons.1 hh with hh | hh
          · exact hu hh
          · exact hm hh
    · rw [b2 id (fun hh => ho ((a3 id).1 hh)), a2 id ho]

/-- What happens instead of C55: a message to the membership contract, of a token, NFT or multisig DAO, leaves the votes
on a council proposal alone, or gives them the voter's weight in the *membership contract*, whatever their weight in the
council; and it does the latter for every voter whose weight in the membership contract it changes. After the end of
voting it leaves all the votes alone.
Missing from C55: that the votes keep the weight in the council, see `C55_minority_witness`. -/
theorem C55_reweighted_partial {c : Cfg} (hw : c.Wf) (ht : c.Tame) {e : Ext} {w : World} (h : Reachable c w) {a : Addr}
    {m : MemberMsg} {r : World × List Item} {id : Nat} {i : Controller.Info} {p : Gov.Poll}
    (_hi : w.ctl.infos.get id = some i) (_hc : i.type = .council) (hp : Gov.queryPoll w.gov id = .ok p)
    (ha : c.outsider a ∨ (a = c.self ∧ m.tame = true)) (hr : handle c e w a (.mem m) = .ok r) (u : Addr) :
    (p.live ∧ w.block.time < p.endsAt →
      (Gov.queryPollVoter r.1.gov id u = Gov.queryPollVoter w.gov id u ∧ r.1.mem.weight u = w.mem.weight u) ∨
      Gov.queryPollVoter r.1.gov id u =
        (Gov.queryPollVoter w.gov id u).map (fun v => { v with amount := r.1.mem.weight u })) ∧
    (¬ (p.live ∧ w.block.time < p.endsAt) → Gov.queryPollVoter r.1.gov id u = Gov.queryPollVoter w.gov id u) := by
  have hb := h.base hw ht
  have hpp := Controller.queryPoll_ok_iff.1 hp
  have hs : a = c.self → m.tame = true := by
    intro hs
    rcases ha with ha | ⟨_, ha⟩
    · exact absurd hs ha.1
    · exact ha
  have hm := handle_mem hw hb.mem hs hr
  have hopen : openAt w.gov w.block.time id ↔ (p.live ∧ w.block.time < p.endsAt) := by
    constructor
    · rintro ⟨q, hq, h1, h2⟩
      rw [hpp] at hq; cases hq
      exact ⟨h1, h2⟩
    · rintro ⟨h1, h2⟩
      exact ⟨p, hpp, h1, h2⟩
  have hblk : r.1.block = w.block := by rw [hm.same]
  rcases hm.gov with ⟨l, e', hx, hl, hu, _⟩ | ⟨hg, _, hmw⟩
  · have hci : CtlInv (c.env e' r.1).self (c.env e' r.1).daoType (c.env e' r.1).block.time w.ctl w.gov := by
      have h1 : (c.env e' r.1).daoType = w.mem.daoType := hm.type
      have h2 : (c.env e' r.1).block = w.block := hblk
      rw [h1, h2]
      exact hb.ctl
    obtain ⟨k1, k2⟩ := updateAll_votes l hl hci hu hx
    have hblk' : (c.env e' r.1).block = w.block := hblk
    rw [hblk'] at k1 k2
    unfold Gov.queryPollVoter
    constructor
    · intro ho
      have := k1 id (hopen.2 ho) u
      by_cases hin : u ∈ l.map (·.user)
      · rw [if_pos hin] at this
        exact Or.inr this
      · rw [if_neg hin] at this
        refine Or.inl ⟨this, ?_⟩
        exact explains_frame l hx u (fun x hx' hh => hin (List.mem_map.2 ⟨x, hx', hh⟩))
    · intro ho
      exact k2 id (fun hh => ho (hopen.1 hh)) u
  · unfold Gov.queryPollVoter
    rw [hg]
    exact ⟨fun _ => Or.inl ⟨rfl, hmw u⟩, fun _ => rfl⟩

/-- In the sample a vote of weight 1 in the council turns into one of weight 100. -/
example : ∃ i p, (sampleRun sampleCouncilVote).ctl.infos.get 1 = some i ∧ i.type = .council ∧
    Gov.queryPoll (sampleRun sampleCouncilVote).gov 1 = .ok p ∧ p.status = .inProgress p.endsAt ∧
    (sampleRun sampleCouncilVote).block.time < p.endsAt :=
  ⟨⟨.council, none, none, none, [.updateMetadata 7]⟩, ((sampleRun sampleCouncilVote).gov.polls.get 1).get (by decide +kernel),
   by decide +kernel⟩

/-! ## C56 -/

/-- What happens instead of C56: no message to the membership contract or to the council's membership contract changes
the earliest execution time of any proposal, whatever it does to the expected outcome.
Missing from C56: that a change of the expected outcome by a weight report restarts the cooldown, see
`C56_weights_changed_witness`. -/
theorem C56_reports_keep_cooldown_partial {c : Cfg} {e : Ext} {w : World} {a : Addr} {m : Msg} {r : World × List Item}
    (hm : (∃ x, m = .mem x) ∨ (∃ x, m = .council x)) (hr : handle c e w a m = .ok r) :
    r.1.ctl = w.ctl ∧ r.1.block = w.block := by
  have hblk : ∀ (outs : List Out) {b : Addr} {w : World} {r : World × List Item}, deliver c e b w outs = .ok r →
      r.1.block = w.block := by
    intro outs
    induction outs with
    | nil => intro b w r h; cases h; rfl
    | cons o t ih =>
      intro b w r h
      cases o with
      | pay x y => cases h; rfl
      | sendNft x y => cases h; rfl
      | notify x l =>
        unfold deliver at h
        by_cases hx : x = c.self
        · rw [if_pos hx] at h
          simp only [bind_ok_iff] at h
          obtain ⟨r1, h1, d, _, h2⟩ := h
          exact ih (w := { w with gov := r1.1, dist := d }) h2
        · rw [if_neg hx] at h
          cases h
          rfl
  rcases hm with ⟨x, rfl⟩ | ⟨x, rfl⟩
  · simp only [handle, bind_ok_iff] at hr
    obtain ⟨y, _, h2⟩ := hr
    exact ⟨(deliver_plain _ h2).1, hblk _ (w := { w with mem := y.1 }) h2⟩
  · simp only [handle, bind_ok_iff] at hr
    obtain ⟨y, _, h2⟩ := hr
    exact ⟨(deliver_plain _ h2).1, hblk _ (w := { w with council := y.1 }) h2⟩

example : (handle sampleCfg sampleExt (sampleRun sampleAgainst) 10 (.mem (.staking (.stakeDenom [⟨20, 1000⟩] none)))).isOk =
    true := by decide +kernel

/-! ## C57 -/

/-- What happens instead of C57, for general proposals reported as in progress: they can be executed by a sender who is
not restricted exactly when "yes" and "no" are tied, early execution is enabled and not held back by the cooldown, quorum
is met and some option other than abstain reaches its threshold.
Missing from C57: the tied case, see `C57_tie_witness`. -/
theorem C57_in_progress_exact_partial {c : Cfg} (hw : c.Wf) (ht : c.Tame) {w : World} (h : Reachable c w) {e : Ext}
    {a : Addr} {id : Nat} {i : Controller.Info} (hi : w.ctl.infos.get id = some i) (hg : i.type = .general)
    (hs : Controller.queryStatus (c.env e w) w.ctl w.gov id = .ok .inProgress) :
    (∃ r, handle c e w a (.ctl (.execute id)) = .ok r) ↔
      e.restricted a = false ∧ w.ctl.config.early = true ∧ (∀ t, i.earliest = some t → t ≤ w.block.time) ∧
        w.mem.total .never ≠ 0 ∧ ∃ p, Gov.queryPoll w.gov id = .ok p ∧ p.votesFor .yes = p.votesFor .no ∧
          Gov.quorumMet (Gov.votedTotal w.gov id) (w.mem.total .never) p.quorum ∧ Gov.someOptionReaches w.gov id p := by
  rw [C46_general_execute_iff hw ht h hi hg]
  obtain ⟨i', p', hi', hp', hc⟩ := status_cases hw ht h hs
  rw [hi] at hi'; cases hi'
  constructor
  · rintro ⟨h1, p, h2, h3, h4, h5⟩
    have := Controller.queryPoll_ok_iff.1 h2
    rw [hp'] at this; cases this
    have htie : p'.votesFor .yes = p'.votesFor .no := by
      by_contra hn
      refine C57_in_progress_partial hw ht h (a := a) hs (fun q hq => ?_)
        ((C46_general_execute_iff hw ht h hi hg).2 ⟨h1, p', h2, h3, h4, h5⟩)
      rw [h2] at hq; cases hq
      exact hn
    rcases h5 with ⟨h6, _⟩ | ⟨_, h6, h7, h8, h9⟩
    · exfalso
      rcases hc with ⟨h7, _⟩ | ⟨_, ⟨_, _, h7⟩ | ⟨h7, _⟩ | ⟨h7, _⟩⟩
      · exact h7 h3
      · split at h7 <;> cases h7
      · omega
      · omega
    · exact ⟨h1, h6, h4, h7, p', h2, htie, h8, h9⟩
  · rintro ⟨h1, h2, h3, h4, p, h5, h6, h7, h8⟩
    have := Controller.queryPoll_ok_iff.1 h5
    rw [hp'] at this; cases this
    rcases hc with ⟨_, h9⟩ | ⟨hn, ⟨_, _, h9⟩ | ⟨h9, _⟩ | ⟨h9, _⟩⟩
    · cases h9
    · split at h9 <;> cases h9
    · exact ⟨h1, p', h5, hn, h3, Or.inr ⟨h9, h2, h4, h7, h8⟩⟩
    · exact ⟨h1, p', h5, hn, h3, Or.inr ⟨h9, h2, h4, h7, h8⟩⟩

/-- What happens instead of C57, for proposals reported as rejected: they can be executed by a sender who is not
restricted, exactly when somebody had weight at the end of voting.
Missing from C57: the case of a total of zero, see `C57_nobody_left_witness`. -/
theorem C57_rejected_exact_partial {c : Cfg} (hw : c.Wf) (ht : c.Tame) {w : World} (h : Reachable c w) {e : Ext}
    {a : Addr} {id : Nat} {i : Controller.Info} (hi : w.ctl.infos.get id = some i) {p : Gov.Poll}
    (hp : Gov.queryPoll w.gov id = .ok p) (hs : Controller.queryStatus (c.env e w) w.ctl w.gov id = .ok .rejected) :
    (∃ r, handle c e w a (.ctl (.execute id)) = .ok r) ↔
      e.restricted a = false ∧ (c.env e w).bodyTotal (.time p.endsAt) i.type ≠ 0 := by
  have hpp := Controller.queryPoll_ok_iff.1 hp
  constructor
  · intro hx
    rw [execute_iff hw ht h hi hpp] at hx
    obtain ⟨h1, h2, h3, h4, h5⟩ := hx
    refine ⟨h1, ?_⟩
    obtain ⟨i', p', hi', hp', hc⟩ := status_cases hw ht h hs
    rw [hi] at hi'; cases hi'
    rw [hpp] at hp'; cases hp'
    rcases hc with ⟨h6, _⟩ | ⟨_, ⟨h6, _⟩ | ⟨_, _, _, h6⟩ | ⟨_, _, h6⟩⟩
    · exact absurd h2 h6
    · have hx : Controller.endTotal (c.env e w) p i.type = Controller.totalVotes (c.env e w) (.time p.endsAt) i.type :=
        if_pos h6
      rw [hx, Controller.bodyTotal_eq] at h4
      exact h4
    · exfalso
      cases hf : p.finalStatus (Controller.endTotal (c.env e w) p i.type) with
      | inProgress _ => rw [hf] at h6; cases h6
      | passed _ _ => rw [hf] at h6; cases h6
      | rejected r => rw [hf] at h6; cases r <;> cases h6
    · cases h6
  · rintro ⟨h1, h2⟩
    refine C57_rejected_partial hw ht h hs (fun i' p' hi' hp' => ?_) h1
    rw [hi] at hi'; cases hi'
    rw [hp] at hp'; cases hp'
    exact h2

/-- Both kinds of status occur in the sample, with both answers. -/
example :
    reported [stake 10 50, stake 11 50, propose 12 [.updateGovConfig sampleChange], vote 10 1 .yes, vote 11 1 .no,
      at_ 30] = (some .inProgress, true) ∧
    reported [stake 10 50, stake 11 50, propose 12 [.updateGovConfig sampleChange], vote 10 1 .yes, at_ 5] =
      (some .inProgress, false) ∧
    reported (sampleLost.take 7) = (some .rejected, true) ∧
    reported [stake 10 50, propose 12 [.updateGovConfig sampleChange], vote 10 1 .yes, unstake 10 50, at_ 200] =
      (some .rejected, false) := by decide +kernel

end Verif.Dao
