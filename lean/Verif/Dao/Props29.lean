import Verif.Dao.Props28
import Verif.Dao.Props20

/-!
# The contracts of a DAO together: the work that a change of weight makes for governance (C150)
-/

set_option linter.unusedSimpArgs false

namespace Verif.Gov
open Verif

/-! ### Specification -/

/-- One iteration of the loop of `update_votes`, enterprise-governance contract.rs 89-105, that also counts the polls whose
status it looks up (91). -/
def updateVoteCounting (now : Nat) (voter : Addr) (amount : Nat) (x : State × Nat) (v : Vote) : Except Err (State × Nat) := do
  let s ← updateVote now voter amount x.1 v
  return (s, x.2 + 1)

/-- `update_votes`, enterprise-governance contract.rs 82-108, with the number of polls whose status it looks up. -/
def updateVotesCounting (s : State) (now : Nat) (voter : Addr) (amount : Nat) : Except Err (State × Nat) :=
  (votesOf s voter).foldlM (updateVoteCounting now voter amount) (s, 0)

/-- Number of polls, of any time, on which a user has a vote on record. -/
def votedOn (s : State) (u : Addr) : Nat :=
  ((List.range (s.pollCount + 1)).filter (fun i => (queryPollVoter s i u).isSome)).length

/-! ### Lemmas -/

theorem counting_ok {now : Nat} {voter : Addr} {amount : Nat} : ∀ (l : List Vote) {s s' : State} {k n : Nat},
    l.foldlM (updateVoteCounting now voter amount) (s, k) = .ok (s', n) ↔
      l.foldlM (updateVote now voter amount) s = .ok s' ∧ n = k + l.length
  | [], s, s', k, n => by
    rw [foldlM_nil_ok_iff, foldlM_nil_ok_iff]
    constructor
    · intro h; cases h; exact ⟨rfl, rfl⟩
    · rintro ⟨rfl, rfl⟩; rfl
  | v :: l, s, s', k, n => by
    rw [foldlM_cons_ok_iff, foldlM_cons_ok_iff]
    constructor
    · rintro ⟨x, h1, h2⟩
      unfold updateVoteCounting at h1
      obtain ⟨y, h3, h4⟩ := bind_ok_iff.1 h1
      cases pure_ok_iff.1 h4
      obtain ⟨h5, h6⟩ := (counting_ok l).1 h2
      exact ⟨⟨y, h3, h5⟩, by rw [h6, List.length_cons]; omega⟩
    · rintro ⟨⟨y, h1, h2⟩, rfl⟩
      refine ⟨(y, k + 1), bind_ok_iff.2 ⟨y, h1, rfl⟩, (counting_ok l).2 ⟨h2, ?_⟩⟩
      rw [List.length_cons]; omega

theorem votesOf_length {s : State} (hi : Inv s) (u : Addr) : (votesOf s u).length = votedOn s u := by
  obtain ⟨_, h2, h3⟩ := votesOf_spec hi u
  unfold votedOn
  rw [← List.length_map (f := (·.pollId)) (as := votesOf s u)]
  refine List.Perm.length_eq ((List.perm_ext_iff_of_nodup h2 (List.nodup_range.filter _)).2 (fun i => ?_))
  rw [h3, List.mem_filter, List.mem_range]
  constructor
  · rintro ⟨v, hv⟩
    have := hi.vkeys _ _ hv
    have h4 := (vkey_inj.1 this.1).2
    refine ⟨by omega, ?_⟩
    unfold queryPollVoter
    rw [hv]; rfl
  · rintro ⟨_, h4⟩
    exact Option.isSome_iff_exists.1 h4

/-! ## C150 -/

/-- An update of a user's weight looks at every poll on which the user ever voted, whether it is still voted on or not. -/
theorem C150_looks {s : State} (h : Reachable s) (now : Nat) (u : Addr) (a : Nat) (s' : State) (n : Nat) :
    updateVotesCounting s now u a = .ok (s', n) ↔ updateVotes s now u a = .ok s' ∧ n = votedOn s u := by
  unfold updateVotesCounting updateVotes
  rw [counting_ok, votesOf_length h.inv, Nat.zero_add]

end Verif.Gov

namespace Verif.Dao
open Verif
open Verif.Gov (votedOn)

/-! ### Lemmas -/

theorem count_mono {c : Cfg} (hw : c.Wf) (ht : c.Tame) {w w' : World} (hr : Reachable c w) (h : Later c w w') :
    w.gov.pollCount ≤ w'.gov.pollCount := by
  have hi := (hr.base hw ht).ctl.inv
  have hi' := ((h.reachable hr).base hw ht).ctl.inv
  rcases Nat.eq_zero_or_pos w.gov.pollCount with h0 | h0
  · omega
  · obtain ⟨p, hp⟩ := (hi.ids w.gov.pollCount).2 ⟨h0, le_refl _⟩
    obtain ⟨p', hp', _⟩ := (h.moved hw ht hr).1.polls _ p hp
    exact ((hi'.ids _).1 ⟨p', hp'⟩).2

theorem vote_lasts {c : Cfg} (hw : c.Wf) (ht : c.Tame) {w w' : World} (hr : Reachable c w) (h : Later c w w') {i : Nat} {u : Addr}
    (hv : (Gov.queryPollVoter w.gov i u).isSome = true) : (Gov.queryPollVoter w'.gov i u).isSome = true := by
  obtain ⟨t, hh⟩ := h.history
  have h1 := C138_choice hw ht hr hh i u
  unfold choice at h1
  cases hq : Gov.queryPollVoter w.gov i u with
  | none => rw [hq] at hv; cases hv
  | some v =>
    rw [hq] at h1
    cases hq' : Gov.queryPollVoter w'.gov i u with
    | some v' => rfl
    | none =>
      rw [hq'] at h1
      cases hl : (votesCast t i u).getLast? <;> rw [hl] at h1 <;> cases h1

theorem length_filter_le {P Q : Nat → Bool} (h : ∀ i, P i = true → Q i = true) {m n : Nat} (hmn : m ≤ n) :
    ((List.range m).filter P).length ≤ ((List.range n).filter Q).length :=
  le_trans (List.Sublist.length_le (List.monotone_filter_right _ h))
    (List.Sublist.length_le ((List.range_sublist.2 hmn).filter _))

/-- The work only grows: votes are never forgotten. -/
theorem C150_lasting {c : Cfg} (hw : c.Wf) (ht : c.Tame) {w w' : World} (hr : Reachable c w) (h : Later c w w') (u : Addr) :
    votedOn w.gov u ≤ votedOn w'.gov u := by
  unfold votedOn
  exact length_filter_le (fun i hi => vote_lasts hw ht hr h hi) (Nat.succ_le_succ (count_mono hw ht hr h))

/-- A member makes an empty proposal and votes for it. -/
theorem one_more {c : Cfg} (hw : c.Wf) (ht : c.Tame) {w : World} (h : Reachable c w) {a : Addr} (ho : c.outsider a)
    (hm : 0 < w.mem.weight a) (e : Ext) (he : e.restricted a = false)
    (hd : w.ctl.config.minDeposit = none ∨ w.mem.daoType = .denom)
    (hfit : w.block.time + w.ctl.config.voteDuration * 10 ^ 9 < 2 ^ 64) (room : w.gov.pollCount + 2 < 2 ^ 64) :
    ∃ w2, Acting c [a] w w2 ∧ w2.mem = w.mem ∧ w2.block = w.block ∧ w2.ctl.config = w.ctl.config ∧
      w2.gov.pollCount = w.gov.pollCount + 1 ∧ votedOn w.gov a + 1 ≤ votedOn w2.gov a := by
  have hdur := (h.base hw ht).ctl.config.duration
  obtain ⟨f, w1, h1, hv1⟩ := created_alone hw ht h e he hm hd hfit (by omega) 0 0 (l := []) (by simp) (by simp)
  have hx1 : Exec c w [.call a (.ctl (.createProposal ⟨0, 0, [], none⟩ f))] w1 :=
    .call e (by omega) h1 (.nil _) (.nil _)
  have hr1 := h.tx ho hx1
  have hru := rushed_created hw ht h hfit (by omega) h1 hv1
  obtain ⟨w2, h2, hru2⟩ := rushed_voted hw ht hr1 hru e he hm (by omega) hfit
  have hx2 : Exec c w1 [.call a (.ctl (.castVote (w.gov.pollCount + 1) .yes))] w2 :=
    .call e (by rw [hv1.count]; omega) h2 (.nil _) (.nil _)
  have hv2 := hru2.voting
  have hact : Acting c [a] w w2 := .tx (.tx .refl List.mem_cons_self hx1) List.mem_cons_self hx2
  refine ⟨w2, hact, hv2.mem, hv2.block, hv2.config, hv2.count, ?_⟩
  have hl := hact.later (fun u hu => by rw [List.mem_singleton.1 hu]; exact ho)
  have hnew : (Gov.queryPollVoter w2.gov (w.gov.pollCount + 1) a).isSome = true := by
    have := hru2.choices a
    rw [if_pos List.mem_cons_self] at this
    unfold choice at this
    cases hq : Gov.queryPollVoter w2.gov (w.gov.pollCount + 1) a with
    | none => rw [hq] at this; cases this
    | some v => rfl
  unfold votedOn
  rw [hv2.count, List.range_succ (n := w.gov.pollCount + 1), List.filter_append, List.length_append]
  have e1 : ([w.gov.pollCount + 1].filter (fun i => (Gov.queryPollVoter w2.gov i a).isSome)).length = 1 := by
    rw [List.filter_cons, if_pos hnew]
    rfl
  rw [e1]
  exact Nat.add_le_add_right (length_filter_le (fun i hi => vote_lasts hw ht h hl hi) (le_refl _)) 1

theorem many_more {c : Cfg} (hw : c.Wf) (ht : c.Tame) {a : Addr} (ho : c.outsider a) (e : Ext) (he : e.restricted a = false) :
    ∀ (n : Nat) {w : World}, Reachable c w → 0 < w.mem.weight a →
    w.ctl.config.minDeposit = none ∨ w.mem.daoType = .denom →
    w.block.time + w.ctl.config.voteDuration * 10 ^ 9 < 2 ^ 64 → w.gov.pollCount + n + 1 < 2 ^ 64 →
    ∃ w2, Acting c [a] w w2 ∧ w2.mem = w.mem ∧ w2.block = w.block ∧ votedOn w.gov a + n ≤ votedOn w2.gov a
  | 0, w, _, _, _, _, _ => ⟨w, .refl, rfl, rfl, le_refl _⟩
  | n + 1, w, h, hm, hd, hfit, room => by
    obtain ⟨w1, a1, a2, a3, a4, a5, a6⟩ := one_more hw ht h ho hm e he hd hfit (by omega)
    have h1 : Reachable c w1 := (a1.later (fun u hu => by rw [List.mem_singleton.1 hu]; exact ho)).reachable h
    obtain ⟨w2, b1, b2, b3, b4⟩ := many_more hw ht ho e he n h1 (by rw [a2]; exact hm) (by rw [a2, a4]; exact hd)
      (by rw [a3, a4]; exact hfit) (by rw [a5]; omega)
    exact ⟨w2, a1.trans b1, b2.trans a2, b3.trans a3, by omega⟩

/-- An update goes through votes on polls that have ended without any effect. -/
theorem updates_ended {now : Nat} {voter : Addr} {amount : Nat} {s : Gov.State} (hi : Gov.Inv s)
    (h : ∀ i p, s.polls.get i = some p → p.endsAt ≤ now) : ∀ (l : List Gov.Vote),
    (∀ v ∈ l, 1 ≤ v.pollId ∧ v.pollId ≤ s.pollCount) → l.foldlM (Gov.updateVote now voter amount) s = .ok s
  | [], _ => rfl
  | v :: l, hl => by
    refine foldlM_cons_ok_iff.2 ⟨s, ?_, updates_ended hi h l (fun x hx => hl x (List.mem_cons_of_mem _ hx))⟩
    obtain ⟨p, hp⟩ := (hi.ids v.pollId).2 (hl v List.mem_cons_self)
    unfold Gov.updateVote
    rw [hp]
    dsimp only
    cases hst : p.status with
    | inProgress e =>
      dsimp only
      have h1 := hi.prog _ p e hp hst
      have h2 := h _ p hp
      rw [if_neg (by omega)]
    | passed _ _ => rfl
    | rejected _ => rfl

theorem last_end (m : Map Nat Gov.Poll) : ∃ t, ∀ i p, m.get i = some p → p.endsAt ≤ t := by
  refine ⟨m.sum (fun _ p => p.endsAt), fun i p hp => Map.le_sum (fun _ p => p.endsAt) hp⟩

/-- **The work for nothing has no bound.** A member can, alone, bring about that any change of the member's weight makes
governance look at as many polls as wanted, none of which is voted on any more: the update changes nothing. (The hypothesis
about time and the number of proposals is about 64 bits.) -/
theorem C150_unbounded {c : Cfg} (hw : c.Wf) (ht : c.Tame) {w : World} (h : Reachable c w) {a : Addr} (ho : c.outsider a)
    (hm : 0 < w.mem.weight a) (e : Ext) (he : e.restricted a = false)
    (hd : w.ctl.config.minDeposit = none ∨ w.mem.daoType = .denom)
    (hfit : w.block.time + w.ctl.config.voteDuration * 10 ^ 9 < 2 ^ 64) (n : Nat) (room : w.gov.pollCount + n + 1 < 2 ^ 64) :
    ∃ w' k, Acting c [a] w w' ∧ w'.mem = w.mem ∧ n ≤ k ∧
      (∀ i p, Gov.queryPoll w'.gov i = .ok p → p.endsAt ≤ w'.block.time) ∧
      ∀ amount, Gov.updateVotesCounting w'.gov w'.block.time a amount = .ok (w'.gov, k) := by
  obtain ⟨w2, a1, a2, a3, a4⟩ := many_more hw ht ho e he n h hm hd hfit room
  have h2 : Reachable c w2 := (a1.later (fun u hu => by rw [List.mem_singleton.1 hu]; exact ho)).reachable h
  have hi := (h2.base hw ht).ctl.inv
  obtain ⟨t, htt⟩ := last_end w2.gov.polls
  have hend : ∀ i p, w2.gov.polls.get i = some p → p.endsAt ≤ max t w2.block.time :=
    fun i p hp => le_trans (htt i p hp) (le_max_left _ _)
  refine ⟨{ w2 with block := ⟨w2.block.height, max t w2.block.time⟩ }, votedOn w2.gov a,
    .block a1 (le_refl _) (le_max_right _ _), a2, by omega, fun i p hp => hend i p (Controller.queryPoll_ok_iff.1 hp), fun amount => ?_⟩
  show Gov.updateVotesCounting w2.gov (max t w2.block.time) a amount = _
  rw [Gov.C150_looks ((h2.base hw ht).ctl.gov.reachable)]
  refine ⟨?_, rfl⟩
  unfold Gov.updateVotes
  refine updates_ended hi hend _ (fun v hv => ?_)
  have := (Gov.votesOf_spec hi a).1 v hv
  exact (hi.vkeys _ _ this).2

/-! ### Examples -/

/-- Hypotheses met in the sample DAO, where user 10 has staked 60 coins, for a million polls. -/
example : ∃ w' k, Acting sampleCfg [10] (sampleRun [stake 10 60]) w' ∧ w'.mem = (sampleRun [stake 10 60]).mem ∧ 1000000 ≤ k ∧
    ∀ amount, Gov.updateVotesCounting w'.gov w'.block.time 10 amount = .ok (w'.gov, k) := by
  obtain ⟨w', k, h1, h2, h3, _, h5⟩ := C150_unbounded sampleCfg_wf sampleCfg_tame (sampleRun_reachable [stake 10 60]) (a := 10)
    (by decide +kernel) (by decide +kernel) sampleExt (by decide) (Or.inr (by decide +kernel)) (by decide +kernel) 1000000
    (by decide +kernel)
  exact ⟨w', k, h1, h2, h3, h5⟩

/-- User 10 voted on a proposal; long after its end a change of the weight of user 10 still looks at it, one of the weight of user
12 does not. -/
example : votedOn (sampleRun (sampleVoted ++ [at_ 5000])).gov 10 = 1 ∧ votedOn (sampleRun (sampleVoted ++ [at_ 5000])).gov 12 = 0 := by
  decide +kernel

end Verif.Dao
