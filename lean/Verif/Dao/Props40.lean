import Verif.Dao.Net

/-!
# The contracts of a DAO together: several stakes and unstakes within a block (C176)
-/

set_option linter.unusedSimpArgs false

namespace Verif.Dao
open Verif

/-! ## Specification

`Sequel` (C164) are messages accepted one after the other within a block. -/

/-- The messages stake or unstake something, and are sent from outside. -/
def OnlyMoves (c : Cfg) (l : List Signed) : Prop :=
  ∀ x ∈ l, c.outsider x.sender ∧
    ((∃ f u, x.msg = .mem (.staking (.receive f (.stake u)))) ∨ (∃ f u, x.msg = .mem (.staking (.stakeDenom f u))) ∨
      ∃ n, x.msg = .mem (.staking (.unstake n)))

/-- Some message is about the stake of `u`. -/
def concerned (l : List Signed) (u : Addr) : Prop := ∃ x ∈ l, whose x = some u

/-- The same world, but for claims of unstaked coins. -/
structure SameButClaims (w t : World) : Prop where
  stakes : ∃ k s s', w.mem = .staking k s ∧ t.mem = .staking k s' ∧ s.mem = s'.mem ∧ s.asset = s'.asset ∧
    s.unlocking = s'.unlocking
  polls : w.gov = t.gov
  rewards : w.dist = t.dist
  ctl : w.ctl = t.ctl
  rest : w.council = t.council ∧ w.block = t.block ∧ w.log = t.log

/-! ## Proofs -/

theorem OnlyMoves.moves {c : Cfg} {l : List Signed} (h : OnlyMoves c l) : ∀ x ∈ l, moves x = true := by
  intro x hx
  unfold Dao.moves
  rcases (h x hx).2 with ⟨f, u, e⟩ | ⟨f, u, e⟩ | ⟨n, e⟩ <;> rw [e]

theorem OnlyMoves.valid {c : Cfg} {l : List Signed} (h : OnlyMoves c l) : Valid c l := by
  intro x hx
  refine ⟨?_, (h x hx).1⟩
  unfold whose
  rcases (h x hx).2 with ⟨f, u, e⟩ | ⟨f, u, e⟩ | ⟨n, e⟩ <;> rw [e] <;> simp

/-- Two histories of stakes and unstakes within a block, about the same members, after which everybody has the same
weight: nothing else in the DAO tells them apart, but for the claims of what was unstaked. -/
theorem C176_net {c : Cfg} (hw : c.Wf) (ht : c.Tame) {w w1 w2 : World} (h : Reachable c w) {k : Staking.Kind}
    {s : Staking.State} (hm : w.mem = .staking k s) (room : w.gov.pollCount + 1 < 2 ^ 64) {l l' : List Signed}
    (hl : OnlyMoves c l) (hl' : OnlyMoves c l') (h1 : Sequel c w l w1) (h2 : Sequel c w l' w2)
    (hc : ∀ u, concerned l u ↔ concerned l' u) (hsame : ∀ u, w1.mem.weight u = w2.mem.weight u) : SameButClaims w1 w2 := by
  have v1 := hl.valid
  have v2 := hl'.valid
  obtain ⟨r1, f1, _⟩ := h1.fixed hw ht h hm room v1
  obtain ⟨r2, f2, _⟩ := h2.fixed hw ht h hm room v2
  have hf := f1.symm.trans f2
  have ho : ∀ u, Own u w1 w2 ∧ w1.mem.mem.weights.get u = w2.mem.mem.weights.get u := by
    intro u
    obtain ⟨a1, a2⟩ := h1.net hw ht u h hm room v1 hl.moves
    obtain ⟨b1, b2⟩ := h2.net hw ht u h hm room v2 hl'.moves
    by_cases hu : concerned l u
    · have n1 := a2 hu
      have n2 := b2 ((hc u).1 hu)
      refine ⟨⟨hsame u, fun i => ?_, ⟨⟨?_, n1.native.unique n2.native, n1.cw20.unique n2.cw20⟩, ?_⟩⟩, ?_⟩
      · rw [n1.votes i, n2.votes i, hsame u]
      · rw [n1.eff, n2.eff, hsame u]
      · rw [n1.weight, n2.weight, hsame u]
      · rw [n1.entry, n2.entry, hsame u]
    · have o1 := a1 (fun x hx e => hu ⟨x, hx, e⟩)
      have o2 := b1 (fun x hx e => hu ((hc u).2 ⟨x, hx, e⟩))
      exact ⟨o1.toOwn.symm.trans o2.toOwn, o1.entry.trans o2.entry.symm⟩
  obtain ⟨s1, m1, m2, m3, m4, m5⟩ := h1.total hw ht h hm room v1 hl.moves
  obtain ⟨s2, n1, n2, n3, n4, n5⟩ := h2.total hw ht h hm room v2 hl'.moves
  refine ⟨⟨k, s1, s2, m1, n1, ?_, m3.trans n3.symm, m4.trans n4.symm⟩, ?_, ?_, ?_, hf.rest⟩
  · have hwt : s1.mem.weights = s2.mem.weights := by
      refine Map.ext_get (fun u => ?_)
      have := (ho u).2
      rw [m1, n1] at this
      exact this
    have ht1 : s1.mem.total = s2.mem.total := by
      have e1 := (r1.base hw ht).mem.total
      have e2 := (r2.base hw ht).mem.total
      rw [Member.total_never, m1] at e1
      rw [Member.total_never, n1] at e2
      change s1.mem.total = s1.mem.wsum at e1
      change s2.mem.total = s2.mem.wsum at e2
      rw [e1, e2]
      unfold Members.wsum
      rw [hwt]
    have hby : s1.mem.byHeight = s2.mem.byHeight ∧ s1.mem.bySeconds = s2.mem.bySeconds := by
      by_cases hn : l = []
      · have hn' : l' = [] := by
          cases l' with
          | nil => rfl
          | cons x t =>
            obtain ⟨u, hu⟩ := Option.ne_none_iff_exists'.1 (v2 x (by simp)).1
            obtain ⟨y, hy, _⟩ := (hc u).2 ⟨x, by simp, hu⟩
            rw [hn] at hy
            cases hy
        subst hn hn'
        cases h1
        cases h2
        rw [m1] at n1
        cases n1
        exact ⟨rfl, rfl⟩
      · have hn' : l' ≠ [] := by
          rintro rfl
          cases l with
          | nil => exact hn rfl
          | cons x t =>
            obtain ⟨u, hu⟩ := Option.ne_none_iff_exists'.1 (v1 x (by simp)).1
            obtain ⟨y, hy, _⟩ := (hc u).1 ⟨x, by simp, hu⟩
            cases hy
        rw [(m5 hn).1, (m5 hn).2, (n5 hn').1, (n5 hn').2, ht1]
        exact ⟨rfl, rfl⟩
    have hh : s1.mem.hooks = s2.mem.hooks := m2.trans n2.symm
    cases hs1 : s1.mem
    cases hs2 : s2.mem
    rw [hs1, hs2] at hwt hby hh
    simp only at hwt hby hh
    rw [hwt, hby.1, hby.2, hh]
  · refine Gov.state_ext (r1.base hw ht).ctl.inv (r2.base hw ht).ctl.inv hf.gov (fun u i => (ho u).1.votes i) ?_
    intro i p q hp hq n
    obtain ⟨p0, hp0, _, _⟩ := f1.gov.symm.get hp
    rw [h1.has hw ht h hm room v1 p0 p hp0 hp, h2.has hw ht h hm room v2 p0 q hp0 hq]
    refine or_congr Iff.rfl ⟨?_, ?_⟩
    · rintro ⟨x, hx, e⟩; exact absurd e (moves_votes (hl.moves x hx) i n)
    · rintro ⟨x, hx, e⟩; exact absurd e (moves_votes (hl'.moves x hx) i n)
  · exact Distributor.userParts_ext (fun u => (ho u).1.dist) hf.dist.1 hf.dist.2 (r1.dist hw ht).inv (r2.dist hw ht).inv
  · exact (h1.idle hw ht h hm room v1 hl.moves).1.trans (h2.idle hw ht h hm room v2 hl'.moves).1.symm

/-- Votes of a member whose weight ends where it began, apart from votes on open council proposals. -/
theorem back_vote {c : Cfg} (hw : c.Wf) (ht : c.Tame) {w w1 : World} (h : Reachable c w) {k : Staking.Kind}
    {s : Staking.State} (hm : w.mem = .staking k s) (room : w.gov.pollCount + 1 < 2 ^ 64) {l : List Signed}
    (hl : OnlyMoves c l) (h1 : Sequel c w l w1) {u : Addr} (hsame : w1.mem.weight u = w.mem.weight u) {id : Nat}
    (hg : (∀ i, w.ctl.infos.get id = some i → i.type = .general) ∨ ¬ concerned l u ∨
      ∀ p, Gov.queryPoll w.gov id = .ok p → p.live → w.block.time < p.endsAt → Gov.queryPollVoter w.gov id u = none) :
    Gov.queryPollVoter w1.gov id u = Gov.queryPollVoter w.gov id u := by
  obtain ⟨a1, a2⟩ := h1.net hw ht u h hm room hl.valid hl.moves
  unfold Gov.queryPollVoter at hg ⊢
  by_cases hu : concerned l u
  · rw [(a2 hu).votes id, hsame]
    refine newVote_same _ _ _ _ _ _ _ (fun v hv hop => ?_)
    obtain ⟨p, hp, hlv, hends⟩ := hop
    have hi : w.ctl.infos.has id = true := by
      rw [(h.base hw ht).ctl.infos id]
      exact Map.has_iff.2 ⟨p, hp⟩
    obtain ⟨i, hi⟩ := Map.has_iff.1 hi
    rcases hg with hg | hg | hg
    · exact C54_votes_track_weight hw ht h hi (hg i hi) (Controller.queryPoll_ok_iff.2 hp) hlv hends hv
    · exact absurd hu hg
    · rw [hg p (Controller.queryPoll_ok_iff.2 hp) hlv hends] at hv; cases hv
  · exact ((a1 (fun x hx e => hu ⟨x, hx, e⟩)).votes id).symm

/-- Stakes and unstakes within a block, after which everybody has the weight as before: votes on general proposals,
rewards, the total weight, and everything of the controller and the council are as before. -/
theorem C176_back {c : Cfg} (hw : c.Wf) (ht : c.Tame) {w w1 : World} (h : Reachable c w) {k : Staking.Kind}
    {s : Staking.State} (hm : w.mem = .staking k s) (room : w.gov.pollCount + 1 < 2 ^ 64) {l : List Signed}
    (hl : OnlyMoves c l) (h1 : Sequel c w l w1) (hsame : ∀ u, w1.mem.weight u = w.mem.weight u) :
    (∀ id i u, w.ctl.infos.get id = some i → i.type = .general →
      Gov.queryPollVoter w1.gov id u = Gov.queryPollVoter w.gov id u) ∧
    (∀ u ds ts, Distributor.queryRewards w1.dist u ds ts = Distributor.queryRewards w.dist u ds ts) ∧
    w1.mem.total .never = w.mem.total .never ∧
    w1.ctl = w.ctl ∧ w1.council = w.council ∧ w1.block = w.block ∧ w1.log = w.log := by
  obtain ⟨r1, f1, _⟩ := h1.fixed hw ht h hm room hl.valid
  obtain ⟨i1, i2⟩ := h1.idle hw ht h hm room hl.valid hl.moves
  refine ⟨fun id i u hi hg => ?_, fun u ds ts => i2.query u ds ts, ?_, i1, f1.rest.1.symm, f1.rest.2.1.symm, f1.rest.2.2.symm⟩
  · refine back_vote hw ht h hm room hl h1 (hsame u) (Or.inl (fun j hj => ?_))
    rw [hi] at hj
    cases hj
    exact hg
  · rw [(r1.base hw ht).mem.total, (h.base hw ht).mem.total]
    have hs : ∀ u, (w1.mem.mem.weights.get u).getD 0 = (w.mem.mem.weights.get u).getD 0 := by
      intro u
      have := hsame u
      rw [Member.weight_eq, Member.weight_eq] at this
      exact this
    exact Nat.le_antisymm (sum_le_two (b := Map.empty) (fun u => by rw [hs u]; omega))
      (sum_le_two (b := Map.empty) (fun u => by rw [hs u]; omega))

/-- If no member concerned has voted on a council proposal that is still open, all polls are entirely as before. -/
theorem C176_back_polls {c : Cfg} (hw : c.Wf) (ht : c.Tame) {w w1 : World} (h : Reachable c w) {k : Staking.Kind}
    {s : Staking.State} (hm : w.mem = .staking k s) (room : w.gov.pollCount + 1 < 2 ^ 64) {l : List Signed}
    (hl : OnlyMoves c l) (h1 : Sequel c w l w1) (hsame : ∀ u, w1.mem.weight u = w.mem.weight u)
    (hcouncil : ∀ id i p u, w.ctl.infos.get id = some i → i.type = .council → Gov.queryPoll w.gov id = .ok p → p.live →
      w.block.time < p.endsAt → concerned l u → Gov.queryPollVoter w.gov id u = none) : w1.gov = w.gov := by
  obtain ⟨r1, f1, _⟩ := h1.fixed hw ht h hm room hl.valid
  refine (Gov.state_ext (h.base hw ht).ctl.inv (r1.base hw ht).ctl.inv f1.gov (fun u id => ?_) ?_).symm
  · refine (back_vote hw ht h hm room hl h1 (hsame u) ?_).symm
    by_cases hu : concerned l u
    · cases hi : w.ctl.infos.get id with
      | none => exact Or.inl (fun _ hj => by cases hj)
      | some i =>
        cases hty : i.type with
        | general => exact Or.inl (fun j hj => by cases hj; exact hty)
        | council => exact Or.inr (Or.inr (fun p hp hlv he => hcouncil id i p u hi hty hp hlv he hu))
    · exact Or.inr (Or.inl hu)
  · intro i p q hp hq n
    rw [h1.has hw ht h hm room hl.valid p q hp hq]
    refine ⟨Or.inl, fun hh => hh.elim id ?_⟩
    rintro ⟨x, hx, e⟩
    exact absurd e (moves_votes (hl.moves x hx) i n)

/-! ## Examples -/

theorem sample_staking (l : List Step) (h : (match (sampleRun l).mem with | .staking _ _ => true | _ => false) = true) :
    ∃ k s, (sampleRun l).mem = .staking k s := by
  cases hm : (sampleRun l).mem with
  | staking k s => exact ⟨k, s, rfl⟩
  | nft s => rw [hm] at h; cases h
  | multisig s => rw [hm] at h; cases h

/-- A stake of `u` with coins, and an unstake. -/
def stakes (u : Addr) (n : Nat) : Signed := ⟨sampleExt, u, .mem (.staking (.stakeDenom [⟨20, n⟩] none))⟩
def unstakes (u : Addr) (n : Nat) : Signed := ⟨sampleExt, u, .mem (.staking (.unstake n))⟩

theorem onlyMoves_of {l : List Signed} (h : ∀ x ∈ l, sampleCfg.outsider x.sender)
    (h' : ∀ x ∈ l, ∃ u n, x = stakes u n ∨ x = unstakes u n) : OnlyMoves sampleCfg l := by
  intro x hx
  refine ⟨h x hx, ?_⟩
  obtain ⟨u, n, rfl | rfl⟩ := h' x hx
  · exact Or.inr (Or.inl ⟨_, _, rfl⟩)
  · exact Or.inr (Or.inr ⟨_, rfl⟩)

/-- User 10, who has 5 coins staked and voted, stakes 7, unstakes 4, and user 12 unstakes 4; or user 12 unstakes 6, user 10
stakes 3 and user 12 stakes 2. -/
example : ∃ w1 w2, Sequel sampleCfg (sampleRun fewVotes) [stakes 10 7, unstakes 10 4, unstakes 12 4] w1 ∧
    Sequel sampleCfg (sampleRun fewVotes) [unstakes 12 6, stakes 10 3, stakes 12 2] w2 ∧
    (w1.mem.weight 10, w1.mem.weight 12, w2.mem.weight 10, w2.mem.weight 12) = (8, 90, 8, 90) ∧
    (Gov.queryPollVoter w1.gov 1 10).map (·.amount) = some 8 ∧ w1.gov = w2.gov ∧ w1.dist = w2.dist := by
  obtain ⟨w1, h1⟩ := Option.isSome_iff_exists.1 (show (inTurn sampleCfg (sampleRun fewVotes)
    [stakes 10 7, unstakes 10 4, unstakes 12 4]).isSome = true by decide +kernel)
  obtain ⟨w2, h2⟩ := Option.isSome_iff_exists.1 (show (inTurn sampleCfg (sampleRun fewVotes)
    [unstakes 12 6, stakes 10 3, stakes 12 2]).isSome = true by decide +kernel)
  have s1 := inTurn_sequel h1
  have s2 := inTurn_sequel h2
  have e1 : w1 = (inTurn sampleCfg (sampleRun fewVotes) [stakes 10 7, unstakes 10 4, unstakes 12 4]).getD (sampleRun fewVotes) := by
    rw [h1]; rfl
  have e2 : w2 = (inTurn sampleCfg (sampleRun fewVotes) [unstakes 12 6, stakes 10 3, stakes 12 2]).getD (sampleRun fewVotes) := by
    rw [h2]; rfl
  refine ⟨w1, w2, s1, s2, by rw [e1, e2]; decide +kernel, by rw [e1]; decide +kernel, ?_⟩
  obtain ⟨k, s, hm⟩ := sample_staking fewVotes (by decide +kernel)
  have m1 : OnlyMoves sampleCfg [stakes 10 7, unstakes 10 4, unstakes 12 4] := onlyMoves_of (by decide +kernel) (by
    intro x hx
    simp only [List.mem_cons, List.not_mem_nil, or_false] at hx
    rcases hx with rfl | rfl | rfl
    · exact ⟨_, _, Or.inl rfl⟩
    · exact ⟨_, _, Or.inr rfl⟩
    · exact ⟨_, _, Or.inr rfl⟩)
  have m2 : OnlyMoves sampleCfg [unstakes 12 6, stakes 10 3, stakes 12 2] := onlyMoves_of (by decide +kernel) (by
    intro x hx
    simp only [List.mem_cons, List.not_mem_nil, or_false] at hx
    rcases hx with rfl | rfl | rfl
    · exact ⟨_, _, Or.inr rfl⟩
    · exact ⟨_, _, Or.inl rfl⟩
    · exact ⟨_, _, Or.inl rfl⟩)
  have c1 : ∀ u, concerned [stakes 10 7, unstakes 10 4, unstakes 12 4] u ↔ u = 10 ∨ u = 12 := by
    intro u
    simp [concerned, whose, stakes, unstakes, eq_comm]
  have c2 : ∀ u, concerned [unstakes 12 6, stakes 10 3, stakes 12 2] u ↔ u = 10 ∨ u = 12 := by
    intro u
    simp [concerned, whose, stakes, unstakes, eq_comm]
    tauto
  have hr := sampleRun_reachable fewVotes
  have room : (sampleRun fewVotes).gov.pollCount + 1 < 2 ^ 64 := by decide +kernel
  have hsame : ∀ u, w1.mem.weight u = w2.mem.weight u := by
    intro u
    by_cases hu : u = 10 ∨ u = 12
    · rcases hu with rfl | rfl <;> (rw [e1, e2]; decide +kernel)
    · have o1 := (s1.net sampleCfg_wf sampleCfg_tame u hr hm room m1.valid m1.moves).1 (fun x hx e => hu ((c1 u).1 ⟨x, hx, e⟩))
      have o2 := (s2.net sampleCfg_wf sampleCfg_tame u hr hm room m2.valid m2.moves).1 (fun x hx e => hu ((c2 u).1 ⟨x, hx, e⟩))
      exact o1.weight.symm.trans o2.weight
  have := C176_net sampleCfg_wf sampleCfg_tame hr hm room m1 m2 s1 s2 (fun u => (c1 u).trans (c2 u).symm) hsame
  exact ⟨this.polls, this.rewards⟩

/-- User 10 unstakes 5 coins and stakes them again: the hypotheses of `C176_back` and `C176_back_polls`. -/
example : ∃ w1, Sequel sampleCfg (sampleRun fewVotes) [unstakes 10 5, stakes 10 5] w1 ∧
    OnlyMoves sampleCfg [unstakes 10 5, stakes 10 5] ∧ (∀ u, w1.mem.weight u = (sampleRun fewVotes).mem.weight u) ∧
    w1.gov = (sampleRun fewVotes).gov ∧ (Gov.queryPollVoter w1.gov 1 10).map (·.amount) = some 5 := by
  obtain ⟨w1, h1⟩ := Option.isSome_iff_exists.1 (show (inTurn sampleCfg (sampleRun fewVotes)
    [unstakes 10 5, stakes 10 5]).isSome = true by decide +kernel)
  have s1 := inTurn_sequel h1
  have e1 : w1 = (inTurn sampleCfg (sampleRun fewVotes) [unstakes 10 5, stakes 10 5]).getD (sampleRun fewVotes) := by
    rw [h1]; rfl
  obtain ⟨k, s, hm⟩ := sample_staking fewVotes (by decide +kernel)
  have m1 : OnlyMoves sampleCfg [unstakes 10 5, stakes 10 5] := onlyMoves_of (by decide +kernel) (by
    intro x hx
    simp only [List.mem_cons, List.not_mem_nil, or_false] at hx
    rcases hx with rfl | rfl
    · exact ⟨_, _, Or.inr rfl⟩
    · exact ⟨_, _, Or.inl rfl⟩)
  have c1 : ∀ u, concerned [unstakes 10 5, stakes 10 5] u ↔ u = 10 := by
    intro u
    simp [concerned, whose, stakes, unstakes, eq_comm]
  have hr := sampleRun_reachable fewVotes
  have room : (sampleRun fewVotes).gov.pollCount + 1 < 2 ^ 64 := by decide +kernel
  have hsame : ∀ u, w1.mem.weight u = (sampleRun fewVotes).mem.weight u := by
    intro u
    by_cases hu : u = 10
    · rw [hu, e1]; decide +kernel
    · have o1 := (s1.net sampleCfg_wf sampleCfg_tame u hr hm room m1.valid m1.moves).1 (fun x hx e => hu ((c1 u).1 ⟨x, hx, e⟩))
      exact o1.weight.symm
  refine ⟨w1, s1, m1, hsame, ?_, by rw [e1]; decide +kernel⟩
  refine C176_back_polls sampleCfg_wf sampleCfg_tame hr hm room m1 s1 hsame (fun id i p u hi hty => ?_)
  have hall : ∀ x ∈ (sampleRun fewVotes).ctl.infos.entries, x.2.type = .general := by decide +kernel
  have := hall (id, i) (Map.get_eq_some_iff.1 hi)
  rw [hty] at this
  cases this

/-- Votes on council proposals do not come back: a member of the council, who voted with the weight 1, stakes 100 coins and
unstakes them in the same block; nobody's weight has changed, but the vote counts nothing (see C55). -/
theorem C176_council_witness : ∃ w w1 : World, Reachable sampleCfg w ∧
    Sequel sampleCfg w [stakes 40 100, unstakes 40 100] w1 ∧ w1.mem.weight 40 = w.mem.weight 40 ∧
    Gov.queryPollVoter w.gov 1 40 = some ⟨1, 40, .yes, 1⟩ ∧ Gov.queryPollVoter w1.gov 1 40 = some ⟨1, 40, .yes, 0⟩ := by
  obtain ⟨w1, h1⟩ := Option.isSome_iff_exists.1 (show (inTurn sampleCfg (sampleRun sampleCouncilVote)
    [stakes 40 100, unstakes 40 100]).isSome = true by decide +kernel)
  have e1 : w1 = (inTurn sampleCfg (sampleRun sampleCouncilVote) [stakes 40 100, unstakes 40 100]).getD
      (sampleRun sampleCouncilVote) := by rw [h1]; rfl
  refine ⟨sampleRun sampleCouncilVote, w1, sampleRun_reachable _, inTurn_sequel h1, ?_, by decide +kernel, ?_⟩ <;>
  · rw [e1]; decide +kernel

end Verif.Dao
