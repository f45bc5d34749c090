import Verif.Dao.Props
import Verif.Dao.Props4
import Verif.Dao.Props18
import Verif.Pages.Props2

/-!
# The contracts of a DAO together: lists of proposals and of votes, read while the DAO goes on (C167)
-/

set_option linter.unusedSimpArgs false

namespace Verif.Dao
open Verif
open Verif.Controller (queryProposal queryProposals queryProposalVotes queryMemberVote toResponse Response)
open Verif.Pages (ReadsOver Faithful Successive Orderly)

/-! ## Specification -/

/-- A moment at which a client reads: the state of the DAO, and of the world outside. -/
structure Moment where
  world : World
  ext : Ext

/-- The answer to the query for one proposal at that moment. -/
def Moment.shows (c : Cfg) (m : Moment) (x : Response) : Prop :=
  queryProposal (c.env m.ext m.world) m.world.ctl m.world.gov x.id = .ok x

/-- The answer to the query for a page of proposals at that moment, in a reachable state. -/
def Moment.lists (c : Cfg) (f : Option Gov.StatusFilter) (limit : Option Nat) (m : Moment) (after : Option Nat)
    (page : List Response) : Prop :=
  Reachable c m.world ∧ queryProposals (c.env m.ext m.world) m.world.ctl m.world.gov f after limit = .ok page

/-! ## Lemmas -/

theorem orderly_image {K X Y : Type} {lt : K → K → Prop} {cursor : X → K} {cursor' : Y → K} {there : X → Prop}
    {after : Option K} {page : List X} (h : Orderly lt cursor there after page) (g : X → Y)
    (hg : ∀ x, there x → cursor' (g x) = cursor x) :
    Orderly lt cursor' (fun y => ∃ x, there x ∧ y = g x) after (page.map g) := by
  obtain ⟨h1, h2, h3⟩ := h
  refine ⟨?_, fun y hy => ?_, fun y hy ha => ?_⟩
  · rw [List.pairwise_map]
    refine List.Pairwise.imp_of_mem (fun {a b} ha hb hab => ?_) h1
    rw [hg a (h2 a ha).1, hg b (h2 b hb).1]
    exact hab
  · obtain ⟨x, hx, rfl⟩ := List.mem_map.1 hy
    exact ⟨⟨x, (h2 x hx).1, rfl⟩, by rw [hg x (h2 x hx).1]; exact (h2 x hx).2⟩
  · obtain ⟨x, hx, rfl⟩ := hy
    rw [hg x hx] at ha
    rcases h3 x hx ha with h | ⟨z, hz, hlt⟩
    · exact .inl (List.mem_map_of_mem h)
    · refine .inr ⟨g z, by rw [List.getLast?_map, hz]; rfl, ?_⟩
      rw [hg x hx, hg z (h2 z (List.mem_of_getLast? hz)).1]
      exact hlt

theorem listed_selected {c : Cfg} {w : World} (hb : Base c w) {e : Controller.Env} {x : Response} {p : Gov.Poll}
    (hq : queryProposal e w.ctl w.gov x.id = .ok x) (hp : w.gov.polls.get x.id = some p) (f : Gov.StatusFilter) :
    Listed (some f) p ↔ Selected w f x := by
  unfold queryProposal at hq
  obtain ⟨p', hp', hr⟩ := bind_ok_iff.1 hq
  rw [Controller.queryPoll_ok_iff.1 hp'] at hp
  cases hp
  have hp := Controller.queryPoll_ok_iff.1 hp'
  obtain ⟨hid, i, hi, hx⟩ := toResponse_id hr
  rw [← hid] at hi
  have he := hb.ctl.ended x.id i p hi hp
  have hout : outcome w x.id = if i.executedAt.isSome = true then some p.status else none := by
    unfold outcome; rw [hi, hp]
  have hne : x.status ≠ .executed ↔ i.executedAt.isSome = false := by rw [ne_eq, hx]; simp
  unfold Listed
  simp only [Option.some.injEq, forall_eq']
  cases hxe : i.executedAt with
  | none =>
    obtain ⟨y, hy⟩ := he.1 hxe
    cases f <;> simp only [Selected, hout, hx, hne, hxe] <;> simp [Gov.Status.shows, hy]
  | some b =>
    have hnl : ¬ p.live := fun hl => by
      rw [he.2 hl] at hxe; cases hxe
    cases hs : p.status with
    | inProgress y => exact absurd ⟨y, hs⟩ hnl
    | passed o n => cases f <;> simp only [Selected, hout, hx, hne, hxe] <;> simp [Gov.Status.shows, hs]
    | rejected r => cases f <;> simp only [Selected, hout, hx, hne, hxe] <;> simp [Gov.Status.shows, hs]

theorem orderly_proposals {c : Cfg} {w : World} (hb : Base c w) (e : Controller.Env) (f : Option Gov.StatusFilter)
    (after : Option Nat) {limit : Option Nat} (hl : limit ≠ some 0) {page : List Response}
    (hp : queryProposals e w.ctl w.gov f after limit = .ok page) :
    Orderly (· < ·) (·.id) (fun x => queryProposal e w.ctl w.gov x.id = .ok x ∧ ∀ g, f = some g → Selected w g x) after page := by
  rw [queryProposals_ok hb e f after limit] at hp
  cases hp
  have hpos := Pages.bound_pos hl (d := 50) (m := 100) (by decide) (by decide)
  have hord := Pages.orderly_polls (limit := some (min (limit.getD 50) 100)) (fun h => by
    rw [Option.some.injEq] at h; omega) (page_small limit) f none hb.ctl.gov.reachable after
  refine Pages.orderly_congr (orderly_image hord (answer e w.ctl w.gov) (cursor' := (·.id)) fun p hp =>
    (answer_ok hb e (Controller.queryPoll_ok_iff.1 hp.1)).2.1) fun x => ?_
  constructor
  · rintro ⟨p, ⟨hp, hf, _⟩, rfl⟩
    have hp := Controller.queryPoll_ok_iff.1 hp
    obtain ⟨_, h5, h6⟩ := answer_ok hb e hp
    rw [← h5] at h6 hp
    rw [h5] at h6
    have h7 : queryProposal e w.ctl w.gov (answer e w.ctl w.gov p).id = .ok (answer e w.ctl w.gov p) := by rw [h5]; exact h6
    exact ⟨h7, fun g hg => (listed_selected hb h7 hp g).1 (fun y hy => hf y (by rw [hg, ← hy]))⟩
  · rintro ⟨hq, hs⟩
    have hq' := hq
    unfold queryProposal at hq'
    obtain ⟨p, hp, _⟩ := bind_ok_iff.1 hq'
    have hp' := Controller.queryPoll_ok_iff.1 hp
    have hid := (hb.ctl.inv.pid _ _ hp').1
    obtain ⟨_, _, h6⟩ := answer_ok hb e hp'
    rw [hq] at h6
    cases h6
    refine ⟨p, ⟨by rw [hid]; exact hp, fun y hy => ?_, fun _ h => by cases h⟩, rfl⟩
    exact (listed_selected hb hq hp' y).2 (hs y hy) y rfl

/-! ## C167 -/

/-- C167: the proposals of a DAO, all or those with a stored status, read page by page while the DAO goes on: no proposal is
listed twice, each is listed as the query for it alone returned it at that moment, and one that meets the filter all the
time is listed. -/
theorem C167_proposals {c : Cfg} (hw : c.Wf) (ht : c.Tame) {limit : Option Nat} (hl : limit ≠ some 0)
    (f : Option Gov.StatusFilter) {rs : List (Moment × List Response)}
    (h : ReadsOver (Moment.lists c f limit) (·.id) none rs) :
    Faithful (·.id) (fun m x => m.shows c x ∧ ∀ g, f = some g → Selected m.world g x) rs :=
  Pages.faithful (· < ·) lt_irrefl (fun _ _ _ => lt_trans)
    (fun m after _ hp => orderly_proposals (hp.1.base hw ht) (c.env m.ext m.world) f after hl hp.2) h

/-- C167: without a filter every proposal made before the reading started is listed, whatever happens meanwhile. With the
filter for passed or for rejected proposals, every proposal executed before with that result is listed. -/
theorem C167_all_proposals {c : Cfg} (hw : c.Wf) (ht : c.Tame) {limit : Option Nat} (hl : limit ≠ some 0)
    {f : Option Gov.StatusFilter} {m : Moment} {page : List Response} {rs : List (Moment × List Response)}
    (h : ReadsOver (Moment.lists c f limit) (·.id) none ((m, page) :: rs))
    (hnext : Successive (fun m m' => Later c m.world m'.world) ((m, page) :: rs)) {id : Nat}
    (hid : match f with
      | none => 1 ≤ id ∧ id ≤ m.world.gov.pollCount
      | some .inProgress => False
      | some .passed => ∃ o n, outcome m.world id = some (.passed o n)
      | some .rejected => ∃ r, outcome m.world id = some (.rejected r)) :
    ∃ r ∈ (m, page) :: rs, ∃ x ∈ r.2, x.id = id := by
  have hf := C167_proposals hw ht hl f h
  have hre : ∀ r ∈ (m, page) :: rs, Reachable c r.1.world := fun r hr => by
    obtain ⟨_, h1, _⟩ := Pages.readsOver_q h r hr
    exact h1
  have hre0 := hre _ List.mem_cons_self
  have hsince := Pages.successive_all hnext (P := fun m' => Later c m.world m'.world) (fun _ _ h1 h2 => h2.trans h1) .refl
  have hpoll : ∃ p, m.world.gov.polls.get id = some p := by
    rcases f with _ | f
    · exact ((hre0.base hw ht).ctl.inv.ids id).2 hid
    · have : ∃ st, outcome m.world id = some st := by
        cases f with
        | inProgress => exact hid.elim
        | passed => obtain ⟨o, n, h⟩ := hid; exact ⟨_, h⟩
        | rejected => obtain ⟨r, h⟩ := hid; exact ⟨_, h⟩
      obtain ⟨st, h⟩ := this
      obtain ⟨i, p, _, hp, _⟩ := outcome_some h
      exact ⟨p, hp⟩
  obtain ⟨p, hp⟩ := hpoll
  refine hf.2.2 id fun r hr => ?_
  have hb := (hre r hr).base hw ht
  obtain ⟨p', hp', _⟩ := ((hsince r hr).moved hw ht hre0).1.polls id p hp
  obtain ⟨hr1, h5, h6⟩ := answer_ok hb (c.env r.1.ext r.1.world) hp'
  have hstays : ∀ st, outcome m.world id = some st → outcome r.1.world id = some st := fun st h =>
    outcome_later hw ht hre0 (hsince r hr) h
  refine ⟨_, ⟨?_, fun g hg => ?_⟩, h5⟩
  · unfold Moment.shows; rw [h5]; exact h6
  · obtain ⟨_, i, hi, hx⟩ := toResponse_id hr1
    have hpid := (hb.ctl.inv.pid _ _ hp').1
    rw [hpid] at hi
    have hexe : ∀ st, outcome r.1.world id = some st →
        (answer (c.env r.1.ext r.1.world) r.1.world.ctl r.1.world.gov p').status = .executed := by
      intro st h
      obtain ⟨i', p'', hi', _, hx', _⟩ := outcome_some h
      rw [hi] at hi'
      cases hi'
      exact hx.2 hx'
    subst hg
    cases g with
    | inProgress => exact hid.elim
    | passed =>
      obtain ⟨o, n, h⟩ := hid
      have h' := hstays _ h
      exact ⟨hexe _ h', o, n, by rw [h5]; exact h'⟩
    | rejected =>
      obtain ⟨o, h⟩ := hid
      have h' := hstays _ h
      exact ⟨hexe _ h', o, by rw [h5]; exact h'⟩

/-- C167: the votes on a proposal: nobody is listed twice, each vote is listed as the query for the member's vote returned it
at that moment, and whoever has a vote all the time is listed. -/
theorem C167_proposal_votes {c : Cfg} (hw : c.Wf) (ht : c.Tame) {limit : Option Nat} (hl : limit ≠ some 0) (id : Nat)
    {rs : List (World × List Gov.Vote)}
    (h : ReadsOver (fun w after page => Reachable c w ∧ queryProposalVotes w.gov id after limit = page) (·.voter) none rs) :
    Faithful (·.voter) (fun w v => queryMemberVote w.gov id v.voter = some v) rs := by
  refine Pages.faithful (· < ·) lt_irrefl (fun _ _ _ => lt_trans) (fun w after page hp => ?_) h
  have hpos := Pages.bound_pos hl (d := 50) (m := 100) (by decide) (by decide)
  rw [← hp.2]
  refine Pages.orderly_congr (Pages.orderly_poll_votes (limit := some (min (limit.getD 50) 100)) (fun h => by
    rw [Option.some.injEq] at h; omega) (page_small limit) id none (hp.1.base hw ht).ctl.gov.reachable after) fun x => ?_
  exact ⟨fun h => h.1, fun h => ⟨h, fun _ h => by cases h⟩⟩

/-- The proposals of the sample DAO after some steps, in pages of one. -/
def readNext (l : List Step) (after : Option Nat) : List Response :=
  ((queryProposals (sampleCfg.env sampleExt (sampleRun l)) (sampleRun l).ctl (sampleRun l).gov none after (some 1)).toOption).getD []

theorem runAll_append {c : Cfg} : ∀ (l l' : List Step) (w : World),
    runAll c w (l ++ l') = (runAll c w l).bind (fun w1 => runAll c w1 l')
  | [], _, _ => rfl
  | s :: l, l', w => by
    simp only [List.cons_append, runAll]
    cases s.run c w with
    | none => rfl
    | some w1 => exact runAll_append l l' w1

theorem sampleRun_later {l l' : List Step} (h : (runAll sampleCfg sampleGenesis (l ++ l')).isSome = true) :
    Later sampleCfg (sampleRun l) (sampleRun (l ++ l')) := by
  obtain ⟨w', hw'⟩ := Option.isSome_iff_exists.1 h
  have h2 : sampleRun (l ++ l') = w' := by unfold sampleRun; rw [hw']; rfl
  rw [h2]
  rw [runAll_append] at hw'
  obtain ⟨w1, h1, hr⟩ := Option.bind_eq_some_iff.1 hw'
  have h3 : sampleRun l = w1 := by unfold sampleRun; rw [h1]; rfl
  rw [h3]
  exact runAll_later _ .refl hr

/-- A reading in pages of one: proposal 1 is listed while it is voted on, then it is executed and another proposal is made,
which is listed on the second page. -/
example : ∃ ps : List (Moment × List Response), ReadsOver (Moment.lists sampleCfg none (some 1)) (·.id) none ps ∧
    Successive (fun m m' => Later sampleCfg m.world m'.world) ps ∧
    ps.map (fun r => r.2.map (fun x => (x.id, x.status))) = [[(1, .inProgress)], [(2, .inProgress)], []] := by
  have hq : ∀ l after, queryProposals (sampleCfg.env sampleExt (sampleRun l)) (sampleRun l).ctl (sampleRun l).gov none after
      (some 1) = .ok (readNext l after) := by
    intro l after
    obtain ⟨p, hp, _⟩ := C93_page sampleCfg_wf sampleCfg_tame (sampleRun_reachable l) sampleExt after (some 1)
    unfold readNext
    rw [hp]; rfl
  refine ⟨[(⟨sampleRun sampleVoted, sampleExt⟩, readNext sampleVoted none),
    (⟨sampleRun (sampleDone ++ [propose 12 []]), sampleExt⟩, readNext (sampleDone ++ [propose 12 []]) (some 1)),
    (⟨sampleRun (sampleDone ++ [propose 12 []]), sampleExt⟩, [])], ?_, ?_, by decide +kernel⟩
  · have h1 : (readNext sampleVoted none).map (·.id) = [1] := by decide +kernel
    have h2 : (readNext (sampleDone ++ [propose 12 []]) (some 1)).map (·.id) = [2] := by decide +kernel
    have h3 : (readNext (sampleDone ++ [propose 12 []]) (some 2)).map (·.id) = [] := by decide +kernel
    have one : ∀ {l : List Response} {n}, l.map (·.id) = [n] → ∃ x, l = [x] ∧ x.id = n := by
      intro l n h
      rcases l with _ | ⟨x, _ | ⟨y, t⟩⟩
      · cases h
      · exact ⟨x, rfl, by simpa using h⟩
      · simp at h
    obtain ⟨x1, e1, i1⟩ := one h1
    obtain ⟨x2, e2, i2⟩ := one h2
    have e3 : readNext (sampleDone ++ [propose 12 []]) (some 2) = [] := List.map_eq_nil_iff.1 h3
    refine .more (x := x1) ⟨sampleRun_reachable sampleVoted, hq _ _⟩ (by rw [e1]; rfl) ?_
    rw [i1]
    refine .more (x := x2) ⟨sampleRun_reachable (sampleDone ++ [propose 12 []]), hq _ _⟩ (by rw [e2]; rfl) ?_
    rw [i2]
    refine .stop ⟨sampleRun_reachable (sampleDone ++ [propose 12 []]), ?_⟩
    rw [← e3]; exact hq _ _
  · have h : sampleDone ++ [propose 12 []] = sampleVoted ++ [at_ 20, execute 13 1, propose 12 []] := by
      unfold sampleDone; rw [List.append_assoc]; rfl
    refine ⟨?_, .refl, trivial⟩
    show Later sampleCfg (sampleRun sampleVoted) (sampleRun (sampleDone ++ [propose 12 []]))
    rw [h]
    exact sampleRun_later (by decide +kernel)

end Verif.Dao
