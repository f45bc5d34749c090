import Verif.Controller.Queries
import Verif.Dao.Lemmas2
import Verif.Dao.Sample
import Verif.Pages.Props

/-!
# The contracts of a DAO together: lists of proposals and of votes (C93, C94)
-/

set_option linter.unusedSimpArgs false

namespace Verif.Dao
open Verif
open Verif.Controller (queryProposal queryProposals queryProposalVotes queryMemberVote toResponse Response)
open Verif.Pages (Full Past Until)

/-! ### Lemmas -/

theorem page_small (limit : Option Nat) : ∀ n, some (min (limit.getD 50) 100) = some n → n < 2 ^ 32 := by
  intro n hn
  cases hn
  omega

/-- The status of a stored proposal can always be determined. -/
theorem fixStatus_total (e : Controller.Env) (s : Controller.State) (g : Gov.State) (i : Controller.Info) {p : Gov.Poll}
    (hp : g.polls.get p.id = some p) : ∃ st, Controller.fixStatus e s g p.id p.status i = .ok st := by
  have hsim : ∀ m, Gov.simulateEnd g p.id m = .ok (p.finalStatus m) :=
    fun m => Controller.simulateEnd_ok_iff.2 ⟨p, hp, rfl⟩
  unfold Controller.fixStatus
  split
  · exact ⟨_, rfl⟩
  · split
    · exact ⟨_, rfl⟩
    · exact ⟨_, rfl⟩
    · split
      · unfold Controller.finalStatus
        rw [hsim]
        simp only [bind, Except.bind]
        split
        · rename_i h
          exact absurd h (Gov.finalStatus_not_inProgress _ _ _)
        · exact ⟨_, rfl⟩
        · exact ⟨_, rfl⟩
      · split
        · rw [hsim]; exact ⟨_, rfl⟩
        · exact ⟨_, rfl⟩

/-- The executed status is reported for executed proposals only. -/
theorem fixStatus_executed {e : Controller.Env} {s : Controller.State} {g : Gov.State} {i : Controller.Info} {id : Nat}
    {st : Gov.Status} {x : Controller.PStatus} (h : Controller.fixStatus e s g id st i = .ok x) :
    x = .executed ↔ i.executedAt.isSome = true := by
  unfold Controller.fixStatus at h
  split at h
  · rename_i h1; cases h; simp [h1]
  · rename_i h1
    have hne : x ≠ .executed := by
      intro hx
      subst hx
      split at h
      · cases h
      · cases h
      · split at h
        · unfold Controller.finalStatus at h
          obtain ⟨y, _, h⟩ := bind_ok_iff.1 h
          split at h <;> cases h
        · split at h
          · obtain ⟨y, _, h⟩ := bind_ok_iff.1 h
            unfold Controller.earlyStatus at h
            split at h <;> cases h
          · cases h
    simp [hne, h1]

theorem toResponse_id {e : Controller.Env} {s : Controller.State} {g : Gov.State} {p : Gov.Poll} {x : Response}
    (h : toResponse e s g p = .ok x) : x.id = p.id ∧
      ∃ i, s.infos.get p.id = some i ∧ (x.status = .executed ↔ i.executedAt.isSome = true) := by
  unfold toResponse at h
  cases hi : s.infos.get p.id with
  | none => rw [hi] at h; cases h
  | some i =>
    rw [hi] at h
    simp only [bind_ok_iff, pure_ok_iff] at h
    obtain ⟨st, hst, rfl⟩ := h
    exact ⟨rfl, i, rfl, fixStatus_executed hst⟩

/-- The answer for one poll. -/
noncomputable def answer (e : Controller.Env) (s : Controller.State) (g : Gov.State) (p : Gov.Poll) : Response :=
  match toResponse e s g p with
  | .ok r => r
  | .error _ => ⟨.general, p.id, 0, 0, 0, .inProgress, 0, 0, [], Map.empty, 0⟩

theorem answer_ok {c : Cfg} {w : World} (hb : Base c w) (e : Controller.Env) {i : Nat} {p : Gov.Poll}
    (hp : w.gov.polls.get i = some p) : toResponse e w.ctl w.gov p = .ok (answer e w.ctl w.gov p) ∧
      (answer e w.ctl w.gov p).id = i ∧ queryProposal e w.ctl w.gov i = .ok (answer e w.ctl w.gov p) := by
  have hid := (hb.ctl.inv.pid i p hp).1
  subst hid
  have hhas : w.ctl.infos.has p.id = true := by rw [hb.ctl.infos]; exact Map.has_iff.2 ⟨p, hp⟩
  obtain ⟨inf, hinf⟩ := Map.has_iff.1 hhas
  obtain ⟨st, hst⟩ := fixStatus_total e w.ctl w.gov inf hp
  have hr : toResponse e w.ctl w.gov p = .ok (answer e w.ctl w.gov p) := by
    have : ∃ r, toResponse e w.ctl w.gov p = .ok r := by
      unfold toResponse
      rw [hinf]
      simp only [hst]
      exact ⟨_, rfl⟩
    obtain ⟨r, hr⟩ := this
    unfold answer
    rw [hr]
  refine ⟨hr, (toResponse_id hr).1, ?_⟩
  unfold queryProposal
  rw [bind_ok_iff]
  exact ⟨p, Controller.queryPoll_ok_iff.2 hp, hr⟩

theorem listResponses_ok {c : Cfg} {w : World} (hb : Base c w) (e : Controller.Env) (l : List Gov.Poll)
    (hl : ∀ p ∈ l, ∃ i, w.gov.polls.get i = some p) :
    Controller.listResponses e w.ctl w.gov l = .ok (l.map (answer e w.ctl w.gov)) := by
  induction l with
  | nil => rfl
  | cons p t ih =>
    obtain ⟨i, hp⟩ := hl p List.mem_cons_self
    obtain ⟨h1, h2, _⟩ := answer_ok hb e hp
    obtain ⟨_, inf, hinf, _⟩ := toResponse_id h1
    unfold Controller.listResponses
    rw [hinf]
    simp only [h1, ih (fun q hq => hl q (List.mem_cons_of_mem _ hq))]
    rfl

theorem queryProposals_ok {c : Cfg} {w : World} (hb : Base c w) (e : Controller.Env) (f : Option Gov.StatusFilter)
    (after limit : Option Nat) :
    queryProposals e w.ctl w.gov f after limit =
      .ok ((Gov.queryPolls w.gov f after none (some (min (limit.getD 50) 100)) false).map (answer e w.ctl w.gov)) := by
  refine listResponses_ok hb e _ (fun p hp => ?_)
  obtain ⟨i, hi, _⟩ := (Pages.C88_polls _ _ _ _ _ _ (page_small limit)).2.1 p hp
  exact ⟨i, hi⟩

/-- A poll is among those with the stored status asked for. -/
def Listed (f : Option Gov.StatusFilter) (p : Gov.Poll) : Prop := ∀ x, f = some x → p.status.shows x = true

theorem full_proposals {c : Cfg} {w : World} (hb : Base c w) (e : Controller.Env) (f : Option Gov.StatusFilter)
    (after limit : Option Nat) :
    ∃ l, queryProposals e w.ctl w.gov f after limit = .ok l ∧
      Full l (min (limit.getD 50) 100)
        (fun x => queryProposal e w.ctl w.gov x.id = .ok x ∧ Past after x.id ∧
          ∃ p, w.gov.polls.get x.id = some p ∧ Listed f p) := by
  refine ⟨_, queryProposals_ok hb e f after limit, ?_⟩
  obtain ⟨h1, h2, h3⟩ := Pages.C88_polls w.gov f after none (some (min (limit.getD 50) 100)) false (page_small limit)
  refine ⟨by rw [List.length_map]; exact h1 _ rfl, fun x hx => ?_, fun hl x hx => ?_⟩
  · obtain ⟨p, hp, rfl⟩ := List.mem_map.1 hx
    obtain ⟨i, hi, hf, ha, _⟩ := h2 p hp
    obtain ⟨_, h5, h6⟩ := answer_ok hb e hi
    rw [h5]
    exact ⟨h6, ha, p, hi, hf⟩
  · obtain ⟨hq, ha, p, hp, hf⟩ := hx
    obtain ⟨_, _, h6⟩ := answer_ok hb e hp
    rw [hq] at h6
    cases h6
    exact List.mem_map_of_mem (h3 (fun n hn => (by cases hn; rwa [List.length_map] at hl)) p
      ⟨_, hp, hf, ha, fun _ h => (by cases h)⟩)

/-! ## C93 -/

/-- The list of proposals always answers. A page has at most `min (limit or 50) 100` proposals, each exactly as the
query for it alone returns it and past the cursor, and it is shorter only when it has all of these. -/
theorem C93_page {c : Cfg} (hw : c.Wf) (ht : c.Tame) {w : World} (h : Reachable c w) (e : Ext) (after limit : Option Nat) :
    ∃ l, queryProposals (c.env e w) w.ctl w.gov none after limit = .ok l ∧
      Full l (min (limit.getD 50) 100)
        (fun x => queryProposal (c.env e w) w.ctl w.gov x.id = .ok x ∧ Past after x.id) := by
  obtain ⟨l, h1, h2⟩ := full_proposals (h.base hw ht) (c.env e w) none after limit
  refine ⟨l, h1, Pages.full_congr h2 fun x => ⟨fun hx => ⟨hx.1, hx.2.1⟩, fun hx => ⟨hx.1, hx.2, ?_⟩⟩⟩
  have hq := hx.1
  unfold queryProposal at hq
  obtain ⟨p, hp, _⟩ := bind_ok_iff.1 hq
  exact ⟨p, Controller.queryPoll_ok_iff.1 hp, fun _ h => (by cases h)⟩

/-- Read page by page with any positive limit, each page after the last proposal received, the list comes to an end and
gives the proposals numbered 1 to the number of proposals, each once and in this order. -/
theorem C93_all_pages {c : Cfg} (hw : c.Wf) (ht : c.Tame) {w : World} (h : Reachable c w) (e : Ext) {limit : Option Nat}
    (hl : limit ≠ some 0) :
    ∃ query : Option Nat → List Response,
      (∀ after, queryProposals (c.env e w) w.ctl w.gov none after limit = .ok (query after)) ∧
      (∃ ps, Reads query (·.id) none ps) ∧
      ∀ ps, Reads query (·.id) none ps →
        (ps.flatten.map (·.id)).Pairwise (· < ·) ∧
        (∀ n, n ∈ ps.flatten.map (·.id) ↔ 1 ≤ n ∧ n ≤ w.gov.pollCount) ∧
        ∀ x ∈ ps.flatten, queryProposal (c.env e w) w.ctl w.gov x.id = .ok x := by
  have hb := h.base hw ht
  have hi := hb.ctl.inv
  have hn : 0 < min (limit.getD 50) 100 := by
    cases limit with
    | none => decide
    | some n =>
      have : n ≠ 0 := fun h0 => hl (by rw [h0])
      simp only [Option.getD_some]
      omega
  have hcur : ∀ x ∈ w.gov.polls.entries, (answer (c.env e w) w.ctl w.gov x.2).id = x.1 := fun x hx =>
    (answer_ok hb _ (Map.get_eq_some_iff.2 hx)).2.1
  have heq : (fun after => (Gov.queryPolls w.gov none after none (some (min (limit.getD 50) 100)) false).map
      (answer (c.env e w) w.ctl w.gov)) =
      fun a => (w.gov.polls.page a (min (limit.getD 50) 100)).map (fun x => answer (c.env e w) w.ctl w.gov x.2) := by
    funext a
    unfold Gov.queryPolls
    simp only [Gov.ranged_eq_page _ _ (show min (limit.getD 50) 100 < 2 ^ 32 by omega), List.map_map]
    rfl
  obtain ⟨h1, h2⟩ := reads_all (m := w.gov.polls) (g := fun x => answer (c.env e w) w.ctl w.gov x.2) (cur := (·.id)) hcur hn
  refine ⟨_, fun after => queryProposals_ok hb _ none after limit, ?_, ?_⟩
  · rw [heq]; exact h1
  · intro ps hps
    rw [heq] at hps
    rw [h2 ps hps]
    have hmap : (w.gov.polls.entries.map (fun x => answer (c.env e w) w.ctl w.gov x.2)).map (·.id) =
        w.gov.polls.entries.map (·.1) := by
      rw [List.map_map]
      exact List.map_congr_left hcur
    refine ⟨?_, fun n => ?_, fun x hx => ?_⟩
    · rw [hmap, List.pairwise_map]
      exact w.gov.polls.sorted
    · rw [hmap, ← hi.ids n, List.mem_map]
      constructor
      · rintro ⟨x, hx, rfl⟩; exact ⟨x.2, Map.get_eq_some_iff.2 hx⟩
      · rintro ⟨p, hp⟩; exact ⟨(n, p), Map.get_eq_some_iff.1 hp, rfl⟩
    · obtain ⟨y, hy, rfl⟩ := List.mem_map.1 hx
      obtain ⟨_, h5, h6⟩ := answer_ok hb (c.env e w) (Map.get_eq_some_iff.2 hy)
      rw [h5]
      exact h6

/-- The votes listed for a proposal are those that the query for one member returns. -/
theorem C93_votes {c : Cfg} (hw : c.Wf) (ht : c.Tame) {w : World} (h : Reachable c w) (id : Nat) (after : Option Addr)
    (limit : Option Nat) :
    Full (queryProposalVotes w.gov id after limit) (min (limit.getD 50) 100)
      (fun v => queryMemberVote w.gov id v.voter = some v ∧ Past after v.voter) := by
  have hg := (h.base hw ht).ctl.gov.reachable
  obtain ⟨h1, h2, h3⟩ := Pages.C88_poll_votes hg id after none (some (min (limit.getD 50) 100)) false (page_small limit)
  refine ⟨h1 _ rfl, fun v hv => ?_, fun hl v hv => h3 (fun n hn => (by cases hn; exact hl)) v
    ⟨v.voter, hv.1, hv.2, fun _ h => (by cases h)⟩⟩
  obtain ⟨u, h4, h5, _⟩ := h2 v hv
  have := (hg.inv.vkeys _ v h4).1
  rw [(Gov.vkey_inj.1 this).1] at h4 h5
  exact ⟨h4, h5⟩

/-- Two proposals and two votes in the sample, in pages of one. -/
example : let w := sampleRun (sampleVoted ++ [propose 12 []])
    ((queryProposals (sampleCfg.env sampleExt w) w.ctl w.gov none none (some 1)).toOption.map (·.map (·.id)),
     (queryProposals (sampleCfg.env sampleExt w) w.ctl w.gov none (some 1) (some 1)).toOption.map (·.map (·.id)),
     (queryProposals (sampleCfg.env sampleExt w) w.ctl w.gov none (some 2) (some 1)).toOption.map (·.map (·.id)),
     (queryProposalVotes w.gov 1 none none).map (fun v => (v.voter, v.amount))) =
    (some [1], some [2], some [], [(10, 60), (11, 40)]) := by decide +kernel

/-! ## C94 -/

/-- What the filters select: proposals not executed, and executed proposals by their result. -/
def Selected (w : World) : Gov.StatusFilter → Response → Prop
  | .inProgress, x => x.status ≠ .executed
  | .passed, x => x.status = .executed ∧ ∃ o n, outcome w x.id = some (.passed o n)
  | .rejected, x => x.status = .executed ∧ ∃ r, outcome w x.id = some (.rejected r)

/-- What the status filter of the list does select: "in progress" every proposal that was not executed, "passed" and
"rejected" the executed proposals with that result.
Missing from C94: the filter does not select by the status that is reported for proposals, see
`C94_filter_witness`. -/
theorem C94_filter_partial {c : Cfg} (hw : c.Wf) (ht : c.Tame) {w : World} (h : Reachable c w) (e : Ext)
    (f : Gov.StatusFilter) (after limit : Option Nat) :
    ∃ l, queryProposals (c.env e w) w.ctl w.gov (some f) after limit = .ok l ∧
      Full l (min (limit.getD 50) 100)
        (fun x => queryProposal (c.env e w) w.ctl w.gov x.id = .ok x ∧ Past after x.id ∧ Selected w f x) := by
  have hb := h.base hw ht
  obtain ⟨l, h1, h2⟩ := full_proposals hb (c.env e w) (some f) after limit
  refine ⟨l, h1, Pages.full_congr h2 fun x => ?_⟩
  have key : ∀ p, queryProposal (c.env e w) w.ctl w.gov x.id = .ok x → w.gov.polls.get x.id = some p →
      (Listed (some f) p ↔ Selected w f x) := by
    intro p hq hp
    unfold queryProposal at hq
    obtain ⟨p', hp', hr⟩ := bind_ok_iff.1 hq
    rw [Controller.queryPoll_ok_iff.1 hp'] at hp
    cases hp
    have hp := Controller.queryPoll_ok_iff.1 hp'
    obtain ⟨hid, i, hi, hx⟩ := toResponse_id hr
    rw [← hid] at hi
    have he := hb.ctl.ended x.id i p hi hp
    have hout : outcome w x.id = if i.executedAt.isSome = true then some p.status else none := by
      unfold outcome; rw [hi, hp]
    have hne : x.status ≠ .executed ↔ i.executedAt.isSome = false := by rw [ne_eq, hx]; simp
    unfold Listed
    simp only [Option.some.injEq, forall_eq']
    cases hxe : i.executedAt with
    | none =>
      obtain ⟨y, hy⟩ := he.1 hxe
      cases f <;> simp only [Selected, hout, hx, hne, hxe] <;> simp [Gov.Status.shows, hy]
    | some b =>
      have hnl : ¬ p.live := fun hl => by
        rw [he.2 hl] at hxe; cases hxe
      cases hs : p.status with
      | inProgress y => exact absurd ⟨y, hs⟩ hnl
      | passed o n => cases f <;> simp only [Selected, hout, hx, hne, hxe] <;> simp [Gov.Status.shows, hs]
      | rejected r => cases f <;> simp only [Selected, hout, hx, hne, hxe] <;> simp [Gov.Status.shows, hs]
  constructor
  · rintro ⟨a, b, p, hp, hf⟩; exact ⟨a, b, (key p a hp).1 hf⟩
  · rintro ⟨a, b, hf⟩
    have a' := a
    unfold queryProposal at a'
    obtain ⟨p, hp, _⟩ := bind_ok_iff.1 a'
    have hp := Controller.queryPoll_ok_iff.1 hp
    exact ⟨a, b, p, hp, (key p a hp).2 hf⟩

/-- The numbers and statuses of the proposals listed with a filter, after a run of the sample. -/
def listed (l : List Step) (f : Gov.StatusFilter) : Option (List (Nat × Controller.PStatus)) :=
  (queryProposals (sampleCfg.env sampleExt (sampleRun l)) (sampleRun l).ctl (sampleRun l).gov (some f) none none).toOption.map
    (·.map (fun x => (x.id, x.status)))

/-- A proposal that has passed, and is reported as passed, is not in the list of passed proposals, but in the list of
those in progress; once it is executed, and reported as executed, it is in the list of passed proposals. -/
theorem C94_filter_witness :
    Reachable sampleCfg (sampleRun (sampleVoted ++ [at_ 102])) ∧
    listed (sampleVoted ++ [at_ 102]) .passed = some [] ∧
    listed (sampleVoted ++ [at_ 102]) .inProgress = some [(1, .passed)] ∧
    listed sampleDone .passed = some [(1, .executed)] := by
  exact ⟨sampleRun_reachable _, by decide +kernel⟩

/-- With two proposals, one executed: each filter lists its own. -/
example : listed (sampleDone ++ [propose 12 []]) .passed = some [(1, .executed)] ∧
    (listed (sampleDone ++ [propose 12 []]) .inProgress).map (·.map (·.1)) = some [2] ∧
    listed (sampleDone ++ [propose 12 []]) .rejected = some [] := by decide +kernel

end Verif.Dao
