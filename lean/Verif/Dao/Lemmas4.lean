import Verif.Dao.Lemmas3

/-!
# The contracts of a DAO together: votes and weights
-/

set_option linter.unusedSimpArgs false

namespace Verif.Dao
open Verif
open Verif.Controller (DaoType Transfer Sub Info)
open Verif.Staking (Explains)
open Verif.Gov (vkey openAt votedTotal)

/-! ### Sums -/

/-- Any users without repetition together weigh at most the sum of all weights. -/
theorem weights_le (l : List Addr) (hn : l.Nodup) (W : Map Addr Nat) :
    (l.map (fun u => (W.get u).getD 0)).sum ≤ W.sum (fun _ x => x) := by
  induction l generalizing W with
  | nil => simp
  | cons a t ih =>
    rw [List.nodup_cons] at hn
    have h1 := ih hn.2 (W.remove a)
    have h2 := Map.sum_remove W (fun _ x => x) a
    have h3 : t.map (fun u => ((W.remove a).get u).getD 0) = t.map (fun u => (W.get u).getD 0) := by
      apply List.map_congr_left
      intro u hu
      have : ¬ a = u := by rintro rfl; exact hn.1 hu
      rw [Map.get_remove, if_neg this]
    rw [h3] at h1
    rw [List.map_cons, List.sum_cons]
    have h4 : Map.contrib (fun _ x => x) a (W.get a) = (W.get a).getD 0 := by cases W.get a <;> rfl
    rw [h4] at h2
    omega

/-- The votes recorded on a poll. -/
def votesOn (g : Gov.State) (id : Nat) : List Gov.Vote := g.votes.values.filter (fun v => decide (v.pollId = id))

theorem votedTotal_eq_sum (g : Gov.State) (id : Nat) : votedTotal g id = ((votesOn g id).map (·.amount)).sum := by
  unfold votedTotal votesOn Map.sum Map.values
  generalize g.votes.entries = l
  induction l with
  | nil => rfl
  | cons e t ih =>
    rw [List.map_cons, List.sum_cons, ih, List.map_cons, List.filter_cons]
    by_cases h : e.2.pollId = id <;> simp [h]

theorem votesOn_nodup {g : Gov.State} (hi : Gov.Inv g) (id : Nat) : ((votesOn g id).map (·.voter)).Nodup := by
  have hs := g.votes.sorted
  have hk : ∀ e ∈ g.votes.entries, e.1 = vkey e.2.voter e.2.pollId :=
    fun e he => (hi.vkeys _ _ (Map.get_eq_some_iff.2 he)).1
  unfold votesOn Map.values
  rw [List.filter_map, List.map_map]
  refine (List.pairwise_map.2 ?_ : List.Nodup _)
  refine List.Pairwise.imp_of_mem ?_ (List.Pairwise.filter _ hs)
  intro a b ha hb hab he
  obtain ⟨ha1, ha2⟩ := List.mem_filter.1 ha
  obtain ⟨hb1, hb2⟩ := List.mem_filter.1 hb
  have ha2 : a.2.pollId = id := by simpa using ha2
  have hb2 : b.2.pollId = id := by simpa using hb2
  have : a.1 = b.1 := by
    rw [hk a ha1, hk b hb1, ha2, hb2]
    exact congrArg (fun x => vkey x id) he
  exact absurd this (ne_of_lt hab)

theorem mem_votesOn {g : Gov.State} (hi : Gov.Inv g) {id : Nat} {v : Gov.Vote} (h : v ∈ votesOn g id) :
    g.votes.get (vkey v.voter id) = some v ∧ v.pollId = id := by
  unfold votesOn Map.values at h
  obtain ⟨h1, h2⟩ := List.mem_filter.1 h
  obtain ⟨e, he, rfl⟩ := List.mem_map.1 h1
  have h2 : e.2.pollId = id := by simpa using h2
  have hg := Map.get_eq_some_iff.2 he
  have hk := (hi.vkeys _ _ hg).1
  rw [hk, h2] at hg
  exact ⟨hg, h2⟩

/-- Votes that carry the weight of their voters do not exceed the sum of the weights. -/
theorem votedTotal_le {g : Gov.State} (hi : Gov.Inv g) {id : Nat} {m : Members}
    (h : ∀ u v, g.votes.get (vkey u id) = some v → v.amount = m.weight u) : votedTotal g id ≤ m.wsum := by
  rw [votedTotal_eq_sum]
  have h1 : (votesOn g id).map (·.amount) = ((votesOn g id).map (·.voter)).map (fun u => (m.weights.get u).getD 0) := by
    rw [List.map_map]
    apply List.map_congr_left
    intro v hv
    exact h v.voter v (mem_votesOn hi hv).1
  rw [h1]
  exact weights_le _ (votesOn_nodup hi id) _

/-- The total only depends on the votes on the poll. -/
theorem votedTotal_congr {g g' : Gov.State} (hi : Gov.Inv g) (hi' : Gov.Inv g') {id : Nat}
    (h : ∀ u, g'.votes.get (vkey u id) = g.votes.get (vkey u id)) : votedTotal g' id = votedTotal g id := by
  have key : ∀ {x : Gov.State}, Gov.Inv x → votedTotal x id =
      (x.votes.filter (fun _ v => decide (v.pollId = id))).sum (fun _ v => v.amount) := by
    intro x _
    unfold votedTotal Map.sum Map.filter
    simp only
    generalize x.votes.entries = l
    induction l with
    | nil => rfl
    | cons e t ih =>
      rw [List.map_cons, List.sum_cons, ih, List.filter_cons]
      by_cases hx : e.2.pollId = id <;> simp [hx]
  rw [key hi, key hi']
  congr 1
  apply Map.ext_get
  intro k
  have hx : ∀ {x y : Gov.State}, Gov.Inv x → (∀ u, y.votes.get (vkey u id) = x.votes.get (vkey u id)) → ∀ v,
      (x.votes.filter (fun _ v => decide (v.pollId = id))).get k = some v →
      y.votes.get k = some v ∧ v.pollId = id := by
    intro x y hx hy v hv
    have he := Map.get_eq_some_iff.1 hv
    obtain ⟨h1, h2⟩ := List.mem_filter.1 he
    have h2 : v.pollId = id := by simpa using h2
    have hg := Map.get_eq_some_iff.2 h1
    have hk := (hx.vkeys _ _ hg).1
    rw [h2] at hk
    rw [hk, hy, ← hk]
    exact ⟨hg, h2⟩
  have hback : ∀ {x : Gov.State} {v}, x.votes.get k = some v → v.pollId = id →
      (x.votes.filter (fun _ v => decide (v.pollId = id))).get k = some v := by
    intro x v hg h2
    refine Map.get_eq_some_iff.2 (List.mem_filter.2 ⟨Map.get_eq_some_iff.1 hg, ?_⟩)
    simpa using h2
  cases h1 : (g'.votes.filter (fun _ v => decide (v.pollId = id))).get k with
  | some v =>
    obtain ⟨a, b⟩ := hx (y := g) hi' (fun u => (h u).symm) v h1
    rw [hback a b]
  | none =>
    cases h2 : (g.votes.filter (fun _ v => decide (v.pollId = id))).get k with
    | none => rfl
    | some v =>
      obtain ⟨a, b⟩ := hx (y := g') hi h v h2
      rw [hback a b] at h1
      cases h1

/-! ### Reports of new weights -/

/-- One `UpdateVotes`. -/
theorem updateVotes_votes {g g' : Gov.State} (hi : Gov.Inv g) {now : Nat}
    (hst : ∀ i p, g.polls.get i = some p → p.startedAt ≤ now) {voter : Addr} {a : Nat} (ha : a < M128)
    (h : Gov.updateVotes g now voter a = .ok g') :
    (∀ id, openAt g now id → ∀ u, g'.votes.get (vkey u id) = if u = voter
      then (g.votes.get (vkey u id)).map (fun v => { v with amount := a }) else g.votes.get (vkey u id)) ∧
    (∀ id, ¬ openAt g now id → ∀ u, g'.votes.get (vkey u id) = g.votes.get (vkey u id)) ∧
    (∀ id, openAt g' now id ↔ openAt g now id) := by
  have hsp := Gov.votesOf_spec hi voter
  obtain ⟨s', h1, h2, h3, _⟩ := Gov.updateLoop ha (Gov.votesOf g voter) g hi hst hsp.1 hsp.2.1
  have : g' = s' := by
    unfold Gov.updateVotes at h
    rw [h1] at h
    cases h; rfl
  subst this
  refine ⟨fun id ho u => ?_, fun id ho u => ?_, fun id => ?_⟩
  · rw [h2]
    by_cases hu : u = voter
    · subst hu
      rw [if_pos rfl]
      by_cases hm : id ∈ (Gov.votesOf g u).map (·.pollId)
      · rw [if_pos ⟨rfl, hm, ho⟩]
      · rw [if_neg (fun hh => hm hh.2.1)]
        cases hg : g.votes.get (vkey u id) with
        | none => rfl
        | some v => exact absurd ((hsp.2.2 id).2 ⟨v, hg⟩) hm
    · rw [if_neg (fun hh => hu hh.1), if_neg hu]
  · rw [h2, if_neg (fun hh => ho hh.2.2)]
  · unfold openAt
    have ho := outline_updateVotes h
    constructor
    · rintro ⟨p', hp', hl, he⟩
      obtain ⟨p, hp, ht, hs⟩ := outline_get ho hp'
      exact ⟨p, hp, (live_congr hs).1 hl, by rw [← Gov.terms_endsAt ht]; exact he⟩
    · rintro ⟨p, hp, hl, he⟩
      obtain ⟨p', hp', ht, hs⟩ := outline_get (fun i => (ho i).symm) hp
      exact ⟨p', hp', (live_congr hs).1 hl, by rw [← Gov.terms_endsAt ht]; exact he⟩

/-- All the reports of a message. -/
theorem updateAll_track {e : Controller.Env} {s : Controller.State} : ∀ (l : List WeightChange) {g g' : Gov.State}
    {f f' : Addr → Nat}, (∀ c ∈ l, c.new < M128) → CtlInv e.self e.daoType e.block.time s g →
    Controller.updateAllVotes e g l = .ok g' → Explains f l f' →
    (∀ id, openAt g' e.block.time id ↔ openAt g e.block.time id) ∧
    (∀ id, openAt g e.block.time id → (∀ u v, g.votes.get (vkey u id) = some v → v.amount = f u) →
      ∀ u v, g'.votes.get (vkey u id) = some v → v.amount = f' u) ∧
    (∀ id, ¬ openAt g e.block.time id → ∀ u, g'.votes.get (vkey u id) = g.votes.get (vkey u id)) := by
  intro l
  induction l with
  | nil =>
    intro g g' f f' _ h hx hf
    cases hx
    refine ⟨fun _ => Iff.rfl, fun id ho ht u v hv => ?_, fun _ _ _ => rfl⟩
    rw [ht u v hv]
    exact (hf u).symm
  | cons c t ih =>
    intro g g' f f' hl h hx hf
    have hone : ∃ g1, Controller.updateAllVotes e g [c] = .ok g1 ∧ Controller.updateAllVotes e g1 t = .ok g' ∧
        Gov.updateVotes g e.block.time c.user c.new = .ok g1 := by
      unfold Controller.updateAllVotes at hx ⊢
      rw [foldlM_cons_ok_iff] at hx
      obtain ⟨g1, h1, h2⟩ := hx
      refine ⟨g1, by rw [foldlM_cons_ok_iff]; exact ⟨g1, h1, rfl⟩, h2, ?_⟩
      unfold Gov.exec at h1
      rw [ite_ok_iff] at h1
      exact h1.2
    obtain ⟨g1, h1, h2, h3⟩ := hone
    have hc := hl c List.mem_cons_self
    obtain ⟨a1, a2, a3⟩ := updateVotes_votes h.inv h.started hc h3
    have hi1 := (updateAll_inv [c] (fun x hx => by rw [List.mem_singleton.1 hx]; exact hc) h h1).1
    obtain ⟨b1, b2, b3⟩ := ih (fun x hx => hl x (List.mem_cons_of_mem _ hx)) hi1 h2 hf.2
    refine ⟨fun id => (b1 id).trans (a3 id), fun id ho ht => b2 id ((a3 id).2 ho) ?_, fun id ho u => ?_⟩
    · intro u v hv
      rw [a1 id ho u] at hv
      by_cases hu : u = c.user
      · rw [if_pos hu] at hv ⊢
        cases hg : g.votes.get (vkey u id) with
        | none => rw [hg] at hv; cases hv
        | some v0 => rw [hg] at hv; cases hv; rfl
      · rw [if_neg hu] at hv ⊢
        exact ht u v hv
    · rw [b3 id (fun hh => ho ((a3 id).1 hh)), a2 id ho]

/-! ### Invariant -/

/-- Votes on open general proposals carry the current weights. -/
structure Tally (w : World) : Prop where
  track : ∀ id i, w.ctl.infos.get id = some i → i.type = .general → openAt w.gov w.block.time id →
    ∀ u v, w.gov.votes.get (vkey u id) = some v → v.amount = w.mem.weight u
  fits : ∀ id i, w.ctl.infos.get id = some i → i.type = .general → votedTotal w.gov id < M128

/-- A step keeps the invariant if open proposals are tracked after it, and other votes stay. -/
theorem Tally.step {c : Cfg} {w w1 : World} (h : Tally w) (hb : Base c w) (hb1 : Base c w1)
    (hinf : ∀ id i, w1.ctl.infos.get id = some i → i.type = .general →
      (∃ j, w.ctl.infos.get id = some j ∧ j.type = .general) ∨ ∀ u, w1.gov.votes.get (vkey u id) = none)
    (ht : ∀ id, (∃ j, w.ctl.infos.get id = some j ∧ j.type = .general) → openAt w1.gov w1.block.time id →
      ∀ u v, w1.gov.votes.get (vkey u id) = some v → v.amount = w1.mem.weight u)
    (hs : ∀ id, (∃ j, w.ctl.infos.get id = some j ∧ j.type = .general) → ¬ openAt w1.gov w1.block.time id →
      ∀ u, w1.gov.votes.get (vkey u id) = w.gov.votes.get (vkey u id)) : Tally w1 := by
  have htrack : ∀ id i, w1.ctl.infos.get id = some i → i.type = .general → openAt w1.gov w1.block.time id →
      ∀ u v, w1.gov.votes.get (vkey u id) = some v → v.amount = w1.mem.weight u := by
    intro id i hi hg ho u v hv
    rcases hinf id i hi hg with hj | hn
    · exact ht id hj ho u v hv
    · rw [hn u] at hv; cases hv
  refine ⟨htrack, fun id i hi hg => ?_⟩
  by_cases ho : openAt w1.gov w1.block.time id
  · have := votedTotal_le hb1.ctl.inv (id := id) (m := w1.mem.mem)
      (fun u v hv => by rw [htrack id i hi hg ho u v hv, Member.weight_eq])
    exact lt_of_le_of_lt this hb1.mem.small
  · rcases hinf id i hi hg with ⟨j, hj, hjg⟩ | hn
    · rw [votedTotal_congr hb.ctl.inv hb1.ctl.inv (hs id ⟨j, hj, hjg⟩ ho)]
      exact h.fits id j hj hjg
    · have := votedTotal_le hb1.ctl.inv (id := id) (m := w1.mem.mem)
        (fun u v hv => by rw [hn u] at hv; cases hv)
      exact lt_of_le_of_lt this hb1.mem.small

/-- Steps that leave votes and weights alone. -/
theorem Tally.quiet {c : Cfg} {w w1 : World} (h : Tally w) (hb : Base c w) (hb1 : Base c w1)
    (hinf : ∀ id i, w1.ctl.infos.get id = some i → i.type = .general →
      (∃ j, w.ctl.infos.get id = some j ∧ j.type = .general) ∨ ∀ u, w1.gov.votes.get (vkey u id) = none)
    (hv : w1.gov.votes = w.gov.votes) (hm : ∀ u, w1.mem.weight u = w.mem.weight u)
    (ho : ∀ id, (∃ j, w.ctl.infos.get id = some j) → openAt w1.gov w1.block.time id →
      openAt w.gov w.block.time id) : Tally w1 := by
  refine h.step hb hb1 hinf ?_ (fun _ _ _ _ => by rw [hv])
  rintro id ⟨j, hj, hg⟩ hop u v hx
  rw [hv] at hx
  rw [h.track id j hj hg (ho id ⟨j, hj⟩ hop) u v hx, hm]

/-- A vote. -/
theorem Tally.vote {c : Cfg} {w w1 : World} (h : Tally w) (hb : Base c w) (hb1 : Base c w1)
    (hinf : ∀ id i, w1.ctl.infos.get id = some i → i.type = .general →
      ∃ j, w.ctl.infos.get id = some j ∧ j.type = .general)
    {id : Nat} {o : Gov.Outcome} {u : Addr} {a : Nat} (hblk : w1.block = w.block) (hmem : w1.mem = w.mem)
    (hx : Gov.castVote w.gov w.block.time id o u a = .ok w1.gov)
    (ha : a = w.mem.weight u ∨ ∀ i, w.ctl.infos.get id = some i → i.type ≠ .general) : Tally w1 := by
  have hop := Gov.openAt_castVote hx
  obtain ⟨_, _, p, hp, hl, _, hen, hg⟩ := Gov.castVote_ok_iff.1 hx
  have hopen : openAt w.gov w.block.time id := ⟨p, hp, hl, hen⟩
  refine h.step hb hb1 (fun j i hi hgen => Or.inl (hinf j i hi hgen)) ?_ ?_
  · rintro j ⟨i, hi, hgen⟩ ho x v hv
    rw [hblk] at ho
    rw [hmem]
    rw [hg] at hv
    simp only [Map.get_set] at hv
    by_cases hk : vkey u id = vkey x j
    · rw [if_pos hk] at hv
      obtain ⟨rfl, rfl⟩ := Gov.vkey_inj.1 hk
      cases hv
      rcases ha with ha | ha
      · exact ha
      · exact absurd hgen (ha i hi)
    · rw [if_neg hk] at hv
      exact h.track j i hi hgen ((hop j).1 ho) x v hv
  · rintro j ⟨i, hi, hgen⟩ ho x
    rw [hblk] at ho
    rw [hg]
    simp only [Map.get_set]
    rw [if_neg]
    intro hk
    obtain ⟨rfl, rfl⟩ := Gov.vkey_inj.1 hk
    exact ho ((hop id).2 hopen)

/-- Every message. -/
theorem Handled.tally {c : Cfg} (hw : c.Wf) {e : Ext} {w w1 : World} {a : Addr} {m : Msg} {subs : List Item}
    (hb : Base c w) (hk : Known c a m) (room : w.gov.pollCount + 1 < 2 ^ 64)
    (hr : handle c e w a m = .ok (w1, subs)) (hh : Handled c w a m w1 subs) (h : Tally w) : Tally w1 := by
  cases m with
  | ctl m =>
    obtain ⟨r, hx⟩ := handle_ctl hr
    have hworld := hx.world
    simp only at hworld
    have hblk : w1.block = w.block := hh.block
    have hmem : w1.mem = w.mem := by rw [hworld]
    have hctl : w1.ctl = r.1 := by rw [hworld]
    have hgov : w1.gov = r.2.1 := by rw [hworld]
    have hexec := hx.exec
    have hcreate : m.isCreate = true → Tally w1 := by
      intro hm
      obtain ⟨i, cp, h1, _⟩ := Controller.created_exec hm hexec
      obtain ⟨_, h3, h4, h5⟩ := CtlInv.created (e := c.env e w) hb.ctl h1 room
      obtain ⟨_, _, h6⟩ := Gov.createPoll_ok_iff.1 h1.poll
      rw [wadd64_of_lt room] at h6
      refine h.quiet hb hh.base ?_ ?_ (fun u => by rw [hmem]) ?_
      · intro id j hj hg
        rw [hctl, h1.state, h3] at hj
        unfold Controller.State.added at hj
        simp only [Map.get_set] at hj
        by_cases hid : w.gov.pollCount + 1 = id
        · right
          intro u
          rw [hgov, h6]
          simp only
          cases hv : w.gov.votes.get (vkey u id) with
          | none => rfl
          | some v =>
            have := hb.ctl.inv.vkeys _ _ hv
            have h7 := (Gov.vkey_inj.1 this.1).2
            omega
        · rw [if_neg hid] at hj
          exact Or.inl ⟨j, hj, hg⟩
      · rw [hgov, h6]
      · rintro id ⟨j, hj⟩ ho
        rw [hblk, hgov, h6] at ho
        unfold openAt at ho ⊢
        simp only [Map.get_set] at ho
        have hid : ¬ w.gov.pollCount + 1 = id := by
          rintro rfl
          rw [h5] at hj; cases hj
        rw [if_neg hid] at ho
        exact ho
    have hquiet : (∀ id, r.1.infos.get id = w.ctl.infos.get id) → r.2.1 = w.gov → Tally w1 := by
      intro h1 h2
      refine h.quiet hb hh.base ?_ (by rw [hgov, h2]) (fun u => by rw [hmem]) ?_
      · intro id i hi hg
        rw [hctl, h1] at hi
        exact Or.inl ⟨i, hi, hg⟩
      · intro id _ ho
        rw [hgov, h2, hblk] at ho
        exact ho
    have hinf : (∀ id i, r.1.infos.get id = some i → ∃ j, w.ctl.infos.get id = some j ∧ j.type = i.type) →
        ∀ id i, w1.ctl.infos.get id = some i → i.type = .general →
        ∃ j, w.ctl.infos.get id = some j ∧ j.type = .general := by
      intro h1 id i hi hg
      rw [hctl] at hi
      obtain ⟨j, hj, ht⟩ := h1 id i hi
      exact ⟨j, hj, ht.trans hg⟩
    cases m with
    | createProposal p f => exact hcreate rfl
    | createWithNft p l => exact hcreate rfl
    | createCouncil p => exact hcreate rfl
    | receive f a p => exact hcreate rfl
    | castVote id o =>
      simp only [Controller.exec, bind_ok_iff, pure_ok_iff] at hexec
      obtain ⟨r1, h1, rfl⟩ := hexec
      obtain ⟨_, _, i, p, q, hi, _, hp, hadm, hg, hq, hs⟩ := Controller.castVote_ok_iff.1 h1
      refine h.vote hb hh.base (hinf fun j x hj => ?_) hblk hmem (by rw [hgov]; exact hg) (Or.inl rfl)
      change r1.1.infos.get j = some x at hj
      rw [hs] at hj
      unfold Controller.voted at hj
      split at hj
      · unfold Controller.restartCooldown at hj
        split at hj
        · simp only [Map.get_set] at hj
          by_cases hij : id = j
          · subst hij
            rw [if_pos rfl] at hj
            cases hj
            exact ⟨i, hi, rfl⟩
          · rw [if_neg hij] at hj
            exact ⟨x, hj, rfl⟩
        · exact ⟨x, hj, rfl⟩
      · exact ⟨x, hj, rfl⟩
    | castCouncilVote id o =>
      simp only [Controller.exec, bind_ok_iff, pure_ok_iff] at hexec
      obtain ⟨r1, h1, rfl⟩ := hexec
      obtain ⟨_, _, _, i, hi, hty, hadm, hg, hs⟩ := Controller.castCouncilVote_ok_iff.1 h1
      refine h.vote hb hh.base (hinf fun j x hj => ?_) hblk hmem (by rw [hgov]; exact hg) (Or.inr ?_)
      · change r1.1.infos.get j = some x at hj
        rw [hs] at hj
        exact ⟨x, hj, rfl⟩
      · intro j hj
        rw [hi] at hj; cases hj
        rw [hty]; exact fun hh => by cases hh
    | execute id =>
      simp only [Controller.exec] at hexec
      obtain ⟨_, i, p, hi, hp, _, _, _, _, _, rfl⟩ := Controller.executeProposal_ok_iff.1 hexec
      refine h.quiet hb hh.base (fun j x hj hg => Or.inl (hinf (fun k y hy => ?_) j x hj hg)) (by rw [hgov]; rfl)
        (fun u => by rw [hmem]) ?_
      · unfold Controller.State.resolved at hy
        simp only [Map.get_set] at hy
        by_cases hk : id = k
        · subst hk
          rw [if_pos rfl] at hy
          cases hy
          exact ⟨i, hi, rfl⟩
        · rw [if_neg hk] at hy
          exact ⟨y, hy, rfl⟩
      · intro j _ ho
        rw [hgov, hblk] at ho
        unfold openAt Controller.endedPoll at ho
        simp only [Map.get_set] at ho
        by_cases hj : id = j
        · subst hj
          rw [if_pos rfl] at ho
          obtain ⟨q, hq, ⟨x, hl⟩, _⟩ := ho
          cases hq
          exact absurd hl (Gov.finalStatus_not_inProgress _ _ _)
        · rw [if_neg hj] at ho
          exact ho
    | weightsChanged l =>
      simp only [Controller.exec, bind_ok_iff, pure_ok_iff] at hexec
      obtain ⟨r1, h1, rfl⟩ := hexec
      rcases Controller.weightsChanged_ok_iff.1 h1 with ⟨_, rfl⟩ | ⟨_, h2, _⟩
      · exact hquiet (fun _ => rfl) rfl
      · exfalso
        rcases hk with hk | ⟨rfl, _⟩
        · exact hk.2.1 h2
        · exact hw.membership h2.symm
    | executeActions id =>
      simp only [Controller.exec, bind_ok_iff, pure_ok_iff] at hexec
      obtain ⟨r1, h1, rfl⟩ := hexec
      obtain ⟨_, i, _, h2⟩ := Controller.executeActions_ok_iff.1 h1
      refine hquiet (fun id => ?_) rfl
      show r1.1.infos.get id = _
      rw [(Controller.actAll_ok _ h2).1.same]
    | deployInitial =>
      simp only [Controller.exec, bind_ok_iff, pure_ok_iff] at hexec
      obtain ⟨r1, h1, rfl⟩ := hexec
      obtain ⟨_, _, rfl⟩ := Controller.deployInitial_ok_iff.1 h1
      exact hquiet (fun _ => rfl) rfl
  | gov m =>
    exfalso
    simp only [handle, bind_ok_iff] at hr
    obtain ⟨g, h1, _⟩ := hr
    unfold Gov.exec at h1
    rw [ite_ok_iff] at h1
    have hadm := hb.ctl.gov.admin
    rcases hk with hk | ⟨_, hk | ⟨id, hk⟩⟩
    · exact h1.1 (fun hh => hk.1 (hh.trans hadm))
    · cases hk
    · cases hk
  | dist m =>
    simp only [handle, bind_ok_iff, pure_ok_iff] at hr
    obtain ⟨r, h1, h2⟩ := hr
    cases h2
    exact ⟨h.track, h.fits⟩
  | mem m =>
    have hm : a = c.self → m.tame = true := by
      intro ha
      rcases hk with hk | ⟨_, hk | ⟨id, hk⟩⟩
      · exact absurd ha hk.1
      · exact hk
      · cases hk
    have hs := handle_mem hw hb.mem hm hr
    simp only at hs
    have hblk : w1.block = w.block := hh.block
    have hctl : w1.ctl = w.ctl := by rw [hs.same]
    have hinf : ∀ id i, w1.ctl.infos.get id = some i → i.type = .general →
        (∃ j, w.ctl.infos.get id = some j ∧ j.type = .general) ∨ ∀ u, w1.gov.votes.get (vkey u id) = none := by
      intro id i hi hg
      rw [hctl] at hi
      exact Or.inl ⟨i, hi, hg⟩
    rcases hs.gov with ⟨l, e', hex, hl, hu, _⟩ | ⟨hg, _, hwt⟩
    · have hci : CtlInv (c.env e' w1).self (c.env e' w1).daoType (c.env e' w1).block.time w.ctl w.gov := by
        show CtlInv c.self w1.mem.daoType w1.block.time w.ctl w.gov
        rw [hs.type, hblk]; exact hb.ctl
      obtain ⟨h1, h2, h3⟩ := updateAll_track l hl hci hu hex
      have hbl : (c.env e' w1).block = w.block := hblk
      rw [hbl] at h1 h2 h3
      refine h.step hb hh.base hinf ?_ ?_
      · rintro id ⟨j, hj, hg⟩ ho
        rw [hblk] at ho
        have ho := (h1 id).1 ho
        exact h2 id ho (h.track id j hj hg ho)
      · rintro id _ ho
        rw [hblk] at ho
        exact h3 id (fun hh => ho ((h1 id).2 hh))
    · refine h.quiet hb hh.base hinf (by rw [hg]) hwt ?_
      intro id _ ho
      rw [hg, hblk] at ho
      exact ho
  | council m =>
    have hm : a = c.self → (Msg.council m).tame = true := by
      intro ha
      rcases hk with hk | ⟨_, hk | ⟨id, hk⟩⟩
      · exact absurd ha hk.1
      · exact hk
      · cases hk
    obtain ⟨_, h2, _⟩ := handle_council hb.council hm hr
    simp only at h2
    rw [h2]
    exact ⟨h.track, h.fits⟩

theorem tally_cases {c : Cfg} (hw : c.Wf) : Cases c (fun w _ w' => Tally w → Tally w') := by
  refine ⟨fun _ _ h => h, ?_, ?_, fun _ _ _ _ _ _ h => h, ?_, ?_⟩
  · intro w w1 w2 w3 a m subs rest e hb b2 b3 m2 m3 hk room hr hh p2 p3 h
    have hk : Known c a m := by
      rcases hk with hk | ⟨hk, hm⟩
      · exact Or.inl hk
      · exact Or.inr ⟨hk, Or.inl hm⟩
    exact p3 (p2 (hh.tally hw hb hk room hr h))
  · intro w w1 w2 w3 id subs rest e hb b2 b3 m2 m3 room hr hh p2 p3 h
    exact p3 (p2 (hh.tally hw hb (Or.inr ⟨rfl, Or.inr ⟨id, rfl⟩⟩) room hr h))
  · intro w w1 w2 id t calls rest hb b1 b2 hc m1 m2 p1 p2 h
    exact p2 (p1 ⟨h.track, h.fits⟩)
  · intro w w1 w2 calls rest hb b1 b2 hc m1 m2 p1 p2 h
    exact p2 (p1 h)

theorem Reachable.tally {c : Cfg} (hw : c.Wf) (ht : c.Tame) {w : World} (h : Reachable c w) : Tally w := by
  induction h with
  | @init w h =>
    have hn : ∀ id, w.ctl.infos.get id = none := by
      obtain ⟨cfg, spec, tr, hc⟩ := h.ctl
      obtain ⟨_, _, h3⟩ := Controller.init_ok hc
      intro id
      rw [h3]; rfl
    exact ⟨fun id i hi => (by rw [hn] at hi; cases hi), fun id i hi => (by rw [hn] at hi; cases hi)⟩
  | @tx w w1 a m h ha hx ih =>
    obtain ⟨_, _, hl⟩ := hx.induct hw ht (tally_cases hw)
      (fun i hi => by rw [List.mem_singleton.1 hi]; exact Or.inl ha) (h.base hw ht)
    exact hl ih
  | @block w b h hh htm ih =>
    refine ⟨fun id i hi hg ho => ih.track id i hi hg ?_, ih.fits⟩
    obtain ⟨p, hp, hl, he⟩ := ho
    exact ⟨p, hp, hl, lt_of_le_of_lt htm he⟩

end Verif.Dao
