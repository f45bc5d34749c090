import Verif.Controller.Lemmas

/-!
# Governance controller: effect of votes, executions and actions
-/

set_option linter.unusedSimpArgs false

namespace Verif.Controller
open Verif
open Verif.Staking (Duration At)

/-! ### Voting -/

/-- The state after a vote on a general proposal. -/
def voted (e : Env) (s : State) (id : Nat) (i : Info) (old new : Executability) (endsAt : Nat) : State :=
  if s.config.early = true ∧ e.daoType ≠ .multisig then restartCooldown e { s with voting := none } id i old new endsAt
  else { s with voting := none }

theorem simulateEnd_ok_iff {g : Gov.State} {id m : Nat} {st : Gov.Status} :
    Gov.simulateEnd g id m = .ok st ↔ ∃ p, g.polls.get id = some p ∧ st = p.finalStatus m := by
  unfold Gov.simulateEnd
  cases g.polls.get id with
  | none => simp
  | some p => simp [eq_comm]

theorem queryPoll_ok_iff {g : Gov.State} {id : Nat} {p : Gov.Poll} :
    Gov.queryPoll g id = .ok p ↔ g.polls.get id = some p := by
  unfold Gov.queryPoll
  cases g.polls.get id with
  | none => simp
  | some q => simp

theorem replyVote_ok_iff {e : Env} {s s' : State} {g : Gov.State} {id : Nat} {old : Executability} {i : Info}
    {q : Gov.Poll} (hi : s.infos.get id = some i) (ht : i.type = .general) (hq : g.polls.get id = some q) :
    replyVote e { s with voting := some (id, old) } g = .ok s' ↔
      s' = voted e s id i old (executability (q.finalStatus (e.total .never))) q.endsAt := by
  unfold replyVote voted
  simp only
  by_cases h1 : s.config.early = false
  · have h1' : ¬ s.config.early = true := by rw [h1]; decide
    simp only [h1, h1', if_true, false_and, if_false, Except.ok.injEq, eq_comm, reduceCtorEq]
  · have h1' : s.config.early = true := by simpa using h1
    by_cases h2 : e.daoType = .multisig
    · simp only [h1, if_false, h1', h2, if_true, ne_eq, not_true, and_false, Except.ok.injEq, eq_comm]
      simp [eq_comm]
    · simp only [h1, if_false, h1', h2, ne_eq, not_false_iff, and_self, if_true, hi, ht, reduceCtorEq]
      simp only [bind_ok_iff, simulateEnd_ok_iff, queryPoll_ok_iff, pure_ok_iff, hq, Option.some.injEq,
        exists_eq_left', totalVotes]
      simp only [exists_eq_left, eq_comm]

theorem castVote_ok_iff {e : Env} {u : Addr} {s : State} {g : Gov.State} {id : Nat} {o : Gov.Outcome}
    {r : State × Gov.State} :
    castVote e u s g id o = .ok r ↔
      e.restricted u = false ∧ e.weight u ≠ 0 ∧ ∃ i p q, s.infos.get id = some i ∧ i.type = .general ∧
        g.polls.get id = some p ∧ e.self = g.admin ∧
        Gov.castVote g e.block.time id o u (e.weight u) = .ok r.2 ∧ r.2.polls.get id = some q ∧
        r.1 = voted e s id i (executability (p.finalStatus (e.total .never)))
          (executability (q.finalStatus (e.total .never))) q.endsAt := by
  unfold castVote
  rw [bind_ok_iff]
  simp only [unrestricted_ok_iff, ite_ok_iff]
  have hex : ∀ {g1 : Gov.State}, Gov.castVote g e.block.time id o u (e.weight u) = .ok g1 →
      ∃ q, g1.polls.get id = some q := by
    intro g1 h
    obtain ⟨_, _, p, _, _, _, _, rfl⟩ := Gov.castVote_ok_iff.1 h
    exact ⟨_, Map.get_set_self _ _ _⟩
  constructor
  · rintro ⟨_, h1, h2, h3⟩
    cases hi : s.infos.get id with
    | none => rw [hi] at h3; cases h3
    | some i =>
      rw [hi] at h3
      simp only [ite_ok_iff, bind_ok_iff, pure_ok_iff, simulateEnd_ok_iff] at h3
      obtain ⟨ht, st, ⟨p, hp, rfl⟩, g1, hg, s2, hs, rfl⟩ := h3
      have ht := Classical.not_not.1 ht
      unfold Gov.exec at hg
      rw [ite_ok_iff] at hg
      obtain ⟨q, hq⟩ := hex hg.2
      have hs' := (replyVote_ok_iff hi ht hq).1 hs
      refine ⟨h1, h2, i, p, q, rfl, ht, hp, Classical.not_not.1 hg.1, hg.2, hq, ?_⟩
      rw [hs', ht]
      rfl
  · rintro ⟨h1, h2, i, p, q, hi, ht, hp, ha, hg, hq, hr⟩
    refine ⟨(), h1, h2, ?_⟩
    rw [hi]
    simp only [ite_ok_iff, bind_ok_iff, pure_ok_iff, simulateEnd_ok_iff]
    refine ⟨fun h => h ht, _, ⟨p, hp, rfl⟩, r.2, ?_, r.1, ?_, rfl⟩
    · unfold Gov.exec
      rw [ite_ok_iff]
      exact ⟨fun h => h ha, hg⟩
    · rw [replyVote_ok_iff hi ht hq, hr, ht]
      rfl

theorem castCouncilVote_ok_iff {e : Env} {u : Addr} {s : State} {g : Gov.State} {id : Nat} {o : Gov.Outcome}
    {r : State × Gov.State} :
    castCouncilVote e u s g id o = .ok r ↔
      e.restricted u = false ∧ (∃ c, s.council = some c) ∧ e.councilWeight u ≠ 0 ∧
        ∃ i, s.infos.get id = some i ∧ i.type = .council ∧ e.self = g.admin ∧
        Gov.castVote g e.block.time id o u (e.councilWeight u) = .ok r.2 ∧ r.1 = s := by
  unfold castCouncilVote
  rw [bind_ok_iff]
  simp only [unrestricted_ok_iff]
  cases hc : s.council with
  | none =>
    constructor
    · rintro ⟨_, _, h⟩; cases h
    · rintro ⟨_, ⟨_, h⟩, _⟩; cases h
  | some c =>
    simp only [ite_ok_iff]
    cases hi : s.infos.get id with
    | none =>
      constructor
      · rintro ⟨_, _, _, h⟩; cases h
      · rintro ⟨_, _, _, _, h, _⟩; cases h
    | some i =>
      simp only [ite_ok_iff, bind_ok_iff, pure_ok_iff]
      unfold Gov.exec
      simp only [ite_ok_iff]
      constructor
      · rintro ⟨_, h1, h2, h3, g1, ⟨h4, h5⟩, rfl⟩
        exact ⟨h1, ⟨c, rfl⟩, h2, i, rfl, Classical.not_not.1 h3, Classical.not_not.1 h4, h5, rfl⟩
      · rintro ⟨h1, _, h2, i', hi', h3, h4, h5, h6⟩
        cases hi'
        exact ⟨(), h1, h2, fun h => h h3, r.2, ⟨fun h => h h4, h5⟩, by rw [← h6]⟩

/-! ### Execution -/

/-- The total weight that the result of a proposal is measured against. -/
def endTotal (e : Env) (p : Gov.Poll) (t : PType) : Nat :=
  if p.endsAt ≤ e.block.time then totalVotes e (.time p.endsAt) t else totalVotes e .never t

/-- The sub-messages of a resolution. -/
def outcomeSubs (e : Env) (id : Nat) (i : Info) : Gov.Status → List Sub
  | .passed _ _ => .actions id :: returnDeposit id i
  | .rejected r => rejectedDeposit e id i r
  | .inProgress _ => []

/-- The state after a resolution. -/
def State.resolved (s : State) (id : Nat) (i : Info) (b : Block) : State :=
  { s with executing := none, infos := s.infos.set id { i with executedAt := some b } }

/-- The governance state after a poll is ended. -/
def endedPoll (g : Gov.State) (id : Nat) (p : Gov.Poll) (m : Nat) : Gov.State :=
  { g with polls := g.polls.set id { p with status := p.finalStatus m } }

theorem resolve_ok_iff {e : Env} {s : State} {g : Gov.State} {id : Nat} {i : Info} {p : Gov.Poll}
    (hi : s.infos.get id = some i) (hp : g.polls.get id = some p) (hs : ∀ x, p.status ≠ .inProgress x)
    {r : State × List Sub} :
    resolve e s g id = .ok r ↔
      r = ({ s with infos := s.infos.set id { i with executedAt := some e.block } }, outcomeSubs e id i p.status) := by
  have hse : setExecuted s id e.block =
      .ok { s with infos := s.infos.set id { i with executedAt := some e.block } } := by
    unfold setExecuted; rw [hi]
  unfold resolve
  rw [bind_ok_iff]
  simp only [queryPoll_ok_iff, hp, Option.some.injEq, exists_eq_left']
  cases hst : p.status with
  | inProgress x => exact absurd hst (hs x)
  | passed o n =>
    simp only [hse]
    constructor
    · intro h
      obtain ⟨a, ha, h⟩ := bind_ok_iff.1 h
      cases ha
      rw [Map.get_set_self] at h
      cases h
      rfl
    · rintro rfl
      rw [bind_ok_iff]
      exact ⟨_, rfl, by rw [Map.get_set_self]; rfl⟩
  | rejected rs =>
    simp only [hse]
    constructor
    · intro h
      obtain ⟨a, ha, h⟩ := bind_ok_iff.1 h
      cases ha
      rw [Map.get_set_self] at h
      cases h
      rfl
    · rintro rfl
      rw [bind_ok_iff]
      exact ⟨_, rfl, by rw [Map.get_set_self]; rfl⟩

theorem executeProposal_ok_iff {e : Env} {u : Addr} {s : State} {g : Gov.State} {id : Nat}
    {r : State × Gov.State × List Sub} :
    executeProposal e u s g id = .ok r ↔
      e.restricted u = false ∧ ∃ i p, s.infos.get id = some i ∧ g.polls.get id = some p ∧ i.executedAt = none ∧
        i.pastEarliest e.block.time = true ∧ endTotal e p i.type ≠ 0 ∧ e.self = g.admin ∧
        (p.endsAt ≤ e.block.time ∨ (allowsEarly s i.type = true ∧ Gov.earlyOk (endTotal e p i.type) p)) ∧
        r = (s.resolved id i e.block, endedPoll g id p (endTotal e p i.type),
          outcomeSubs e id i (p.finalStatus (endTotal e p i.type))) := by
  unfold executeProposal
  rw [bind_ok_iff]
  simp only [unrestricted_ok_iff]
  have hend : ∀ {i : Info} {r : State × Gov.State × List Sub}, s.infos.get id = some i →
      (endProposal e s g id i.type = .ok r ↔ ∃ p, g.polls.get id = some p ∧ endTotal e p i.type ≠ 0 ∧ e.self = g.admin ∧
        (p.endsAt ≤ e.block.time ∨ (allowsEarly s i.type = true ∧ Gov.earlyOk (endTotal e p i.type) p)) ∧
        r = (s.resolved id i e.block, endedPoll g id p (endTotal e p i.type),
          outcomeSubs e id i (p.finalStatus (endTotal e p i.type)))) := by
    intro i r hi
    unfold endProposal
    rw [bind_ok_iff]
    simp only [queryPoll_ok_iff, ite_ok_iff, bind_ok_iff, pure_ok_iff]
    have hrep : ∀ {p : Gov.Poll} {m : Nat} {x : State × List Sub},
        replyEnd e { s with executing := some id } (endedPoll g id p m) = .ok x ↔
          x = (s.resolved id i e.block, outcomeSubs e id i (p.finalStatus m)) := by
      intro p m x
      unfold replyEnd
      simp only
      exact resolve_ok_iff (s := { s with executing := none }) (g := endedPoll g id p m) (i := i)
        (p := { p with status := p.finalStatus m }) hi (Map.get_set_self _ _ _)
        (fun y => Gov.finalStatus_not_inProgress p m y)
    constructor
    · rintro ⟨p, hp, h1, g1, hg, x, hx, rfl⟩
      unfold Gov.exec at hg
      rw [ite_ok_iff] at hg
      obtain ⟨p', hp', h2, _, rfl⟩ := Gov.endPoll_ok_iff.1 hg.2
      rw [hp] at hp'
      cases hp'
      have hx := hrep.1 hx
      subst hx
      exact ⟨p, hp, h1, Classical.not_not.1 hg.1, h2, rfl⟩
    · rintro ⟨p, hp, h1, h2, h3, rfl⟩
      refine ⟨p, hp, h1, endedPoll g id p (endTotal e p i.type), ?_, _, hrep.2 rfl, rfl⟩
      unfold Gov.exec
      rw [ite_ok_iff]
      refine ⟨fun h => h h2, Gov.endPoll_ok_iff.2 ⟨p, hp, h3, fun h => (by cases h), rfl⟩⟩
  cases hi : s.infos.get id with
  | none =>
    constructor
    · rintro ⟨_, _, h⟩; cases h
    · rintro ⟨_, _, _, h, _⟩; cases h
  | some i =>
    simp only [ite_ok_iff, hend hi]
    constructor
    · rintro ⟨_, h1, h2, h3, p, hp, h4, h5, h6, h7⟩
      refine ⟨h1, i, p, rfl, hp, ?_, ?_, h4, h5, h6, h7⟩
      · simpa using h2
      · simpa using h3
    · rintro ⟨h1, i', p, hi', hp, h2, h3, h4, h5, h6, h7⟩
      cases hi'
      refine ⟨(), h1, ?_, ?_, p, hp, h4, h5, h6, h7⟩
      · rw [h2]; simp
      · rw [h3]; simp

/-! ### Actions -/

/-- Sub-messages that actions can have. -/
def Sub.ofAction : Sub → Prop
  | .actions _ | .deposit _ _ | .takeNft _ _ => False
  | .distributor m => ∃ w, m = .updateMin w
  | _ => True

/-- What one action, or several, can do to the state. -/
structure Configured (t : DaoType) (s s' : State) (l : List Action) : Prop where
  same : s' = { s with config := s'.config, council := s'.council }
  config : s'.config = s.config ∨ (ValidConfig t s'.config ∧ ∃ c, Action.updateGovConfig c ∈ l)
  council : s'.council = s.council ∨ ((∀ c, s'.council = some c → ValidCouncil c) ∧ ∃ c, Action.updateCouncil c ∈ l)

theorem Configured.refl (t : DaoType) (s : State) (l : List Action) : Configured t s s l :=
  ⟨rfl, Or.inl rfl, Or.inl rfl⟩

theorem updateGovConfig_ok_iff {e : Env} {s : State} {c : GovChange} {r : State × List Sub} :
    updateGovConfig e s c = .ok r ↔
      ValidConfig e.daoType (applyChange s.config c) ∧
      (∀ n, c.unlocking = some (.time n) → (applyChange s.config c).voteDuration ≤ n) ∧
      r = ({ s with config := applyChange s.config c },
        match c.unlocking with | some d => unlockingSubs e.daoType d | none => []) := by
  unfold updateGovConfig
  simp only [bind_ok_iff, validateConfig_ok_iff]
  cases hu : c.unlocking with
  | none =>
    simp only [pure_ok_iff]
    constructor
    · rintro ⟨_, h, rfl⟩; exact ⟨h, fun n hn => (by cases hn), rfl⟩
    · rintro ⟨h, _, rfl⟩; exact ⟨(), h, rfl⟩
  | some d =>
    simp only [bind_ok_iff, pure_ok_iff]
    have hv : ∀ {x : Unit}, validateUnlocking (applyChange s.config c) d = .ok x ↔
        ∀ n, some d = some (Duration.time n) → (applyChange s.config c).voteDuration ≤ n := by
      intro x
      cases d with
      | height n => exact ⟨fun _ m hm => (by cases hm), fun _ => rfl⟩
      | time n =>
        unfold validateUnlocking
        rw [ite_ok_iff]
        constructor
        · rintro ⟨h, _⟩ m hm; cases hm; omega
        · intro h; exact ⟨by have := h n rfl; omega, rfl⟩
    constructor
    · rintro ⟨_, h1, _, h2, rfl⟩; exact ⟨h1, hv.1 h2, rfl⟩
    · rintro ⟨h1, h2, rfl⟩; exact ⟨(), h1, (), hv.2 h2, rfl⟩

theorem updateCouncil_ok_iff {s : State} {c : Option CouncilSpec} {r : State × List Sub} :
    updateCouncil s c = .ok r ↔
      (∀ x, c = some x → x.members.Nodup ∧ ValidCouncil x.config) ∧
      r = ({ s with council := c.map CouncilSpec.config },
        [.council ((match c with | some x => x.members | none => []).map (fun m => (m, 1)))]) := by
  unfold updateCouncil
  simp only [bind_ok_iff, validateCouncil_ok_iff, pure_ok_iff]
  constructor
  · rintro ⟨_, ⟨h, rfl⟩, rfl⟩; exact ⟨h, rfl⟩
  · rintro ⟨h, rfl⟩; exact ⟨_, ⟨h, rfl⟩, rfl⟩

theorem act_ok {e : Env} {s : State} {a : Action} {r : State × List Sub} (h : act e s a = .ok r) :
    Configured e.daoType s r.1 [a] ∧ ∀ x ∈ r.2, x.ofAction := by
  have one : ∀ {y : Sub}, y.ofAction → ∀ x ∈ [y], x.ofAction := by
    intro y hy x hx
    rw [List.mem_singleton.1 hx]
    exact hy
  cases a with
  | updateMetadata m => cases h; exact ⟨Configured.refl _ _ _, one trivial⟩
  | updateGovConfig c =>
    simp only [act] at h
    obtain ⟨h1, _, rfl⟩ := updateGovConfig_ok_iff.1 h
    refine ⟨⟨rfl, Or.inr ⟨h1, c, List.mem_singleton.2 rfl⟩, Or.inl rfl⟩, ?_⟩
    intro x hx
    cases hu : c.unlocking with
    | none => rw [hu] at hx; cases hx
    | some d =>
      rw [hu] at hx
      simp only at hx
      unfold unlockingSubs at hx
      cases ht : e.daoType <;> rw [ht] at hx <;> simp only [List.mem_singleton, List.not_mem_nil] at hx <;>
        rw [hx] <;> trivial
  | updateCouncil c =>
    simp only [act] at h
    obtain ⟨h1, rfl⟩ := updateCouncil_ok_iff.1 h
    refine ⟨⟨rfl, Or.inl rfl, Or.inr ⟨?_, c, List.mem_singleton.2 rfl⟩⟩, one trivial⟩
    intro y hy
    cases c with
    | none => cases hy
    | some z =>
      cases hy
      exact (h1 z rfl).2
  | updateAssetWhitelist r a d => cases h; exact ⟨Configured.refl _ _ _, one trivial⟩
  | updateNftWhitelist r a d => cases h; exact ⟨Configured.refl _ _ _, one trivial⟩
  | requestFunding r t l => cases h; exact ⟨Configured.refl _ _ _, one trivial⟩
  | upgradeDao v =>
    simp only [act, bind_ok_iff, pure_ok_iff] at h
    obtain ⟨_, _, rfl⟩ := h
    exact ⟨Configured.refl _ _ _, one trivial⟩
  | executeMsgs l =>
    simp only [act, bind_ok_iff, pure_ok_iff] at h
    obtain ⟨subs, h1, rfl⟩ := h
    refine ⟨Configured.refl _ _ _, fun x hx => ?_⟩
    unfold customSubs at h1
    by_cases hp : l.all e.parses = true
    · rw [if_pos hp] at h1
      cases h1
      obtain ⟨n, _, rfl⟩ := List.mem_map.1 hx
      trivial
    · rw [if_neg hp] at h1; cases h1
  | executeTreasuryMsgs r l => cases h; exact ⟨Configured.refl _ _ _, one trivial⟩
  | executeEnterpriseMsgs l => cases h; exact ⟨Configured.refl _ _ _, one trivial⟩
  | modifyMultisig l =>
    simp only [act, bind_ok_iff, pure_ok_iff] at h
    obtain ⟨_, _, rfl⟩ := h
    exact ⟨Configured.refl _ _ _, one trivial⟩
  | distributeFunds l => cases h; exact ⟨Configured.refl _ _ _, one trivial⟩
  | updateMinWeight m => cases h; exact ⟨Configured.refl _ _ _, one ⟨m, rfl⟩⟩
  | deployTreasury d => cases h; exact ⟨Configured.refl _ _ _, one trivial⟩

theorem actAll_ok {e : Env} : ∀ (l : List Action) {s : State} {r : State × List Sub}, actAll e s l = .ok r →
    Configured e.daoType s r.1 l ∧ ∀ x ∈ r.2, x.ofAction := by
  intro l
  induction l with
  | nil => intro s r h; cases h; exact ⟨Configured.refl _ _ _, fun x hx => (by cases hx)⟩
  | cons a t ih =>
    intro s r h
    simp only [actAll, bind_ok_iff, pure_ok_iff] at h
    obtain ⟨r1, h1, r2, h2, rfl⟩ := h
    obtain ⟨c1, o1⟩ := act_ok h1
    obtain ⟨c2, o2⟩ := ih h2
    refine ⟨⟨?_, ?_, ?_⟩, fun x hx => ?_⟩
    · have := c2.same
      rw [c1.same] at this
      exact this
    · rcases c2.config with h | ⟨h, c, hc⟩
      · show r2.1.config = s.config ∨ _
        rw [h]
        rcases c1.config with h' | ⟨h', c, hc⟩
        · exact Or.inl h'
        · exact Or.inr ⟨h', c, by rw [List.mem_singleton.1 hc]; exact List.mem_cons_self⟩
      · exact Or.inr ⟨h, c, List.mem_cons_of_mem _ hc⟩
    · rcases c2.council with h | ⟨h, c, hc⟩
      · show r2.1.council = s.council ∨ _
        rw [h]
        rcases c1.council with h' | ⟨h', c, hc⟩
        · exact Or.inl h'
        · exact Or.inr ⟨h', c, by rw [List.mem_singleton.1 hc]; exact List.mem_cons_self⟩
      · exact Or.inr ⟨h, c, List.mem_cons_of_mem _ hc⟩
    · rcases List.mem_append.1 hx with hx | hx
      · exact o1 x hx
      · exact o2 x hx

theorem executeActions_ok_iff {e : Env} {u : Addr} {s : State} {id : Nat} {r : State × List Sub} :
    executeActions e u s id = .ok r ↔ u = e.self ∧ ∃ i, s.infos.get id = some i ∧ actAll e s i.actions = .ok r := by
  unfold executeActions
  rw [ite_ok_iff]
  cases s.infos.get id with
  | none =>
    constructor
    · rintro ⟨_, h⟩; cases h
    · rintro ⟨_, _, h, _⟩; cases h
  | some i =>
    simp only [Option.some.injEq, exists_eq_left', ne_eq, Classical.not_not]

theorem deployInitial_ok_iff {e : Env} {u : Addr} {s : State} {r : State × List Sub} :
    deployInitial e u s = .ok r ↔ s.created = e.block.time ∧ u = e.creator ∧
      r = ({ s with treasuries := none }, (s.treasuries.getD []).map .deploy) := by
  unfold deployInitial
  rw [ite_ok_iff, ite_ok_iff]
  simp only [ne_eq, Classical.not_not, Except.ok.injEq]
  constructor
  · rintro ⟨h1, h2, rfl⟩; exact ⟨h1, h2.symm, rfl⟩
  · rintro ⟨h1, rfl, rfl⟩; exact ⟨h1, rfl, rfl⟩

theorem weightsChanged_ok_iff {e : Env} {u : Addr} {g : Gov.State} {l : List WeightChange} {r : Gov.State × List Sub} :
    weightsChanged e u g l = .ok r ↔
      (u = e.comps.council ∧ r = (g, [])) ∨
      (u ≠ e.comps.council ∧ u = e.comps.membership ∧ updateAllVotes e g l = .ok r.1 ∧
        r.2 = [.distributor (.updateWeights (l.map (fun c => (c.user, c.new))))]) := by
  unfold weightsChanged
  by_cases h : u = e.comps.council
  · rw [if_pos h]
    constructor
    · intro hr; cases hr; exact Or.inl ⟨h, rfl⟩
    · rintro (⟨_, rfl⟩ | ⟨h', _⟩)
      · rfl
      · exact absurd h h'
  · rw [if_neg h, ite_ok_iff]
    simp only [bind_ok_iff, pure_ok_iff, ne_eq, Classical.not_not]
    constructor
    · rintro ⟨h1, g1, h2, rfl⟩; exact Or.inr ⟨h, h1, h2, rfl⟩
    · rintro (⟨h', _⟩ | ⟨_, h1, h2, h3⟩)
      · exact absurd h' h
      · exact ⟨h1, r.1, h2, by rw [← h3]⟩

theorem init_ok {b : Block} {enterprise : Addr} {t : DaoType} {cfg : GovConfig} {spec : Option CouncilSpec}
    {tr : List Nat} {s : State} (h : init b enterprise t cfg spec [] tr = .ok s) :
    ValidConfig t cfg ∧ (∀ x, spec = some x → x.members.Nodup ∧ ValidCouncil x.config) ∧
      s = { creating := none, executing := none, voting := none, enterprise := enterprise, config := cfg,
            council := spec.map CouncilSpec.config, created := b.time, treasuries := some tr, infos := Map.empty } := by
  unfold init at h
  simp only [bind_ok_iff, pure_ok_iff, validateConfig_ok_iff, validateCouncil_ok_iff] at h
  obtain ⟨_, h1, _, ⟨h2, rfl⟩, rfl⟩ := h
  exact ⟨h1, h2, rfl⟩

end Verif.Controller
