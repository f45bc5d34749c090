import Verif.Controller.Lemmas2
import Verif.Gov.Props

/-!
# Governance controller: property theorems for single messages and for the controller on its own
(C46, C48, C49, C50, C51, C52, C53, C56, C59, C60)

The statements about several contracts together are in `Verif/Dao/Props.lean`.
Vocabulary: `Verif/Controller/Spec.lean`, `Verif/Gov/Spec.lean`.
-/

set_option linter.unusedSimpArgs false

namespace Verif.Controller
open Verif
open Verif.Staking (Duration At)

/-! ### A sample -/

/-- A token DAO: users 7 and 8 have weights 40 and 30, user 9 is the council; the controller is at address 1. -/
def sampleEnv (now : Nat) : Env :=
  { block := ⟨now, now⟩, self := 1, creator := 2, comps := ⟨10, 11, 12, 13, 14, 15⟩, daoType := .token,
    version := (1, 0, 0), restricted := fun u => decide (u = 66),
    weight := fun u => if u = 7 then 40 else if u = 8 then 30 else 0, total := fun _ => 70,
    councilWeight := fun u => if u = 9 then 1 else 0, councilTotal := fun _ => 1,
    token := some 20, nft := none, denom := none, owner := fun _ => none, parses := fun _ => true }

/-- Configuration of the sample: quorum 10 %, threshold 50 %, votes of 100 seconds, early execution. -/
def sampleConfig : GovConfig := ⟨ONE / 10, ONE / 2, none, 100, none, true⟩

/-- The new controller of the sample. -/
def sampleInit : State :=
  { creating := none, executing := none, voting := none, enterprise := 3, config := sampleConfig,
    council := some ⟨[.upgradeDao, .updateMetadata], ONE / 2, ONE / 2⟩, created := 0, treasuries := some [],
    infos := Map.empty }

/-- A change of the quorum to 20 %. -/
def sampleChange : GovChange := ⟨some (ONE / 5), none, none, none, none, none, none⟩

/-- A history: 7 proposes to change the quorum and votes for it, the council proposes and votes for an upgrade, the
first proposal is executed early, which runs its actions. -/
def sampleHistory : List (Env × Addr × Msg) :=
  [ (sampleEnv 10, 7, .createProposal ⟨0, 0, [.updateGovConfig sampleChange], none⟩ []),
    (sampleEnv 20, 7, .castVote 1 .yes),
    (sampleEnv 30, 9, .createCouncil ⟨1, 0, [.upgradeDao (1, 1, 0)], none⟩),
    (sampleEnv 40, 9, .castCouncilVote 2 .yes),
    (sampleEnv (20 * 10 ^ 9), 8, .execute 1),
    (sampleEnv (20 * 10 ^ 9), 1, .executeActions 1) ]

/-- The state after the first `n` messages of the sample. -/
def sampleAfter (n : Nat) : State × Gov.State := run (sampleInit, Gov.init 1) (sampleHistory.take n)

theorem sampleInit_ok : init ⟨0, 0⟩ 3 .token sampleConfig
    (some ⟨[9], ONE / 2, ONE / 2, some [.upgradeDao, .updateMetadata]⟩) [] [] = .ok sampleInit := by decide +kernel

theorem run_reachable {t : DaoType} : ∀ (h : List (Env × Addr × Msg)) {s : State × Gov.State}, Reachable t s.1 →
    (∀ c ∈ h, c.1.daoType = t) → Reachable t (run s h).1 := by
  intro h
  induction h with
  | nil => intro s hs _; exact hs
  | cons c l ih =>
    intro s hs ht
    refine ih (s := step s c) ?_ (fun x hx => ht x (List.mem_cons_of_mem _ hx))
    unfold step
    cases hx : exec c.1 c.2.1 s.1 s.2 c.2.2 with
    | error _ => exact hs
    | ok r => exact hs.step (ht c List.mem_cons_self) hx

theorem sample_reachable (n : Nat) : Reachable .token (sampleAfter n).1 := by
  refine run_reachable _ (.init sampleInit_ok) (fun c hc => ?_)
  have := List.mem_of_mem_take hc
  simp only [sampleHistory, List.mem_cons, List.not_mem_nil, or_false] at this
  rcases this with rfl | rfl | rfl | rfl | rfl | rfl <;> rfl

/-! ## C46 -/

theorem bodyTotal_eq (e : Env) (a : At) (t : PType) : totalVotes e a t = e.bodyTotal a t := by
  cases t <;> rfl

/-- `ExecuteProposal` succeeds exactly when the sender is not restricted, the proposal exists and was not executed
yet, its earliest execution time has come, and either voting is over, or early execution is enabled (it always is for
council proposals), quorum is met and some option other than abstain reaches its threshold, all measured against a
total weight that is not zero. -/
theorem C46_execute_iff {e : Env} {u : Addr} {s : State} {g : Gov.State} {id : Nat} (hg : Gov.Reachable g)
    (ha : g.admin = e.self) (hfit : Gov.votedTotal g id < 2 ^ 128) :
    (∃ r, exec e u s g (.execute id) = .ok r) ↔
      e.restricted u = false ∧ ∃ i p, s.infos.get id = some i ∧ Gov.queryPoll g id = .ok p ∧ i.executedAt = none ∧
        (∀ t, i.earliest = some t → t ≤ e.block.time) ∧
        ((p.endsAt ≤ e.block.time ∧ e.bodyTotal (.time p.endsAt) i.type ≠ 0) ∨
         (e.block.time < p.endsAt ∧ (i.type = .general → s.config.early = true) ∧ e.bodyTotal .never i.type ≠ 0 ∧
          Gov.quorumMet (Gov.votedTotal g id) (e.bodyTotal .never i.type) p.quorum ∧ Gov.someOptionReaches g id p)) := by
  have hpast : ∀ i : Info, i.pastEarliest e.block.time = true ↔ ∀ t, i.earliest = some t → t ≤ e.block.time := by
    intro i
    unfold Info.pastEarliest
    cases i.earliest with
    | none => simp
    | some t => simp
  have hearly : ∀ t : PType, allowsEarly s t = true ↔ (t = .general → s.config.early = true) := by
    intro t; cases t <;> simp [allowsEarly]
  have hcore : ∀ (i : Info) (p : Gov.Poll), g.polls.get id = some p →
      ((endTotal e p i.type ≠ 0 ∧ (p.endsAt ≤ e.block.time ∨
        (allowsEarly s i.type = true ∧ Gov.earlyOk (endTotal e p i.type) p))) ↔
      ((p.endsAt ≤ e.block.time ∧ e.bodyTotal (.time p.endsAt) i.type ≠ 0) ∨
         (e.block.time < p.endsAt ∧ (i.type = .general → s.config.early = true) ∧ e.bodyTotal .never i.type ≠ 0 ∧
          Gov.quorumMet (Gov.votedTotal g id) (e.bodyTotal .never i.type) p.quorum ∧
          Gov.someOptionReaches g id p))) := by
    intro i p hp
    rw [Gov.earlyOk_iff hg.inv hp hfit, hearly]
    unfold endTotal
    by_cases h : p.endsAt ≤ e.block.time
    · have h' : ¬ e.block.time < p.endsAt := by omega
      simp only [h, if_true, bodyTotal_eq, h', true_or, and_true, true_and, false_and, or_false]
    · have h' : e.block.time < p.endsAt := by omega
      simp only [h, if_false, bodyTotal_eq, h', false_or, true_and, false_and]
      constructor
      · rintro ⟨h1, h2, h3⟩; exact ⟨h2, h1, h3⟩
      · rintro ⟨h1, h2, h3⟩; exact ⟨h2, h1, h3⟩
  simp only [exec]
  constructor
  · rintro ⟨r, hr⟩
    obtain ⟨h1, i, p, hi, hp, h2, h3, h4, _, h6, _⟩ := executeProposal_ok_iff.1 hr
    exact ⟨h1, i, p, hi, queryPoll_ok_iff.2 hp, h2, (hpast i).1 h3, (hcore i p hp).1 ⟨h4, h6⟩⟩
  · rintro ⟨h1, i, p, hi, hp, h2, h3, h4⟩
    have hp := queryPoll_ok_iff.1 hp
    obtain ⟨h5, h6⟩ := (hcore i p hp).2 h4
    exact ⟨_, executeProposal_ok_iff.2 ⟨h1, i, p, hi, hp, h2, (hpast i).2 h3, h5, ha.symm, h6, rfl⟩⟩

/-- In the sample, the proposal can be executed ten seconds after the vote, and not before. -/
example : Gov.votedTotal (sampleAfter 4).2 1 < 2 ^ 128 ∧ (sampleAfter 4).2.admin = 1 ∧
    (exec (sampleEnv (10 ^ 10 + 20)) 8 (sampleAfter 4).1 (sampleAfter 4).2 (.execute 1)).isOk = true ∧
    (exec (sampleEnv (10 ^ 10 + 19)) 8 (sampleAfter 4).1 (sampleAfter 4).2 (.execute 1)).isOk = false := by
  decide +kernel

/-! ## C48 -/

/-- `ExecuteProposalActions` is refused unless the controller itself sends it. -/
theorem C48_internal_entry_point {e : Env} {u : Addr} {s : State} {g : Gov.State} {id : Nat} (hu : u ≠ e.self) :
    exec e u s g (.executeActions id) = .error .unauthorized := by
  show (executeActions e u s id >>= _) = _
  unfold executeActions
  rw [if_pos hu]
  rfl

example : exec (sampleEnv (20 * 10 ^ 9)) 7 (sampleAfter 5).1 (sampleAfter 5).2 (.executeActions 1) =
    .error .unauthorized := C48_internal_entry_point (by decide)

/-! ## C49 -/

/-- A council proposal is created only by a user with council weight, not restricted, while a council is set, and each
of its actions is of a type allowed for the council. -/
theorem C49_create_council {e : Env} {u : Addr} {s : State} {g : Gov.State} {p : Proposal}
    {r : State × Gov.State × List Sub} (h : exec e u s g (.createCouncil p) = .ok r) :
    0 < e.councilWeight u ∧ e.restricted u = false ∧ r.2.2 = [] ∧
      ∃ c, s.council = some c ∧ (∀ a ∈ p.actions, a.Among c.allowed) ∧
        r.1.infos.get r.2.1.pollCount = some ⟨.council, none, none, none, p.actions⟩ := by
  simp only [exec, bind_ok_iff, pure_ok_iff] at h
  obtain ⟨r1, h1, rfl⟩ := h
  obtain ⟨h1, c, hc, _, _, h4, h5, _, _, h8⟩ := createCouncil_ok_iff.1 h1
  refine ⟨by omega, h1, rfl, c, hc, fun a ha => among_iff.2 (h5 a ha), ?_⟩
  show r1.1.infos.get r1.2.pollCount = _
  rw [h8]
  exact Map.get_set_self _ _ _

example : (exec (sampleEnv 30) 9 (sampleAfter 2).1 (sampleAfter 2).2
      (.createCouncil ⟨1, 0, [.upgradeDao (1, 1, 0)], none⟩)).isOk = true ∧
    exec (sampleEnv 30) 7 (sampleAfter 2).1 (sampleAfter 2).2
      (.createCouncil ⟨1, 0, [.upgradeDao (1, 1, 0)], none⟩) = .error .unauthorized ∧
    exec (sampleEnv 30) 9 (sampleAfter 2).1 (sampleAfter 2).2
      (.createCouncil ⟨1, 0, [.updateGovConfig sampleChange], none⟩) = .error .unsupported := by decide +kernel

/-- What every message keeps. -/
structure Safe (t : DaoType) (s : State) : Prop where
  config : ValidConfig t s.config
  council : ∀ c, s.council = some c → ValidCouncil c
  ten : ∀ id i, s.infos.get id = some i → i.actions.length ≤ 10
  free : ∀ id i, s.infos.get id = some i → i.type = .council → ∀ a ∈ i.actions, a.type ∈ harmless

theorem Safe.set {t : DaoType} {s : State} (h : Safe t s) {id : Nat} {i : Info} (h1 : i.actions.length ≤ 10)
    (h2 : i.type = .council → ∀ a ∈ i.actions, a.type ∈ harmless) : ∀ s' : State, s'.config = s.config →
    s'.council = s.council → s'.infos = s.infos.set id i → Safe t s' := by
  intro s' e1 e2 e3
  refine ⟨by rw [e1]; exact h.config, by rw [e2]; exact h.council, ?_, ?_⟩
  · intro j x hx
    rw [e3, Map.get_set] at hx
    by_cases hj : id = j
    · rw [if_pos hj] at hx; cases hx; exact h1
    · rw [if_neg hj] at hx; exact h.ten j x hx
  · intro j x hx
    rw [e3, Map.get_set] at hx
    by_cases hj : id = j
    · rw [if_pos hj] at hx; cases hx; exact h2
    · rw [if_neg hj] at hx; exact h.free j x hx

theorem Safe.step {t : DaoType} {s : State} (h : Safe t s) {e : Env} {u : Addr} {g : Gov.State} {m : Msg}
    {r : State × Gov.State × List Sub} (ht : e.daoType = t) (hr : exec e u s g m = .ok r) : Safe t r.1 := by
  have hcreate : m.isCreate = true → Safe t r.1 := by
    intro hm
    obtain ⟨i, cp, hc, _⟩ := created_exec hm hr
    refine h.set (id := r.2.1.pollCount) hc.ten (fun hi a ha => ?_) r.1 ?_ ?_ ?_
    · obtain ⟨_, c, h1, h2⟩ := hc.council hi
      exact (h.council c h1).allowed _ (h2 a ha)
    all_goals rw [hc.state]; rfl
  cases m with
  | createProposal p f => exact hcreate rfl
  | createWithNft p l => exact hcreate rfl
  | createCouncil p => exact hcreate rfl
  | receive f a p => exact hcreate rfl
  | castVote id o =>
    simp only [exec, bind_ok_iff, pure_ok_iff] at hr
    obtain ⟨r1, h1, rfl⟩ := hr
    obtain ⟨_, _, i, p, q, hi, _, _, _, _, _, hs⟩ := castVote_ok_iff.1 h1
    show Safe t r1.1
    rw [hs]
    unfold voted
    split
    · unfold restartCooldown
      split
      · refine h.set (id := id) (i := { i with earliest := some (min (plusSeconds e.block.time
          (s.config.voteDuration / 10)) q.endsAt) }) (h.ten id i hi) (h.free id i hi) _ rfl rfl rfl
      · exact { h with }
    · exact { h with }
  | castCouncilVote id o =>
    simp only [exec, bind_ok_iff, pure_ok_iff] at hr
    obtain ⟨r1, h1, rfl⟩ := hr
    obtain ⟨_, _, _, i, hi, _, _, _, hs⟩ := castCouncilVote_ok_iff.1 h1
    show Safe t r1.1
    rw [hs]; exact h
  | execute id =>
    simp only [exec] at hr
    obtain ⟨_, i, p, hi, _, _, _, _, _, _, rfl⟩ := executeProposal_ok_iff.1 hr
    exact h.set (id := id) (i := { i with executedAt := some e.block }) (h.ten id i hi) (h.free id i hi) _ rfl rfl rfl
  | weightsChanged l =>
    simp only [exec, bind_ok_iff, pure_ok_iff] at hr
    obtain ⟨r1, h1, rfl⟩ := hr
    exact h
  | executeActions id =>
    simp only [exec, bind_ok_iff, pure_ok_iff] at hr
    obtain ⟨r1, h1, rfl⟩ := hr
    obtain ⟨_, i, hi, h2⟩ := executeActions_ok_iff.1 h1
    obtain ⟨hc, _⟩ := actAll_ok _ h2
    show Safe t r1.1
    refine ⟨?_, ?_, ?_, ?_⟩
    · rcases hc.config with hh | ⟨hh, _⟩
      · rw [hh]; exact h.config
      · rw [← ht]; exact hh
    · rcases hc.council with hh | ⟨hh, _⟩
      · rw [hh]; exact h.council
      · exact hh
    · rw [hc.same]; exact h.ten
    · rw [hc.same]; exact h.free
  | deployInitial =>
    simp only [exec, bind_ok_iff, pure_ok_iff] at hr
    obtain ⟨r1, h1, rfl⟩ := hr
    obtain ⟨_, _, rfl⟩ := deployInitial_ok_iff.1 h1
    exact { h with }

theorem Reachable.safe {t : DaoType} {s : State} (h : Reachable t s) : Safe t s := by
  induction h with
  | @init _ _ _ spec _ _ h =>
    obtain ⟨h1, h2, rfl⟩ := init_ok h
    refine ⟨h1, ?_, fun id i hi => (by cases hi), fun id i hi => (by cases hi)⟩
    intro c hc
    cases spec with
    | none => cases hc
    | some x => cases hc; exact (h2 x rfl).2
  | step h ht hx ih => exact ih.step ht hx

/-- The types of actions allowed for the council never include those that could change governance or membership, move
funds or send custom messages; neither does any council proposal, whenever it was created. -/
theorem C49_council_harmless {t : DaoType} {s : State} (h : Reachable t s) :
    (∀ c, s.council = some c → ∀ a ∈ c.allowed, a ∈ harmless) ∧
    (∀ id i, s.infos.get id = some i → i.type = .council → ∀ a ∈ i.actions, a.Among harmless) :=
  ⟨fun c hc => (h.safe.council c hc).allowed, fun id i hi hc a ha => among_iff.2 (h.safe.free id i hi hc a ha)⟩

example : Reachable .token (sampleAfter 6).1 ∧
    ((sampleAfter 6).1.infos.get 2).map (fun i => (i.type, i.actions)) = some (.council, [.upgradeDao (1, 1, 0)]) ∧
    (sampleAfter 6).1.council.isSome = true := ⟨sample_reachable 6, by decide +kernel⟩

/-- Proposals of the council type are only stored by `CreateCouncilProposal`, and a stored proposal keeps its type and
its actions unless its id is used again. -/
theorem C49_only_way {e : Env} {u : Addr} {s : State} {g : Gov.State} {m : Msg} {r : State × Gov.State × List Sub}
    (h : exec e u s g m = .ok r) {id : Nat} {i' : Info} (hi : r.1.infos.get id = some i') :
    (∃ i, s.infos.get id = some i ∧ i.type = i'.type ∧ i.actions = i'.actions ∧ i.deposit = i'.deposit) ∨
    (id = r.2.1.pollCount ∧ ((m.isGeneral = true ∧ i'.type = .general) ∨
      (∃ p, m = .createCouncil p ∧ i'.type = .council ∧ i'.actions = p.actions))) := by
  have keep : r.1.infos = s.infos → ∃ i, s.infos.get id = some i ∧ i.type = i'.type ∧ i.actions = i'.actions ∧
      i.deposit = i'.deposit := by
    intro hh; rw [hh] at hi; exact ⟨i', hi, rfl, rfl, rfl⟩
  have setk : ∀ {j : Nat} {x y : Info}, s.infos.get j = some x → r.1.infos = s.infos.set j y → x.type = y.type →
      x.actions = y.actions → x.deposit = y.deposit → ∃ i, s.infos.get id = some i ∧ i.type = i'.type ∧
        i.actions = i'.actions ∧ i.deposit = i'.deposit := by
    intro j x y hx hs h1 h2 h3
    rw [hs, Map.get_set] at hi
    by_cases hj : j = id
    · subst hj
      rw [if_pos rfl] at hi; cases hi
      exact ⟨x, hx, h1, h2, h3⟩
    · rw [if_neg hj] at hi; exact ⟨i', hi, rfl, rfl, rfl⟩
  have gen : ∀ {p : Proposal} {d : Option Deposit} {v : Addr} {r1 : State × Gov.State},
      createProposal e s g p d v = .ok r1 → r.1 = r1.1 → r.2.1 = r1.2 → m.isGeneral = true →
      (∃ i, s.infos.get id = some i ∧ i.type = i'.type ∧ i.actions = i'.actions ∧ i.deposit = i'.deposit) ∨
      (id = r.2.1.pollCount ∧ ((m.isGeneral = true ∧ i'.type = .general) ∨
        (∃ p, m = .createCouncil p ∧ i'.type = .council ∧ i'.actions = p.actions))) := by
    intro p d v r1 hc e1 e2 hm
    have hs := (created_general hc).state
    rw [e1, hs] at hi
    unfold State.added at hi
    simp only [Map.get_set] at hi
    by_cases hj : r1.2.pollCount = id
    · rw [if_pos hj] at hi; cases hi
      exact Or.inr ⟨by rw [e2]; exact hj.symm, Or.inl ⟨hm, rfl⟩⟩
    · rw [if_neg hj] at hi; exact Or.inl ⟨i', hi, rfl, rfl, rfl⟩
  cases m with
  | createProposal p f =>
    simp only [exec, bind_ok_iff, pure_ok_iff] at h
    obtain ⟨r1, h1, rfl⟩ := h
    exact gen (createWithFunds_ok h1) rfl rfl rfl
  | createWithNft p l =>
    simp only [exec] at h
    obtain ⟨_, _, nft, _, h3, h4⟩ := createWithNft_ok_iff.1 h
    exact gen h4 rfl rfl rfl
  | createCouncil p =>
    simp only [exec, bind_ok_iff, pure_ok_iff] at h
    obtain ⟨r1, h1, rfl⟩ := h
    obtain ⟨_, c, _, _, _, _, _, _, _, hs⟩ := createCouncil_ok_iff.1 h1
    simp only at hi
    rw [hs] at hi
    unfold State.added at hi
    simp only [Map.get_set] at hi
    by_cases hj : r1.2.pollCount = id
    · rw [if_pos hj] at hi; cases hi
      exact Or.inr ⟨hj.symm, Or.inr ⟨p, rfl, rfl, rfl⟩⟩
    · rw [if_neg hj] at hi; exact Or.inl ⟨i', hi, rfl, rfl, rfl⟩
  | receive f a p =>
    simp only [exec, bind_ok_iff, pure_ok_iff] at h
    obtain ⟨r1, h1, rfl⟩ := h
    obtain ⟨q, _, _, _, h2⟩ := receive_ok_iff.1 h1
    exact gen h2 rfl rfl rfl
  | castVote j o =>
    simp only [exec, bind_ok_iff, pure_ok_iff] at h
    obtain ⟨r1, h1, rfl⟩ := h
    obtain ⟨_, _, x, p, q, hx, _, _, _, _, _, hs⟩ := castVote_ok_iff.1 h1
    left
    unfold voted at hs
    split at hs
    · unfold restartCooldown at hs
      split at hs
      · exact setk (y := { x with earliest := some (min (plusSeconds e.block.time (s.config.voteDuration / 10))
          q.endsAt) }) hx (by simp only [hs]) rfl rfl rfl
      · exact keep (by simp only [hs])
    · exact keep (by simp only [hs])
  | castCouncilVote j o =>
    simp only [exec, bind_ok_iff, pure_ok_iff] at h
    obtain ⟨r1, h1, rfl⟩ := h
    obtain ⟨_, _, _, x, hx, _, _, _, hs⟩ := castCouncilVote_ok_iff.1 h1
    exact Or.inl (keep (by simp only [hs]))
  | execute j =>
    simp only [exec] at h
    obtain ⟨_, x, p, hx, _, _, _, _, _, _, rfl⟩ := executeProposal_ok_iff.1 h
    exact Or.inl (setk (j := j) (y := { x with executedAt := some e.block }) hx rfl rfl rfl rfl)
  | weightsChanged l =>
    simp only [exec, bind_ok_iff, pure_ok_iff] at h
    obtain ⟨r1, h1, rfl⟩ := h
    exact Or.inl (keep rfl)
  | executeActions j =>
    simp only [exec, bind_ok_iff, pure_ok_iff] at h
    obtain ⟨r1, h1, rfl⟩ := h
    obtain ⟨_, x, hx, h2⟩ := executeActions_ok_iff.1 h1
    exact Or.inl (keep (by show r1.1.infos = _; rw [(actAll_ok _ h2).1.same]))
  | deployInitial =>
    simp only [exec, bind_ok_iff, pure_ok_iff] at h
    obtain ⟨r1, h1, rfl⟩ := h
    obtain ⟨_, _, rfl⟩ := deployInitial_ok_iff.1 h1
    exact Or.inl (keep rfl)

/-! ## C50 -/

/-- Every stored proposal has at most ten actions. -/
theorem C50_ten_actions {t : DaoType} {s : State} (h : Reachable t s) {id : Nat} {i : Info}
    (hi : s.infos.get id = some i) : i.actions.length ≤ 10 := h.safe.ten id i hi

/-- Ten actions are accepted, eleven are not. -/
example : (exec (sampleEnv 10) 7 sampleInit (Gov.init 1)
      (.createProposal ⟨0, 0, List.replicate 10 (.updateMetadata 5), none⟩ [])).isOk = true ∧
    exec (sampleEnv 10) 7 sampleInit (Gov.init 1)
      (.createProposal ⟨0, 0, List.replicate 11 (.updateMetadata 5), none⟩ []) = .error .invalidArgument := by
  decide +kernel

/-! ## C51 -/

/-- In every state the governance configuration is valid, and so is the council's. -/
theorem C51_config_valid {t : DaoType} {s : State} (h : Reachable t s) :
    ValidConfig t s.config ∧ ∀ c, s.council = some c → Fraction c.quorum ∧ Fraction c.threshold :=
  ⟨h.safe.config, fun c hc => ⟨(h.safe.council c hc).quorum, (h.safe.council c hc).threshold⟩⟩

/-- A message that changes the configuration is the controller's own `ExecuteProposalActions`, for a proposal with an
action that changes it. -/
theorem C51_config_change {e : Env} {u : Addr} {s : State} {g : Gov.State} {m : Msg}
    {r : State × Gov.State × List Sub} (h : exec e u s g m = .ok r) (hne : r.1.config ≠ s.config) :
    ∃ id i c, m = .executeActions id ∧ u = e.self ∧ s.infos.get id = some i ∧ Action.updateGovConfig c ∈ i.actions := by
  have hcreate : m.isCreate = true → False := by
    intro hm
    obtain ⟨i, cp, hc, _⟩ := created_exec hm h
    exact hne (by rw [hc.state]; rfl)
  cases m with
  | createProposal p f => exact (hcreate rfl).elim
  | createWithNft p l => exact (hcreate rfl).elim
  | createCouncil p => exact (hcreate rfl).elim
  | receive f a p => exact (hcreate rfl).elim
  | castVote id o =>
    simp only [exec, bind_ok_iff, pure_ok_iff] at h
    obtain ⟨r1, h1, rfl⟩ := h
    obtain ⟨_, _, i, p, q, hi, _, _, _, _, _, hs⟩ := castVote_ok_iff.1 h1
    refine absurd ?_ hne
    show r1.1.config = _
    rw [hs]
    unfold voted restartCooldown
    split <;> first | rfl | (split <;> rfl)
  | castCouncilVote id o =>
    simp only [exec, bind_ok_iff, pure_ok_iff] at h
    obtain ⟨r1, h1, rfl⟩ := h
    obtain ⟨_, _, _, i, hi, _, _, _, hs⟩ := castCouncilVote_ok_iff.1 h1
    exact absurd (by simp only [hs]) hne
  | execute id =>
    simp only [exec] at h
    obtain ⟨_, i, p, hi, _, _, _, _, _, _, rfl⟩ := executeProposal_ok_iff.1 h
    exact absurd rfl hne
  | weightsChanged l =>
    simp only [exec, bind_ok_iff, pure_ok_iff] at h
    obtain ⟨r1, h1, rfl⟩ := h
    exact absurd rfl hne
  | executeActions id =>
    simp only [exec, bind_ok_iff, pure_ok_iff] at h
    obtain ⟨r1, h1, rfl⟩ := h
    obtain ⟨hu, i, hi, h2⟩ := executeActions_ok_iff.1 h1
    rcases (actAll_ok _ h2).1.config with hh | ⟨_, c, hc⟩
    · exact absurd hh hne
    · exact ⟨id, i, c, rfl, hu, hi, hc⟩
  | deployInitial =>
    simp only [exec, bind_ok_iff, pure_ok_iff] at h
    obtain ⟨r1, h1, rfl⟩ := h
    obtain ⟨_, _, rfl⟩ := deployInitial_ok_iff.1 h1
    exact absurd rfl hne

/-- The sample changes the quorum from 10 % to 20 %. -/
example : Reachable .token (sampleAfter 6).1 ∧ (sampleAfter 5).1.config.quorum = ONE / 10 ∧
    (sampleAfter 6).1.config.quorum = ONE / 5 := ⟨sample_reachable 6, by decide +kernel⟩

/-! ## C52 -/

/-- A general proposal is created only on behalf of a user who is not restricted and who is a member, if the DAO asks
for no deposit, or whose attached deposit reaches the minimum, if it does. The proposal keeps a record of the deposit
and belongs to that user. -/
theorem C52_general_proposal {e : Env} {u : Addr} {s : State} {g : Gov.State} {m : Msg} (hm : m.isGeneral = true)
    {r : State × Gov.State × List Sub} (h : exec e u s g m = .ok r) :
    e.restricted (proposerOf u m) = false ∧
    (match s.config.minDeposit with
      | none => 0 < e.weight (proposerOf u m)
      | some minimum => minimum ≤ attached e m) ∧
    ∃ i p, r.1.infos.get r.2.1.pollCount = some i ∧ i.type = .general ∧
      worth i.deposit = attached e m ∧
      Gov.queryPoll r.2.1 r.2.1.pollCount = .ok p ∧ p.proposer = proposerOf u m := by
  simp only [worth_eq]
  have gen : ∀ {p : Proposal} {d : Option Deposit} {r1 : State × Gov.State},
      createProposal e s g p d (proposerOf u m) = .ok r1 → (d.map Deposit.amount).getD 0 = attached e m →
      e.restricted (proposerOf u m) = false ∧
      (match s.config.minDeposit with
        | none => 0 < e.weight (proposerOf u m)
        | some minimum => minimum ≤ attached e m) ∧
      ∃ i p, r1.1.infos.get r1.2.pollCount = some i ∧ i.type = .general ∧
        (i.deposit.map Deposit.amount).getD 0 = attached e m ∧
        Gov.queryPoll r1.2 r1.2.pollCount = .ok p ∧ p.proposer = proposerOf u m := by
    intro p d r1 hc hd
    obtain ⟨h1, h2, _, _, _, h3, h4⟩ := createProposal_ok_iff.1 hc
    refine ⟨h1, ?_, ?_⟩
    · rcases h2 with ⟨hn, hw⟩ | ⟨x, hx, hle⟩
      · rw [hn]; simp only; omega
      · rw [hx]; simp only; rw [← hd]; exact hle
    · obtain ⟨_, _, hg⟩ := Gov.createPoll_ok_iff.1 h3
      have hq : ∃ q, r1.2.polls.get r1.2.pollCount = some q ∧ q.proposer = proposerOf u m := by
        rw [hg]; exact ⟨_, Map.get_set_self _ _ _, rfl⟩
      obtain ⟨q, hq1, hq2⟩ := hq
      refine ⟨⟨.general, none, none, d, p.actions⟩, q, ?_, rfl, hd, queryPoll_ok_iff.2 hq1, hq2⟩
      rw [h4]; exact Map.get_set_self _ _ _
  cases m with
  | createProposal p f =>
    simp only [exec, bind_ok_iff, pure_ok_iff] at h
    obtain ⟨r1, h1, rfl⟩ := h
    refine gen (createWithFunds_ok h1) ?_
    unfold fundsDeposit attached
    cases ht : e.daoType <;> simp only [reduceCtorEq, if_true, if_false] <;> try rfl
    cases hd : e.denom with
    | none =>
      simp only [createWithFunds, ht, hd] at h1
      cases h1
    | some d =>
      have : (fun c : Nat × Nat => decide (some c.1 = some d)) = (fun c => decide (c.1 = d)) := by
        funext c; simp
      simp only [this]
      cases f.find? (fun c => decide (c.1 = d)) <;> rfl
  | createWithNft p l =>
    simp only [exec] at h
    obtain ⟨_, _, nft, _, h3, h4⟩ := createWithNft_ok_iff.1 h
    exact gen h4 rfl
  | receive f a p =>
    simp only [exec, bind_ok_iff, pure_ok_iff] at h
    obtain ⟨r1, h1, rfl⟩ := h
    obtain ⟨q, _, _, _, h2⟩ := receive_ok_iff.1 h1
    exact gen h2 rfl
  | createCouncil p => cases hm
  | castVote _ _ => cases hm
  | castCouncilVote _ _ => cases hm
  | execute _ => cases hm
  | weightsChanged _ => cases hm
  | executeActions _ => cases hm
  | deployInitial => cases hm

/-- The deposit of a cw20 proposal is in the token of the DAO; the one of an NFT proposal is made of distinct NFTs of
the DAO's collection, each owned by the proposer or approved for them, which are transferred to the controller. -/
theorem C52_deposit_taken {e : Env} {u : Addr} {s : State} {g : Gov.State} {r : State × Gov.State × List Sub} :
    (∀ f a p, exec e u s g (.receive f a p) = .ok r → e.daoType = .token ∧ e.token = some u) ∧
    (∀ p l, exec e u s g (.createWithNft p l) = .ok r → e.daoType = .nft ∧ l.Nodup ∧
      (∀ t ∈ l, ∃ o sp, e.owner t = some (o, sp) ∧ (o = u ∨ u ∈ sp)) ∧
      ∃ nft, e.nft = some nft ∧ r.2.2 = l.map (.takeNft nft)) := by
  constructor
  · intro f a p h
    simp only [exec, bind_ok_iff, pure_ok_iff] at h
    obtain ⟨r1, h1, rfl⟩ := h
    obtain ⟨q, _, h2, h3, _⟩ := receive_ok_iff.1 h1
    exact ⟨h2, h3⟩
  · intro p l h
    simp only [exec] at h
    obtain ⟨h1, h2, nft, h3, h4, _⟩ := createWithNft_ok_iff.1 h
    obtain ⟨h5, h6⟩ := takeNfts_ok l h4
    exact ⟨h1, h2, h6, nft, h3, h5⟩

/-- Members, depositors and others, with and without a minimum deposit of 5. -/
example :
    let p : Proposal := ⟨0, 0, [.updateMetadata 5], none⟩
    let s5 := { sampleInit with config := { sampleConfig with minDeposit := some 5 } }
    (exec (sampleEnv 10) 7 sampleInit (Gov.init 1) (.createProposal p [])).isOk = true ∧
    exec (sampleEnv 10) 5 sampleInit (Gov.init 1) (.createProposal p []) = .error .unauthorized ∧
    (exec (sampleEnv 10) 20 s5 (Gov.init 1) (.receive 5 5 (some p))).isOk = true ∧
    exec (sampleEnv 10) 20 s5 (Gov.init 1) (.receive 5 4 (some p)) = .error .insufficient ∧
    exec (sampleEnv 10) 21 s5 (Gov.init 1) (.receive 5 5 (some p)) = .error .invalidArgument ∧
    exec (sampleEnv 10) 7 s5 (Gov.init 1) (.createProposal p []) = .error .insufficient ∧
    exec (sampleEnv 10) 20 s5 (Gov.init 1) (.receive 66 5 (some p)) = .error .restricted := by decide +kernel

/-! ## C53 -/

theorem forwarded_iff {e : Env} : ∀ (l : List WeightChange) {g g' : Gov.State},
    updateAllVotes e g l = .ok g' ↔ Forwarded e.block.time e.self g l g' := by
  intro l
  induction l with
  | nil =>
    intro g g'
    constructor
    · intro h; cases h; exact .nil _
    · intro h; cases h; rfl
  | cons c t ih =>
    intro g g'
    unfold updateAllVotes
    rw [foldlM_cons_ok_iff]
    constructor
    · rintro ⟨g1, h1, h2⟩
      exact .cons h1 (ih.1 h2)
    · intro h
      cases h with
      | cons h1 h2 => exact ⟨_, h1, ih.2 h2⟩

/-- `WeightsChanged` succeeds exactly when it comes from the council membership contract, and then does nothing, or
from the membership contract, and then each change is sent to governance as `UpdateVotes` and the whole list to the
funds distributor; nothing else changes. -/
theorem C53_weights_changed {e : Env} {u : Addr} {s : State} {g : Gov.State} {l : List WeightChange}
    {r : State × Gov.State × List Sub} :
    exec e u s g (.weightsChanged l) = .ok r ↔
      (u = e.comps.council ∧ r = (s, g, [])) ∨
      (u ≠ e.comps.council ∧ u = e.comps.membership ∧
        ∃ g', Forwarded e.block.time e.self g l g' ∧
          r = (s, g', [.distributor (.updateWeights (l.map (fun c => (c.user, c.new))))])) := by
  simp only [exec, bind_ok_iff, pure_ok_iff]
  constructor
  · rintro ⟨r1, h1, rfl⟩
    rcases weightsChanged_ok_iff.1 h1 with ⟨h, rfl⟩ | ⟨h, h2, h3, h4⟩
    · exact Or.inl ⟨h, rfl⟩
    · exact Or.inr ⟨h, h2, r1.1, (forwarded_iff l).1 h3, by rw [← h4]⟩
  · rintro (⟨h, rfl⟩ | ⟨h, h2, g', h3, rfl⟩)
    · exact ⟨(g, []), weightsChanged_ok_iff.2 (Or.inl ⟨h, rfl⟩), rfl⟩
    · exact ⟨(g', _), weightsChanged_ok_iff.2 (Or.inr ⟨h, h2, (forwarded_iff l).2 h3, rfl⟩), rfl⟩

/-- Any other sender is refused. -/
theorem C53_refused {e : Env} {u : Addr} {s : State} {g : Gov.State} (l : List WeightChange)
    (h1 : u ≠ e.comps.council) (h2 : u ≠ e.comps.membership) :
    exec e u s g (.weightsChanged l) = .error .unauthorized := by
  show (weightsChanged e u g l >>= _) = _
  unfold weightsChanged
  rw [if_neg h1, if_pos h2]
  rfl

/-- In the sample the membership contract (12) reports that the weight of 7 is now 25; others cannot. -/
example : (exec (sampleEnv 50) 12 (sampleAfter 4).1 (sampleAfter 4).2 (.weightsChanged [⟨7, 40, 25⟩])).toOption.map
      (fun r => ((Gov.queryPollVoter r.2.1 1 7).map (·.amount), r.2.2)) =
        some (some 25, [.distributor (.updateWeights [(7, 25)])]) ∧
    exec (sampleEnv 50) 7 (sampleAfter 4).1 (sampleAfter 4).2 (.weightsChanged [⟨7, 40, 25⟩]) =
      .error .unauthorized := by decide +kernel

/-! ## C56 -/

theorem expected_eq_iff (a b : Gov.Status) (ha : ∀ o n, a = .passed o n → o = 0) (hb : ∀ o n, b = .passed o n → o = 0)
    (ha' : ∀ x y n, a = .rejected (.outcomeDraw x y n) → x = 0 ∧ y = 1)
    (hb' : ∀ x y n, b = .rejected (.outcomeDraw x y n) → x = 0 ∧ y = 1) :
    expected a = expected b ↔ executability a = executability b := by
  cases a with
  | inProgress x =>
    cases b with
    | inProgress y => simp [expected, executability]
    | passed o n => simp [expected, executability]
    | rejected r => cases r <;> simp [expected, executability]
  | passed o n =>
    cases b with
    | inProgress y => simp [expected, executability]
    | passed o' n' => simp [expected, executability, ha o n rfl, hb o' n' rfl]
    | rejected r => cases r <;> simp [expected, executability]
  | rejected r =>
    cases b with
    | inProgress y => cases r <;> simp [expected, executability]
    | passed o n => cases r <;> simp [expected, executability]
    | rejected r' =>
      cases r <;> cases r' <;> simp [expected, executability]
      rename_i x y n x' y' n'
      obtain ⟨h1, h2⟩ := ha' x y n rfl
      obtain ⟨h3, h4⟩ := hb' x' y' n' rfl
      subst h1 h2 h3 h4
      simp

theorem finalStatus_passed {p : Gov.Poll} {m o n : Nat} (h : p.finalStatus m = .passed o n) : o = 0 := by
  unfold Gov.Poll.finalStatus at h
  split at h
  · cases h
  · split at h
    · cases h
    · split at h
      · rename_i ho; cases h; exact ho
      · split at h <;> cases h
    · cases h

theorem finalStatus_draw {p : Gov.Poll} {m x y n : Nat} (h : p.finalStatus m = .rejected (.outcomeDraw x y n)) :
    x = 0 ∧ y = 1 := by
  unfold Gov.Poll.finalStatus at h
  split at h
  · cases h
  · split at h
    · cases h
    · split at h
      · cases h
      · split at h <;> cases h
    · rename_i hm
      cases h
      unfold Gov.Poll.mostVoted at hm
      split at hm
      · cases hm
      · split at hm
        · simp only at hm
          split at hm
          · cases hm
          · split at hm
            · cases hm; exact ⟨rfl, rfl⟩
            · cases hm
        all_goals cases hm

/-- When early execution is enabled (and the DAO is not a multisig), a vote that changes the expected outcome of a
proposal moves its earliest execution to a tenth of the voting duration from now, or to the end of voting if that is
sooner; a vote that does not change it leaves the earliest execution as it is.
Missing from C56: outcomes also change by `WeightsChanged`, which does not restart the cooldown, see
`C56_weights_changed_witness` in `Verif/Dao/Props.lean`. -/
theorem C56_vote_restarts_cooldown_partial {e : Env} {u : Addr} {s : State} {g : Gov.State} {id : Nat} {o : Gov.Outcome}
    {r : State × Gov.State × List Sub} (h : exec e u s g (.castVote id o) = .ok r) (he : s.config.early = true)
    (ht : e.daoType ≠ .multisig)
    (hfit : e.block.time + s.config.voteDuration / 10 * 10 ^ 9 < 2 ^ 64) :
    ∃ i i' p a b, s.infos.get id = some i ∧ r.1.infos.get id = some i' ∧ Gov.queryPoll r.2.1 id = .ok p ∧
      Gov.simulateEnd g id (e.total .never) = .ok a ∧ Gov.simulateEnd r.2.1 id (e.total .never) = .ok b ∧
      (expected a ≠ expected b →
        i'.earliest = some (min (e.block.time + s.config.voteDuration / 10 * 10 ^ 9) p.endsAt)) ∧
      (expected a = expected b → i' = i) := by
  simp only [exec, bind_ok_iff, pure_ok_iff] at h
  obtain ⟨r1, h1, rfl⟩ := h
  obtain ⟨_, _, i, p, q, hi, _, hp, _, _, hq, hs⟩ := castVote_ok_iff.1 h1
  have hpl : plusSeconds e.block.time (s.config.voteDuration / 10) =
      e.block.time + s.config.voteDuration / 10 * 10 ^ 9 := by
    unfold plusSeconds wadd64
    rw [Nat.mod_eq_of_lt (a := s.config.voteDuration / 10 * 10 ^ 9) (by unfold M64; omega),
      Nat.mod_eq_of_lt (by unfold M64; omega)]
  have hiff := expected_eq_iff (p.finalStatus (e.total .never)) (q.finalStatus (e.total .never))
    (fun _ _ h => finalStatus_passed h) (fun _ _ h => finalStatus_passed h)
    (fun _ _ _ h => finalStatus_draw h) (fun _ _ _ h => finalStatus_draw h)
  unfold voted at hs
  rw [if_pos ⟨he, ht⟩] at hs
  unfold restartCooldown at hs
  by_cases hne : executability (q.finalStatus (e.total .never)) ≠ executability (p.finalStatus (e.total .never))
  · rw [if_pos hne] at hs
    refine ⟨i, { i with earliest := some (min (plusSeconds e.block.time (s.config.voteDuration / 10)) q.endsAt) }, q,
      _, _, hi, ?_, queryPoll_ok_iff.2 hq, simulateEnd_ok_iff.2 ⟨p, hp, rfl⟩, simulateEnd_ok_iff.2 ⟨q, hq, rfl⟩, ?_, ?_⟩
    · simp only [hs]; exact Map.get_set_self _ _ _
    · intro _; rw [hpl]
    · intro hh; exact absurd (hiff.1 hh).symm hne
  · rw [if_neg hne] at hs
    refine ⟨i, i, q, _, _, hi, ?_, queryPoll_ok_iff.2 hq, simulateEnd_ok_iff.2 ⟨p, hp, rfl⟩,
      simulateEnd_ok_iff.2 ⟨q, hq, rfl⟩, ?_, fun _ => rfl⟩
    · simp only [hs]; exact hi
    · intro hh; exact absurd (Classical.not_not.1 hne).symm (fun h => hh (hiff.2 h))

/-- In the sample, the first vote makes the proposal pass, so that its cooldown starts. -/
example : (exec (sampleEnv 20) 7 (sampleAfter 1).1 (sampleAfter 1).2 (.castVote 1 .yes)).isOk = true ∧
    ((sampleAfter 1).1.infos.get 1).map (·.earliest) = some none ∧
    ((sampleAfter 2).1.infos.get 1).map (·.earliest) = some (some (20 + 10 ^ 10)) := by decide +kernel

/-! ## C59 -/

/-- A vote on a general proposal is refused to users without weight and to restricted users; the one on a council
proposal to users without council weight, when there is no council, and to restricted users. Neither can be cast on a
proposal of the other kind. Accepted votes count with the weight at that time. -/
theorem C59_who_can_vote {e : Env} {u : Addr} {s : State} {g : Gov.State} {id : Nat} {o : Gov.Outcome}
    {r : State × Gov.State × List Sub} :
    (exec e u s g (.castVote id o) = .ok r → 0 < e.weight u ∧ e.restricted u = false ∧
      (s.infos.get id).map (·.type) = some .general ∧ Gov.queryPollVoter r.2.1 id u = some ⟨id, u, o, e.weight u⟩) ∧
    (exec e u s g (.castCouncilVote id o) = .ok r → 0 < e.councilWeight u ∧ e.restricted u = false ∧
      s.council.isSome = true ∧ (s.infos.get id).map (·.type) = some .council ∧
      Gov.queryPollVoter r.2.1 id u = some ⟨id, u, o, e.councilWeight u⟩) := by
  have hvote : ∀ {w : Nat} {g' : Gov.State}, Gov.castVote g e.block.time id o u w = .ok g' →
      Gov.queryPollVoter g' id u = some ⟨id, u, o, w⟩ := by
    intro w g' h
    obtain ⟨_, _, p, _, _, _, _, rfl⟩ := Gov.castVote_ok_iff.1 h
    unfold Gov.queryPollVoter
    exact Map.get_set_self _ _ _
  constructor
  · intro h
    simp only [exec, bind_ok_iff, pure_ok_iff] at h
    obtain ⟨r1, h1, rfl⟩ := h
    obtain ⟨h2, h3, i, p, q, hi, ht, _, _, hg, _, _⟩ := castVote_ok_iff.1 h1
    exact ⟨by omega, h2, by rw [hi, ← ht]; rfl, hvote hg⟩
  · intro h
    simp only [exec, bind_ok_iff, pure_ok_iff] at h
    obtain ⟨r1, h1, rfl⟩ := h
    obtain ⟨h2, ⟨c, hc⟩, h3, i, hi, ht, _, hg, _⟩ := castCouncilVote_ok_iff.1 h1
    exact ⟨by omega, h2, by rw [hc]; rfl, by rw [hi, ← ht]; rfl, hvote hg⟩

example : (exec (sampleEnv 20) 7 (sampleAfter 3).1 (sampleAfter 3).2 (.castVote 1 .yes)).isOk = true ∧
    exec (sampleEnv 20) 5 (sampleAfter 3).1 (sampleAfter 3).2 (.castVote 1 .yes) = .error .unauthorized ∧
    exec (sampleEnv 20) 66 (sampleAfter 3).1 (sampleAfter 3).2 (.castVote 1 .yes) = .error .restricted ∧
    (exec (sampleEnv 30) 9 (sampleAfter 3).1 (sampleAfter 3).2 (.castCouncilVote 2 .yes)).isOk = true ∧
    exec (sampleEnv 30) 7 (sampleAfter 3).1 (sampleAfter 3).2 (.castCouncilVote 2 .yes) = .error .unauthorized ∧
    exec (sampleEnv 30) 9 (sampleAfter 3).1 (sampleAfter 3).2 (.castCouncilVote 1 .yes) = .error .invalidArgument := by
  decide +kernel

/-! ## C60 -/

/-- An action that sets the unlocking period (in seconds) is refused unless the vote duration after the change is at
most that period.
Missing from C60: a change of the vote duration alone is not checked, see `C60_vote_duration_witness`; an unlocking
period in blocks is never checked. -/
theorem C60_unlocking_checked_partial {e : Env} {s : State} {c : GovChange} {n : Nat} {r : State × List Sub}
    (hc : c.unlocking = some (.time n)) (h : act e s (.updateGovConfig c) = .ok r) :
    r.1.config.voteDuration ≤ n ∧ (e.daoType ≠ .multisig → r.2 = [.unlocking (.time n)]) := by
  simp only [act] at h
  obtain ⟨_, h1, rfl⟩ := updateGovConfig_ok_iff.1 h
  refine ⟨h1 n hc, fun ht => ?_⟩
  rw [hc]
  simp only [unlockingSubs]

example : (act (sampleEnv 0) sampleInit (.updateGovConfig ⟨none, none, none, some 200, some (.time 200), none, none⟩)).isOk
      = true ∧
    act (sampleEnv 0) sampleInit (.updateGovConfig ⟨none, none, none, some 201, some (.time 200), none, none⟩) =
      .error .invalidArgument := by decide +kernel

/-- The vote duration can be set on its own to any positive value, whatever the unlocking period is: the controller
does not look at it, and sends nothing to the membership contract. -/
theorem C60_vote_duration_witness (e : Env) (s : State) (h : ValidConfig e.daoType s.config) (d : Nat) (hd : 0 < d) :
    ∃ s', act e s (.updateGovConfig ⟨none, none, none, some d, none, none, none⟩) = .ok (s', []) ∧
      s'.config.voteDuration = d := by
  refine ⟨{ s with config := applyChange s.config ⟨none, none, none, some d, none, none, none⟩ }, ?_, rfl⟩
  simp only [act]
  refine updateGovConfig_ok_iff.2 ⟨⟨h.quorum, h.threshold, h.veto, hd, h.deposit⟩, fun n hn => (by cases hn), rfl⟩

example : ValidConfig (sampleEnv 0).daoType sampleInit.config := (sample_reachable 0).safe.config

end Verif.Controller
