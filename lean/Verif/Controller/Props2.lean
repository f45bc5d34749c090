import Verif.Controller.Lemmas3
import Verif.Controller.Props
import Mathlib.Data.List.Induction

/-!
# Governance controller: property theorems on the creation of proposals and on their actions (C89, C90, C91, C92)

Vocabulary: `Verif/Controller/Spec.lean` and `Verif/Controller/Spec2.lean`.
-/

set_option linter.unusedSimpArgs false

namespace Verif.Controller
open Verif
open Verif.Staking (Duration At)

/-! ## C89 -/

/-- A general proposal is stored under the next number, with the proposer, title and description given, the quorum,
the thresholds and the voting duration of the configuration at that time, no votes, the actions given, and a deposit of
exactly what was attached, in the name of the deposit owner if one is given and of the proposer otherwise. Nothing else
changes: no other proposal, no vote, no configuration. -/
theorem C89_general_terms {e : Env} {u : Addr} {s : State} {g : Gov.State} {m : Msg} {p : Proposal}
    (hm : m.isGeneral = true) (hp : proposalOf m = some p) {r : State × Gov.State × List Sub}
    (h : exec e u s g m = .ok r) (hfit : e.block.time + s.config.voteDuration * 10 ^ 9 < 2 ^ 64)
    (hcount : g.pollCount + 1 < 2 ^ 64) :
    let id := g.pollCount + 1
    let ends := e.block.time + s.config.voteDuration * 10 ^ 9
    Gov.queryPoll r.2.1 id = .ok
      { id := id, proposer := proposerOf u m, deposit := 0, label := p.title, description := p.description,
        status := .inProgress ends, startedAt := e.block.time, endsAt := ends, quorum := s.config.quorum,
        threshold := s.config.threshold, vetoThreshold := s.config.veto, results := .empty } ∧
    r.1.infos.get id = some
      { type := .general, executedAt := none, earliest := none,
        deposit := (attachedAsset e u m).map (fun a => ⟨p.owner.getD (proposerOf u m), a⟩), actions := p.actions } ∧
    (∀ n, n ≠ id → Gov.queryPoll r.2.1 n = Gov.queryPoll g n ∧ r.1.infos.get n = s.infos.get n) ∧
    r.2.1.votes = g.votes ∧ r.2.1.pollCount = id ∧ r.2.1.admin = g.admin ∧
    r.1.config = s.config ∧ r.1.council = s.council ∧ r.1.enterprise = s.enterprise ∧ r.1.created = s.created ∧
    r.1.treasuries = s.treasuries := by
  obtain ⟨p', hp', hw, hc, _⟩ := (general_ok_iff hm).1 h
  rw [hp] at hp'
  cases hp'
  obtain ⟨_, _, _, _, _, h6, h7⟩ := createProposal_ok_iff.1 hc
  obtain ⟨_, _, h8⟩ := (newPoll_ok_iff hfit).1 h6
  have hid : wadd64 g.pollCount 1 = g.pollCount + 1 := Nat.mod_eq_of_lt hcount
  rw [hid] at h8
  simp only at h7 h8
  rw [h7, h8]
  refine ⟨?_, ?_, fun n hn => ⟨?_, ?_⟩, rfl, rfl, rfl, rfl, rfl, rfl, rfl, rfl⟩
  · rw [queryPoll_ok_iff]
    exact Map.get_set_self _ _ _
  · exact Map.get_set_self _ _ _
  · unfold Gov.queryPoll
    simp only [Map.get_set_ne _ _ hn.symm]
  · exact Map.get_set_ne _ _ hn.symm

/-- A council proposal is stored the same way, with the quorum and the threshold of the council, and without deposit. -/
theorem C89_council_terms {e : Env} {u : Addr} {s : State} {g : Gov.State} {p : Proposal}
    {r : State × Gov.State × List Sub}
    (h : exec e u s g (.createCouncil p) = .ok r) (hfit : e.block.time + s.config.voteDuration * 10 ^ 9 < 2 ^ 64)
    (hcount : g.pollCount + 1 < 2 ^ 64) :
    let id := g.pollCount + 1
    let ends := e.block.time + s.config.voteDuration * 10 ^ 9
    ∃ c, s.council = some c ∧
    Gov.queryPoll r.2.1 id = .ok
      { id := id, proposer := u, deposit := 0, label := p.title, description := p.description,
        status := .inProgress ends, startedAt := e.block.time, endsAt := ends, quorum := c.quorum,
        threshold := c.threshold, vetoThreshold := s.config.veto, results := .empty } ∧
    r.1.infos.get id = some
      { type := .council, executedAt := none, earliest := none, deposit := none, actions := p.actions } ∧
    (∀ n, n ≠ id → Gov.queryPoll r.2.1 n = Gov.queryPoll g n ∧ r.1.infos.get n = s.infos.get n) ∧
    r.2.1.votes = g.votes ∧ r.2.1.pollCount = id ∧ r.2.1.admin = g.admin ∧
    r.1.config = s.config ∧ r.1.council = s.council ∧ r.1.enterprise = s.enterprise ∧ r.1.created = s.created ∧
    r.1.treasuries = s.treasuries := by
  simp only [exec, bind_ok_iff, pure_ok_iff] at h
  obtain ⟨r1, h, rfl⟩ := h
  obtain ⟨_, c, hc, _, _, _, _, _, h6, h7⟩ := createCouncil_ok_iff.1 h
  obtain ⟨_, _, h8⟩ := (newPoll_ok_iff (by exact hfit)).1 h6
  have hid : wadd64 g.pollCount 1 = g.pollCount + 1 := Nat.mod_eq_of_lt hcount
  rw [hid] at h8
  simp only at h7 h8
  simp only
  rw [h7, h8]
  refine ⟨c, hc, ?_, ?_, fun n hn => ⟨?_, ?_⟩, rfl, rfl, rfl, rfl, rfl, rfl, rfl, rfl⟩
  · rw [queryPoll_ok_iff]
    exact Map.get_set_self _ _ _
  · exact Map.get_set_self _ _ _
  · unfold Gov.queryPoll
    simp only [Map.get_set_ne _ _ hn.symm]
  · exact Map.get_set_ne _ _ hn.symm

/-- In the sample, a member proposes, and so does the council. -/
example : (exec (sampleEnv 10) 7 sampleInit (Gov.init 1) (.createProposal ⟨0, 0, [.updateGovConfig sampleChange], none⟩ [])).isOk
    = true ∧ (exec (sampleEnv 10) 9 sampleInit (Gov.init 1) (.createCouncil ⟨0, 0, [.updateMetadata 3], none⟩)).isOk = true ∧
    10 + sampleInit.config.voteDuration * 10 ^ 9 < 2 ^ 64 ∧ (Gov.init 1).pollCount + 1 < 2 ^ 64 := by decide +kernel

/-- A deposit of 5 tokens, sent by 7 on behalf of 8. -/
example : ∃ r, exec (sampleEnv 10) 20 sampleInit (Gov.init 1) (.receive 7 5 (some ⟨0, 0, [], some 8⟩)) = .ok r ∧
    (r.1.infos.get 1).map (·.deposit) = some (some ⟨8, .cw20 20 5⟩) := by
  exact ⟨_, rfl, by decide +kernel⟩

/-! ## C90 -/

/-- A general proposal is accepted exactly when it comes in the way the DAO's type asks for, on behalf of a user who is
not restricted, and who is a member or attaches the minimum deposit, whichever the configuration asks for, and has at
most ten actions, each of which can be proposed. -/
theorem C90_general_accepted {t : DaoType} {e : Env} {u : Addr} {s : State} {g : Gov.State} {m : Msg}
    (hs : Reachable t s) (ha : g.admin = e.self) (hm : m.isGeneral = true)
    (hfit : e.block.time + s.config.voteDuration * 10 ^ 9 < 2 ^ 64) :
    (∃ r, exec e u s g m = .ok r) ↔
      ∃ p, proposalOf m = some p ∧ WellSent e u m ∧ e.restricted (proposerOf u m) = false ∧
        (match s.config.minDeposit with
          | none => 0 < e.weight (proposerOf u m)
          | some minimum => minimum ≤ attached e m) ∧
        p.actions.length ≤ 10 ∧ ∀ a ∈ p.actions, Proposable e s.config a := by
  have hcfg := hs.safe.config
  simp only [general_ok_iff hm, createProposal_ok_iff, proposable_iff]
  have hsuf : ∀ p, WellSent e u m → (((s.config.minDeposit = none ∧ e.weight (proposerOf u m) ≠ 0) ∨
        (∃ x, s.config.minDeposit = some x ∧ x ≤ ((depositOf e u m p).map Deposit.amount).getD 0)) ↔
      (match s.config.minDeposit with
          | none => 0 < e.weight (proposerOf u m)
          | some minimum => minimum ≤ attached e m)) := by
    intro p hw
    rw [attached_eq p hm hw]
    cases s.config.minDeposit with
    | none => simp [Nat.pos_iff_ne_zero]
    | some x => simp
  constructor
  · rintro ⟨r, p, hp, hw, ⟨h1, h2, h3, h4, _⟩, _⟩
    exact ⟨p, hp, hw, h1, (hsuf p hw).1 h2, h3, h4⟩
  · rintro ⟨p, hp, hw, h1, h2, h3, h4⟩
    exact ⟨(s.added _ ⟨.general, none, none, depositOf e u m p, p.actions⟩, _, _), p, hp, hw, ⟨h1, (hsuf p hw).2 h2, h3, h4, ha.symm,
      (newPoll_ok_iff hfit).2 ⟨hcfg.threshold.2, hcfg.duration, rfl⟩, rfl⟩, rfl⟩

/-- A council proposal is accepted exactly when there is a council, the sender has council weight and is not
restricted, and it has at most ten actions, each of which can be proposed and is of a type allowed for the council. -/
theorem C90_council_accepted {t : DaoType} {e : Env} {u : Addr} {s : State} {g : Gov.State} {p : Proposal}
    (hs : Reachable t s) (ha : g.admin = e.self)
    (hfit : e.block.time + s.config.voteDuration * 10 ^ 9 < 2 ^ 64) :
    (∃ r, exec e u s g (.createCouncil p) = .ok r) ↔
      e.restricted u = false ∧ 0 < e.councilWeight u ∧ p.actions.length ≤ 10 ∧
        (∀ a ∈ p.actions, Proposable e s.config a) ∧
        ∃ c, s.council = some c ∧ ∀ a ∈ p.actions, a.Among c.allowed := by
  have hcfg := hs.safe.config
  simp only [exec, bind_ok_iff, pure_ok_iff, createCouncil_ok_iff, proposable_iff, among_iff]
  constructor
  · rintro ⟨_, r, ⟨h1, c, hc, h2, h3, h4, h5, _⟩, _⟩
    exact ⟨h1, by omega, h2, h3, c, hc, h5⟩
  · rintro ⟨h1, h4, h2, h3, c, hc, h5⟩
    exact ⟨_, (s.added _ ⟨.council, none, none, none, p.actions⟩, _), ⟨h1, c, hc, h2, h3, by omega, h5, ha.symm,
      (newPoll_ok_iff (by exact hfit)).2 ⟨((C51_config_valid hs).2 c hc).2.2, hcfg.duration, rfl⟩, rfl⟩, rfl⟩

/-- The first proposal of the sample meets the conditions, a change to a quorum of zero does not. -/
example : Reachable .token sampleInit ∧ (sampleEnv 10).daoType = .token ∧ (Gov.init 1).admin = (sampleEnv 10).self ∧
    (sampleEnv 10).block.time + sampleInit.config.voteDuration * 10 ^ 9 < 2 ^ 64 ∧
    (exec (sampleEnv 10) 7 sampleInit (Gov.init 1) (.createProposal ⟨0, 0, [.updateGovConfig sampleChange], none⟩ [])).isOk
      = true ∧
    (exec (sampleEnv 10) 7 sampleInit (Gov.init 1)
      (.createProposal ⟨0, 0, [.updateGovConfig ⟨some 0, none, none, none, none, none, none⟩], none⟩ [])).isOk = false :=
  ⟨.init sampleInit_ok, by decide +kernel⟩

/-- The bound on the voting duration in the theorems above is needed, and nothing in the contracts enforces it: a
proposal can set the voting duration to 2^55 seconds, whose nanoseconds are a multiple of 2^64. From then on every
creation of a proposal is refused, whatever it is, so that the configuration can never be changed back. -/
theorem C90_frozen_witness {t : DaoType} {s : State} (hs : Reachable t s) :
    (∀ e : Env, e.daoType = t → ∃ s', act e s (.updateGovConfig ⟨none, none, none, some (2 ^ 55), none, none, none⟩)
      = .ok (s', []) ∧ s'.config.voteDuration = 2 ^ 55) ∧
    (s.config.voteDuration = 2 ^ 55 → ∀ (e : Env) (u : Addr) (g : Gov.State) (m : Msg), m.isCreate = true →
      e.block.time < 2 ^ 64 → ¬ ∃ r, exec e u s g m = .ok r) := by
  refine ⟨fun e he => C60_vote_duration_witness e s (by rw [he]; exact hs.safe.config) _ (by decide), ?_⟩
  rintro hd e u g m hm hnow ⟨r, hr⟩
  obtain ⟨i, cp, hc, _⟩ := created_exec hm hr
  obtain ⟨_, h, _⟩ := Gov.createPoll_ok_iff.1 hc.poll
  rw [hc.ends, hd] at h
  unfold plusSeconds wadd64 M64 at h
  rw [show 2 ^ 55 * 10 ^ 9 % 2 ^ 64 = 0 by decide, Nat.add_zero, Nat.mod_eq_of_lt hnow] at h
  omega

/-! ## C91 -/

/-- The execution of the actions of a proposal: only the controller itself starts it, it does what each of the actions
asks for, in order and no more, and it fails as a whole if one of them fails. -/
theorem C91_actions {e : Env} {u : Addr} {s : State} {g : Gov.State} {id : Nat} {r : State × Gov.State × List Sub} :
    exec e u s g (.executeActions id) = .ok r ↔
      u = e.self ∧ r.2.1 = g ∧ ∃ i, s.infos.get id = some i ∧ DoesAll e s i.actions r.1 r.2.2 := by
  obtain ⟨s', g', subs⟩ := r
  simp only [exec, bind_ok_iff, pure_ok_iff, executeActions_ok_iff, actAll_iff]
  constructor
  · rintro ⟨r1, ⟨h1, i, h2, h3⟩, h4⟩
    cases h4
    exact ⟨h1, rfl, i, h2, h3⟩
  · rintro ⟨h1, rfl, i, h2, h3⟩
    exact ⟨(_, _), ⟨h1, i, h2, h3⟩, rfl⟩

/-- The payments that treasuries are told to make are exactly those asked for in the proposal, in the same order. -/
theorem C91_payments {e : Env} {u : Addr} {s : State} {g : Gov.State} {id : Nat} {r : State × Gov.State × List Sub}
    (h : exec e u s g (.executeActions id) = .ok r) {i : Info} (hi : s.infos.get id = some i) :
    r.2.2.filterMap Sub.payment = i.actions.filterMap Action.payment := by
  obtain ⟨_, _, i', hi', hd⟩ := C91_actions.1 h
  rw [hi] at hi'
  cases hi'
  clear h hi
  have one : ∀ {s s' : State} {a : Action} {subs : List Sub}, Does e s a s' subs →
      subs.filterMap Sub.payment = (Action.payment a).toList := by
    intro s s' a subs h
    cases h with
    | msgs _ =>
      rename_i l _
      show (l.map Sub.custom).filterMap Sub.payment = []
      rw [List.filterMap_map]
      exact List.filterMap_eq_nil_iff.2 (fun _ _ => rfl)
    | _ => rfl
  generalize i.actions = l at hd ⊢
  generalize r.1 = s', r.2.2 = subs at hd ⊢
  induction hd with
  | nil => rfl
  | cons h _ ih =>
    rw [List.filterMap_append, one h, ih]
    rename_i a l _ _ _
    cases ha : Action.payment a <;> simp [ha]

/-- The actions of the executed proposal of the sample: the quorum becomes 20 %. -/
example : ∃ r, exec (sampleEnv (20 * 10 ^ 9)) 1 (sampleAfter 5).1 (sampleAfter 5).2 (.executeActions 1) = .ok r ∧
    r.1.config.quorum = ONE / 5 := ⟨_, rfl, by decide +kernel⟩

/-- Two payments and a custom message. -/
example : ∃ r, actAll (sampleEnv 10) sampleInit
    [.requestFunding none 5 [⟨.native 1, 10⟩], .executeMsgs [1, 2], .requestFunding (some 3) 6 []] = .ok r ∧
    r.2.length = 4 ∧ r.2.filterMap Sub.payment = [(none, 5, [⟨.native 1, 10⟩]), (some 3, 6, [])] :=
  ⟨_, rfl, by decide +kernel⟩

/-! ## C92 -/

theorem initial_append (s : State × Gov.State) (h : List (Env × Addr × Msg)) (c : Env × Addr × Msg) :
    initialDeployments s (h ++ [c]) = initialDeployments s h ++ initialDeployments (run s h) [c] := by
  induction h generalizing s with
  | nil => rfl
  | cons x t ih =>
    show _ ++ initialDeployments (step s x) (t ++ [c]) = _
    rw [ih]
    show _ = (_ ++ _) ++ initialDeployments (run (step s x) t) [c]
    rw [List.append_assoc]

theorem run_append (s : State × Gov.State) (h : List (Env × Addr × Msg)) (c : Env × Addr × Msg) :
    run s (h ++ [c]) = step (run s h) c := by
  unfold run
  rw [List.foldl_append]
  rfl

theorem deploys_map (l : List Nat) :
    (l.map Sub.deploy).filterMap (fun x => match x with | .deploy d => some d | _ => none) = l := by
  induction l with
  | nil => rfl
  | cons a t ih =>
    rw [List.map_cons, List.filterMap_cons]
    simp only [ih]

/-- The part of the state that decides about initial treasuries, after any history. -/
theorem initial_inv {s : State} {g : Gov.State} {l : List Nat} (hl : s.treasuries = some l)
    (h : List (Env × Addr × Msg)) :
    (run (s, g) h).1.created = s.created ∧
    (((run (s, g) h).1.treasuries = some l ∧ initialDeployments (s, g) h = []) ∨
     ((run (s, g) h).1.treasuries = none ∧ initialDeployments (s, g) h = l)) := by
  induction h using List.reverseRecOn with
  | nil => exact ⟨rfl, Or.inl ⟨hl, rfl⟩⟩
  | append_singleton h c ih =>
    obtain ⟨ih1, ih2⟩ := ih
    rw [run_append, initial_append]
    obtain ⟨e, u, m⟩ := c
    unfold step
    simp only [initialDeployments, List.append_nil]
    cases hx : exec e u (run (s, g) h).1 (run (s, g) h).2 m with
    | error x =>
      refine ⟨ih1, ?_⟩
      cases m <;> simpa using ih2
    | ok r =>
      obtain ⟨h1, h2⟩ := exec_creation hx
      refine ⟨by rw [← ih1, ← h1], ?_⟩
      by_cases hm : m = .deployInitial
      · subst hm
        simp only [exec, bind_ok_iff, pure_ok_iff] at hx
        obtain ⟨r1, hr, rfl⟩ := hx
        obtain ⟨_, _, rfl⟩ := deployInitial_ok_iff.1 hr
        right
        refine ⟨rfl, ?_⟩
        simp only [deploys_map]
        rcases ih2 with ⟨h3, h4⟩ | ⟨h3, h4⟩
        · rw [h3, h4]; exact deploys_map l
        · rw [h3, h4]; simp
      · have h2 := h2 hm
        simp only
        rw [h2]
        cases m <;> first | exact absurd rfl hm | simpa using ih2

/-- The treasuries on other chains that were listed when the DAO was created are deployed at most once, all of them
together and in order, however often the message is sent. -/
theorem C92_at_most_once {b : Block} {enterprise : Addr} {t : DaoType} {cfg : GovConfig} {council : Option CouncilSpec}
    {treasuries : List Nat} {s : State} (hi : init b enterprise t cfg council [] treasuries = .ok s) (g : Gov.State)
    (h : List (Env × Addr × Msg)) :
    initialDeployments (s, g) h = [] ∨ initialDeployments (s, g) h = treasuries := by
  have hl : s.treasuries = some treasuries := by rw [(init_ok hi).2.2]
  rcases (initial_inv (g := g) hl h).2 with ⟨_, h⟩ | ⟨_, h⟩
  · exact Or.inl h
  · exact Or.inr h

/-- The message that deploys them is accepted exactly in blocks with the time of the creation of the DAO and from the
creator of the controller; once it was accepted, they are deployed. -/
theorem C92_when_and_who {b : Block} {enterprise : Addr} {t : DaoType} {cfg : GovConfig} {council : Option CouncilSpec}
    {treasuries : List Nat} {s : State} (hi : init b enterprise t cfg council [] treasuries = .ok s) (g : Gov.State)
    (h : List (Env × Addr × Msg)) (e : Env) (u : Addr) :
    ((∃ r, exec e u (run (s, g) h).1 (run (s, g) h).2 .deployInitial = .ok r) ↔
      e.block.time = b.time ∧ u = e.creator) ∧
    ((e.block.time = b.time ∧ u = e.creator) →
      initialDeployments (s, g) (h ++ [(e, u, .deployInitial)]) = treasuries) := by
  have hl : s.treasuries = some treasuries := by rw [(init_ok hi).2.2]
  have hb : s.created = b.time := by rw [(init_ok hi).2.2]
  obtain ⟨h1, h2⟩ := initial_inv (g := g) hl h
  have hiff : (∃ r, exec e u (run (s, g) h).1 (run (s, g) h).2 .deployInitial = .ok r) ↔
      e.block.time = b.time ∧ u = e.creator := by
    simp only [exec, bind_ok_iff, pure_ok_iff, deployInitial_ok_iff, h1, hb]
    constructor
    · rintro ⟨_, _, ⟨h3, h4, _⟩, _⟩; exact ⟨h3.symm, h4⟩
    · rintro ⟨h3, h4⟩; exact ⟨_, _, ⟨h3.symm, h4, rfl⟩, rfl⟩
  refine ⟨hiff, fun hc => ?_⟩
  obtain ⟨r, hr⟩ := hiff.2 hc
  rcases (initial_inv (g := g) hl (h ++ [(e, u, .deployInitial)])).2 with ⟨h3, _⟩ | ⟨_, h3⟩
  · exfalso
    rw [run_append] at h3
    unfold step at h3
    simp only [hr] at h3
    simp only [exec, bind_ok_iff, pure_ok_iff] at hr
    obtain ⟨r1, hr, rfl⟩ := hr
    obtain ⟨_, _, rfl⟩ := deployInitial_ok_iff.1 hr
    cases h3
  · exact h3

/-- Two initial treasuries; the creator (address 2) sends the message twice in the creation block, and once later. -/
example : ∃ s, init ⟨0, 0⟩ 3 .token sampleConfig none [] [4, 5] = .ok s ∧
    initialDeployments (s, Gov.init 1)
      [(sampleEnv 0, 7, .deployInitial), (sampleEnv 0, 2, .deployInitial), (sampleEnv 0, 2, .deployInitial),
       (sampleEnv 1, 2, .deployInitial)] = [4, 5] :=
  ⟨_, rfl, by decide +kernel⟩

end Verif.Controller
