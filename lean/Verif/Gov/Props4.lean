import Verif.Gov.Props

/-!
# Governance: a migration hands the contract over and keeps everything else (C152)
-/

namespace Verif.Gov
open Verif

/-! ### Model -/

/-- `migrate`, enterprise-governance contract.rs 150-156, with `migrate_to_v1_0_0`, migration.rs 9-16: the admin is the one that
the message names. The address is validated already. The item `enterprise_contract`, which is removed, is not read by any code
of this version and left out. -/
def migrate (s : State) (newAdmin : Addr) : State := { s with admin := newAdmin }

/-- What can happen to the contract: a message, or a migration to this code. -/
inductive Event
  | message (c : Call)
  | migration (newAdmin : Addr)
  deriving DecidableEq

/-- The contract after an event. -/
def happen (s : State) : Event → State
  | .message c => step s c
  | .migration a => migrate s a

/-- The contract after a history with migrations. -/
def live (s : State) (h : List Event) : State := h.foldl happen s

/-! ### Specification -/

/-- The admin named last. -/
def lastAdmin (a : Addr) : List Event → Addr
  | [] => a
  | .message _ :: t => lastAdmin a t
  | .migration b :: t => lastAdmin b t

/-- The messages of whoever was the admin at the time, when `a` is the first one, as messages of `first`. -/
def byAdmin (first a : Addr) : List Event → List Call
  | [] => []
  | .message c :: t => if c.sender = a then { c with sender := first } :: byAdmin first a t else byAdmin first a t
  | .migration b :: t => byAdmin first b t

/-- The messages of a history. -/
def messages : List Event → List Call
  | [] => []
  | .message c :: t => c :: messages t
  | .migration _ :: t => messages t

/-! ### Lemmas -/

/-- The effect of a message of the admin. -/
def effect (s : State) (now : Nat) : Msg → Except Err State
  | .createPoll p => createPoll s now p
  | .castVote i o v a => castVote s now i o v a
  | .updateVotes v a => updateVotes s now v a
  | .endPoll i m e a => endPoll s now i m e a

theorem exec_effect (s : State) (c : Call) :
    exec s c = if c.sender ≠ s.admin then .error .unauthorized else effect s c.now c.msg := by
  unfold exec effect
  cases c.msg <;> rfl

theorem createPoll_migrate (s : State) (a : Addr) (now : Nat) (p : CreateParams) :
    createPoll (migrate s a) now p = (createPoll s now p).map (fun t => migrate t a) := by
  unfold createPoll
  split
  · rfl
  · split <;> rfl

theorem castVote_migrate (s : State) (a : Addr) (now i : Nat) (o : Outcome) (v : Addr) (n : Nat) :
    castVote (migrate s a) now i o v n = (castVote s now i o v n).map (fun t => migrate t a) := by
  unfold castVote
  show (if i = 0 ∨ s.pollCount < i then _ else match s.polls.get i with | none => _ | some p => _) = _
  by_cases h : i = 0 ∨ s.pollCount < i
  · rw [if_pos h, if_pos h]; rfl
  · rw [if_neg h, if_neg h]
    cases s.polls.get i with
    | none => rfl
    | some p =>
      simp only
      split
      · rfl
      · split <;> rfl

theorem endPoll_migrate (s : State) (a : Addr) (now i m : Nat) (e b : Bool) :
    endPoll (migrate s a) now i m e b = (endPoll s now i m e b).map (fun t => migrate t a) := by
  unfold endPoll
  show (match s.polls.get i with | none => _ | some p => _) = _
  cases s.polls.get i with
  | none => rfl
  | some p =>
    simp only
    split
    · rfl
    · split <;> rfl

theorem updateVote_migrate (s : State) (a : Addr) (now : Nat) (v : Addr) (n : Nat) (x : Vote) :
    updateVote now v n (migrate s a) x = (updateVote now v n s x).map (fun t => migrate t a) := by
  unfold updateVote
  show (match s.polls.get x.pollId with | none => _ | some p => _) = _
  cases s.polls.get x.pollId with
  | none => rfl
  | some p =>
    simp only
    split
    · split
      · exact castVote_migrate s a now _ _ v n
      · rfl
    · rfl

theorem updates_migrate (a : Addr) (now : Nat) (v : Addr) (n : Nat) : ∀ (l : List Vote) (s : State),
    l.foldlM (updateVote now v n) (migrate s a) = (l.foldlM (updateVote now v n) s).map (fun t => migrate t a)
  | [], _ => rfl
  | x :: l, s => by
    rw [List.foldlM_cons, List.foldlM_cons, updateVote_migrate]
    cases updateVote now v n s x with
    | error e => rfl
    | ok t => exact updates_migrate a now v n l t

theorem effect_migrate (s : State) (a : Addr) (now : Nat) (m : Msg) :
    effect (migrate s a) now m = (effect s now m).map (fun t => migrate t a) := by
  cases m with
  | createPoll p => exact createPoll_migrate s a now p
  | castVote i o v n => exact castVote_migrate s a now i o v n
  | updateVotes v n => exact updates_migrate a now v n _ s
  | endPoll i m e b => exact endPoll_migrate s a now i m e b

theorem effect_admin {s s' : State} {now : Nat} {m : Msg} (h : effect s now m = .ok s') : s'.admin = s.admin := by
  have h1 := C09_admin_fixed s [⟨now, s.admin, m⟩]
  have h2 : run s [⟨now, s.admin, m⟩] = s' := by
    show step s ⟨now, s.admin, m⟩ = s'
    unfold step
    rw [exec_effect, if_neg (fun h => h rfl)]
    simp only [h]
  rw [h2] at h1
  exact h1

/-- A message of the admin, before and after a handover. -/
theorem step_migrate (s : State) (a : Addr) (now : Nat) (m : Msg) :
    step (migrate s a) ⟨now, a, m⟩ = migrate (step s ⟨now, s.admin, m⟩) a := by
  unfold step
  rw [exec_effect, exec_effect, if_neg (fun h => h rfl), if_neg (fun h => h rfl)]
  simp only
  rw [effect_migrate]
  cases effect s now m <;> rfl

theorem step_outsider {s : State} {c : Call} (h : c.sender ≠ s.admin) : step s c = s := ((C09_admin_only s c) h).2

theorem migrate_migrate (s : State) (a b : Addr) : migrate (migrate s a) b = migrate s b := rfl

/-! ### Theorems -/

/-- **Handover.** After a migration the new admin can do exactly what the old one could do before, with the same effect on
polls and votes, and nobody else, the old admin included, can do anything. The answers to all queries are the same, since polls,
votes and the number of polls are. -/
theorem C152_handover (s : State) (a : Addr) :
    (migrate s a).polls = s.polls ∧ (migrate s a).votes = s.votes ∧ (migrate s a).pollCount = s.pollCount ∧
    (∀ now m s', exec (migrate s a) ⟨now, a, m⟩ = .ok s' ↔ ∃ t, exec s ⟨now, s.admin, m⟩ = .ok t ∧ s' = { t with admin := a }) ∧
    ∀ c, c.sender ≠ a → exec (migrate s a) c = .error .unauthorized := by
  refine ⟨rfl, rfl, rfl, fun now m s' => ?_, fun c hc => (C09_admin_only (migrate s a) c hc).1⟩
  rw [exec_effect, exec_effect, if_neg (fun h => h rfl), if_neg (fun h => h rfl), effect_migrate]
  cases effect s now m with
  | error e =>
    constructor
    · intro h; cases h
    · rintro ⟨_, h, _⟩; cases h
  | ok t =>
    constructor
    · intro h; cases h; exact ⟨t, rfl, rfl⟩
    · rintro ⟨_, h, rfl⟩; cases h; rfl

/-- **A life with migrations.** Over any history of messages and migrations, the contract is in the state it would be in if it
had never been migrated and the first admin had sent the messages that each admin sent while it was the admin; only the admin
is the one named last. Messages of others, among them former and future admins, play no role. -/
theorem C152_life (s : State) (h : List Event) :
    live s h = { run s (byAdmin s.admin s.admin h) with admin := lastAdmin s.admin h } := by
  have key : ∀ (h : List Event) (s : State) (a : Addr),
      live (migrate s a) h = migrate (run s (byAdmin s.admin a h)) (lastAdmin a h) := by
    intro h
    induction h with
    | nil => intro s a; rfl
    | cons x h ih =>
      intro s a
      cases x with
      | message c =>
        show live (step (migrate s a) c) h = migrate (run s (byAdmin s.admin a (.message c :: h))) (lastAdmin a h)
        by_cases hc : c.sender = a
        · have h1 : step (migrate s a) c = migrate (step s { c with sender := s.admin }) a := by
            obtain ⟨now, sd, m⟩ := c
            cases hc
            exact step_migrate s sd now m
          have h2 : (step s { c with sender := s.admin }).admin = s.admin := C09_admin_fixed s [{ c with sender := s.admin }]
          have h3 := ih (step s { c with sender := s.admin }) a
          rw [h2] at h3
          rw [h1, h3]
          conv_rhs => unfold byAdmin
          rw [if_pos hc]
          rfl
        · rw [step_outsider (s := migrate s a) hc, ih s a]
          conv_rhs => unfold byAdmin
          rw [if_neg hc]
      | migration b =>
        show live (migrate (migrate s a) b) h = migrate (run s (byAdmin s.admin b h)) (lastAdmin b h)
        rw [migrate_migrate]
        exact ih s b
  exact key h s s.admin

/-- **So all the theorems about reachable states hold** in every state reached with migrations in between: the tallies, the
final statuses, the frozen results. -/
theorem C152_reachable (a : Addr) (h : List Event) (ht : ∀ c ∈ messages h, c.msg.typed)
    (hc : creates (messages h) < 2 ^ 64) : Reachable (live (init a) h) := by
  have hsub : ∀ (h : List Event) (f x : Addr), (∀ c ∈ messages h, c.msg.typed) →
      (∀ c ∈ byAdmin f x h, c.msg.typed) ∧ creates (byAdmin f x h) ≤ creates (messages h) := by
    intro h f
    induction h with
    | nil => intro x _; exact ⟨fun _ hc => (by cases hc), le_refl _⟩
    | cons e h ih =>
      intro x ht
      cases e with
      | migration b => exact ih b ht
      | message c =>
        obtain ⟨i1, i2⟩ := ih x (fun c' hc' => ht c' (List.mem_cons_of_mem _ hc'))
        by_cases hx : c.sender = x
        · unfold byAdmin
          rw [if_pos hx]
          refine ⟨fun c' hc' => ?_, ?_⟩
          · rcases List.mem_cons.1 hc' with rfl | hc'
            · exact ht c (List.mem_cons_self ..)
            · exact i1 c' hc'
          · show isCreate _ + _ ≤ isCreate c + _
            have : isCreate { c with sender := f } = isCreate c := rfl
            omega
        · unfold byAdmin
          rw [if_neg hx]
          refine ⟨i1, le_trans i2 ?_⟩
          show _ ≤ isCreate c + _
          omega
  obtain ⟨h1, h2⟩ := hsub h (lastAdmin a h) a ht
  refine ⟨lastAdmin a h, byAdmin (lastAdmin a h) a h, h1, lt_of_le_of_lt h2 (by unfold M64; exact hc), ?_⟩
  rw [C152_life]
  have key : ∀ (l : List Event) (f g x : Addr) (s : State), s.admin = f →
      migrate (run s (byAdmin f x l)) g = run (migrate s g) (byAdmin g x l) := by
    intro l f g
    induction l with
    | nil => intro x s _; rfl
    | cons e l ih =>
      intro x s hs
      cases e with
      | migration b => exact ih b s hs
      | message c =>
        unfold byAdmin
        by_cases hx : c.sender = x
        · rw [if_pos hx, if_pos hx]
          have h2 : (step s { c with sender := f }).admin = f := (C09_admin_fixed s [{ c with sender := f }]).trans hs
          have h3 := ih x (step s { c with sender := f }) h2
          have h4 := step_migrate s g c.now c.msg
          rw [hs] at h4
          show migrate (run (step s { c with sender := f }) _) g = run (step (migrate s g) { c with sender := g }) _
          rw [h3]
          exact congrArg (fun t => run t (byAdmin g x l)) h4.symm
        · rw [if_neg hx, if_neg hx]
          exact ih x s hs
  exact key h a (lastAdmin a h) a (init a) rfl

/-! ### Example -/

/-- A poll by admin 1, a handover to 2, a refused vote by the former admin, a vote by the new one. -/
def handedOver : List Event :=
  [.message ⟨10, 1, .createPoll ⟨7, 0, 0, 0, 100, 5, 6, none⟩⟩, .migration 2,
    .message ⟨20, 1, .castVote 1 .no 50 3⟩, .message ⟨20, 2, .castVote 1 .yes 51 4⟩]

/-- Hypotheses met; the vote of the new admin counts, the one of the former admin does not. -/
example : (∀ c ∈ messages handedOver, c.msg.typed) ∧ creates (messages handedOver) < 2 ^ 64 ∧
    (live (init 1) handedOver).admin = 2 ∧ votedSum (live (init 1) handedOver) 1 .yes = 4 ∧
    votedSum (live (init 1) handedOver) 1 .no = 0 ∧ byAdmin 1 1 handedOver =
      [⟨10, 1, .createPoll ⟨7, 0, 0, 0, 100, 5, 6, none⟩⟩, ⟨20, 1, .castVote 1 .yes 51 4⟩] := by
  refine ⟨fun c hc => ?_, by decide +kernel, by decide +kernel, by decide +kernel, by decide +kernel, by decide +kernel⟩
  simp only [handedOver, messages, List.mem_cons, List.not_mem_nil, or_false] at hc
  rcases hc with rfl | rfl | rfl <;> simp [Msg.typed, M128]

end Verif.Gov
