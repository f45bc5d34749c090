import Verif.Dao.Props38

/-!
# The contracts of a DAO together: other rules in force

Helper lemmas for C175: what a message does when other rules are in force.
-/

set_option linter.unusedSimpArgs false

namespace Verif.Controller
open Verif

/-- The state with other rules in force. -/
def State.ruling (s : State) (k : GovConfig) (q : Option CouncilConfig) : State := { s with config := k, council := q }

/-- An action that changes the rules. -/
def Action.isAmendment : Action → Bool
  | .updateGovConfig _ => true
  | .updateCouncil _ => true
  | _ => false

/-- The message opens a proposal. -/
def Msg.isOpening : Msg → Bool
  | .createProposal _ _ => true
  | .createWithNft _ _ => true
  | .createCouncil _ => true
  | .receive _ _ _ => true
  | _ => false

/-- The rules agree in what running proposals depend on. -/
structure Matching (s : State) (k : GovConfig) (q : Option CouncilConfig) : Prop where
  early : k.early = s.config.early
  duration : k.voteDuration = s.config.voteDuration
  council : q.isSome = s.council.isSome

theorem act_ruling {e : Env} {s : State} {k : GovConfig} {q : Option CouncilConfig} {a : Action} (ha : a.isAmendment = false) :
    act e (s.ruling k q) a = (act e s a).map (fun r => (r.1.ruling k q, r.2)) ∧ ∀ r, act e s a = .ok r → r.1 = s := by
  cases a with
  | updateGovConfig c => cases ha
  | updateCouncil c => cases ha
  | upgradeDao v =>
    simp only [act]
    cases validateUpgrade e v <;> refine ⟨rfl, fun r hr => ?_⟩ <;> cases hr
    rfl
  | executeMsgs l =>
    simp only [act]
    cases customSubs e l <;> refine ⟨rfl, fun r hr => ?_⟩ <;> cases hr
    rfl
  | modifyMultisig l =>
    simp only [act]
    cases validateMultisig e l <;> refine ⟨rfl, fun r hr => ?_⟩ <;> cases hr
    rfl
  | _ => refine ⟨rfl, fun r hr => ?_⟩; cases hr; rfl

theorem actAll_ruling {e : Env} {k : GovConfig} {q : Option CouncilConfig} {s : State} : ∀ {l : List Action},
    (∀ a ∈ l, a.isAmendment = false) →
    actAll e (s.ruling k q) l = (actAll e s l).map (fun r => (r.1.ruling k q, r.2)) ∧ ∀ r, actAll e s l = .ok r → r.1 = s
  | [], _ => ⟨rfl, fun r hr => by cases hr; rfl⟩
  | a :: l, h => by
    obtain ⟨h1, h2⟩ := act_ruling (e := e) (s := s) (k := k) (q := q) (h a List.mem_cons_self)
    obtain ⟨h3, h4⟩ := actAll_ruling (e := e) (k := k) (q := q) (s := s) (fun x hx => h x (List.mem_cons_of_mem _ hx))
    simp only [actAll]
    rw [h1]
    cases hr : act e s a with
    | error x => exact ⟨rfl, fun r hr => by cases hr⟩
    | ok r =>
      have := h2 r hr
      obtain ⟨s', subs⟩ := r
      subst this
      simp only [Except.map, bind, Except.bind]
      rw [h3]
      cases hr2 : actAll e s' l with
      | error x => exact ⟨rfl, fun r hr => by cases hr⟩
      | ok r2 => exact ⟨rfl, fun r hr => by cases hr; exact h4 r2 hr2⟩

theorem replyVote_ruling {e : Env} {s : State} {g : Gov.State} {k : GovConfig} {q : Option CouncilConfig}
    (h : Matching s k q) : replyVote e (s.ruling k q) g = (replyVote e s g).map (·.ruling k q) := by
  unfold replyVote
  show (match s.voting with | none => _ | some (id, old) => _) = _
  cases s.voting with
  | none => rfl
  | some x =>
    simp only [State.ruling, h.early]
    split
    · rfl
    split
    · rfl
    cases s.infos.get x.1 with
    | none => rfl
    | some i =>
      simp only
      split
      · rfl
      simp only [bind, Except.bind, pure, Except.pure, Except.map]
      cases Gov.simulateEnd g x.1 (totalVotes e .never i.type) with
      | error y => rfl
      | ok st =>
        simp only
        cases Gov.queryPoll g x.1 with
        | error y => rfl
        | ok p =>
          simp only [restartCooldown, h.duration]
          split <;> rfl

theorem replyVote_rules {e : Env} {s s' : State} {g : Gov.State} (h : replyVote e s g = .ok s') :
    s'.config = s.config ∧ s'.council = s.council := by
  unfold replyVote at h
  split at h
  · cases h
  · simp only at h
    split at h
    · cases h; exact ⟨rfl, rfl⟩
    split at h
    · cases h; exact ⟨rfl, rfl⟩
    split at h
    · cases h
    split at h
    · cases h; exact ⟨rfl, rfl⟩
    simp only [bind_ok_iff, pure_ok_iff] at h
    obtain ⟨st, _, p, _, h⟩ := h
    rw [← h]
    unfold restartCooldown
    split <;> exact ⟨rfl, rfl⟩

theorem resolve_ruling {e : Env} {s : State} {g : Gov.State} {id : Nat} {k : GovConfig} {q : Option CouncilConfig} :
    resolve e (s.ruling k q) g id = (resolve e s g id).map (fun r => (r.1.ruling k q, r.2)) ∧
      ∀ r, resolve e s g id = .ok r → r.1.config = s.config ∧ r.1.council = s.council := by
  unfold resolve
  simp only [bind, Except.bind]
  cases Gov.queryPoll g id with
  | error x => exact ⟨rfl, fun r hr => by cases hr⟩
  | ok p =>
    cases hst : p.status with
    | inProgress x => exact ⟨by simp [hst, Except.map], fun r hr => by simp [hst] at hr⟩
    | passed x y =>
      simp only [hst, setExecuted, show (s.ruling k q).infos = s.infos from rfl]
      cases s.infos.get id with
      | none => exact ⟨rfl, fun r hr => by cases hr⟩
      | some i =>
        simp only [State.ruling, Map.get_set_self, Except.map]
        exact ⟨trivial, fun r hr => by cases hr; exact ⟨rfl, rfl⟩⟩
    | rejected x =>
      simp only [hst, setExecuted, show (s.ruling k q).infos = s.infos from rfl]
      cases s.infos.get id with
      | none => exact ⟨rfl, fun r hr => by cases hr⟩
      | some i =>
        simp only [State.ruling, Map.get_set_self, Except.map]
        exact ⟨trivial, fun r hr => by cases hr; exact ⟨rfl, rfl⟩⟩

theorem endProposal_ruling {e : Env} {s : State} {g : Gov.State} {id : Nat} {t : PType} {k : GovConfig}
    {q : Option CouncilConfig} (h : Matching s k q) :
    endProposal e (s.ruling k q) g id t = (endProposal e s g id t).map (fun r => (r.1.ruling k q, r.2)) ∧
      ∀ r, endProposal e s g id t = .ok r → r.1.config = s.config ∧ r.1.council = s.council := by
  have ha : allowsEarly (s.ruling k q) t = allowsEarly s t := by cases t <;> simp [allowsEarly, State.ruling, h.early]
  unfold endProposal
  rw [ha]
  simp only [bind, Except.bind]
  cases Gov.queryPoll g id with
  | error x => exact ⟨rfl, fun r hr => by cases hr⟩
  | ok p =>
    simp only
    split
    · split
      · exact ⟨rfl, fun r hr => by cases hr⟩
      · cases Gov.exec g ⟨e.block.time, e.self, .endPoll id (totalVotes e (.time p.endsAt) t) false (allowsEarly s t)⟩ with
        | error x => exact ⟨rfl, fun r hr => by cases hr⟩
        | ok g1 =>
          obtain ⟨h1, h2⟩ := resolve_ruling (e := e) (s := { s with executing := none }) (g := g1) (id := id) (k := k) (q := q)
          simp only [replyEnd]
          have h1' : resolve e { (s.ruling k q) with executing := none } g1 id =
            (resolve e { s with executing := none } g1 id).map (fun r => (r.1.ruling k q, r.2)) := h1
          rw [h1']
          cases hr : resolve e { s with executing := none } g1 id with
          | error x => exact ⟨rfl, fun r hr => by cases hr⟩
          | ok r => exact ⟨rfl, fun r' hr' => by cases hr'; exact h2 r hr⟩
    · split
      · exact ⟨rfl, fun r hr => by cases hr⟩
      · cases Gov.exec g ⟨e.block.time, e.self, .endPoll id (totalVotes e .never t) false (allowsEarly s t)⟩ with
        | error x => exact ⟨rfl, fun r hr => by cases hr⟩
        | ok g1 =>
          obtain ⟨h1, h2⟩ := resolve_ruling (e := e) (s := { s with executing := none }) (g := g1) (id := id) (k := k) (q := q)
          simp only [replyEnd]
          have h1' : resolve e { (s.ruling k q) with executing := none } g1 id =
            (resolve e { s with executing := none } g1 id).map (fun r => (r.1.ruling k q, r.2)) := h1
          rw [h1']
          cases hr : resolve e { s with executing := none } g1 id with
          | error x => exact ⟨rfl, fun r hr => by cases hr⟩
          | ok r => exact ⟨rfl, fun r' hr' => by cases hr'; exact h2 r hr⟩

theorem exec_ruling {e : Env} {a : Addr} {s : State} {g : Gov.State} {m : Msg} {k : GovConfig} {q : Option CouncilConfig}
    (h : Matching s k q) (hm : m.isOpening = false)
    (hx : ∀ id i, m = .executeActions id → s.infos.get id = some i → ∀ x ∈ i.actions, x.isAmendment = false) :
    exec e a (s.ruling k q) g m = (exec e a s g m).map (fun r => (r.1.ruling k q, r.2)) ∧
      ∀ r, exec e a s g m = .ok r → r.1.config = s.config ∧ r.1.council = s.council := by
  cases m with
  | createProposal _ _ => cases hm
  | createWithNft _ _ => cases hm
  | createCouncil _ => cases hm
  | receive _ _ _ => cases hm
  | castVote id o =>
    simp only [exec, castVote, bind, Except.bind]
    cases unrestricted e a with
    | error x => exact ⟨rfl, fun r hr => by cases hr⟩
    | ok _ =>
      simp only [show (s.ruling k q).infos = s.infos from rfl]
      by_cases h0 : e.weight a = 0
      · simp only [if_pos h0]
        exact ⟨rfl, fun r hr => by cases hr⟩
      simp only [if_neg h0]
      cases s.infos.get id with
      | none => exact ⟨rfl, fun r hr => by cases hr⟩
      | some i =>
        by_cases h1 : i.type ≠ .general
        · simp only [if_pos h1]
          exact ⟨rfl, fun r hr => by cases hr⟩
        simp only [if_neg h1]
        cases Gov.simulateEnd g id (totalVotes e .never i.type) with
        | error x => exact ⟨rfl, fun r hr => by cases hr⟩
        | ok st =>
          simp only
          cases Gov.exec g ⟨e.block.time, e.self, .castVote id o a (e.weight a)⟩ with
          | error x => exact ⟨rfl, fun r hr => by cases hr⟩
          | ok g1 =>
            have h1 := replyVote_ruling (e := e) (g := g1) (k := k) (q := q)
              (s := { s with voting := some (id, executability st) }) ⟨h.early, h.duration, h.council⟩
            simp only [State.ruling] at h1 ⊢
            rw [h1]
            cases hr : replyVote e { s with voting := some (id, executability st) } g1 with
            | error x => exact ⟨rfl, fun r hr => by cases hr⟩
            | ok s2 => exact ⟨rfl, fun r' hr' => by cases hr'; have := replyVote_rules hr; exact this⟩
  | castCouncilVote id o =>
    simp only [exec, castCouncilVote, bind, Except.bind]
    cases unrestricted e a with
    | error x => exact ⟨rfl, fun r hr => by cases hr⟩
    | ok _ =>
      simp only
      have hq := h.council
      simp only [show (s.ruling k q).council = q from rfl, show (s.ruling k q).infos = s.infos from rfl]
      cases hs : s.council with
      | none =>
        rw [hs] at hq
        cases q with
        | none => exact ⟨rfl, fun r hr => by cases hr⟩
        | some _ => cases hq
      | some y =>
        rw [hs] at hq
        cases q with
        | none => cases hq
        | some z =>
          by_cases h0 : e.councilWeight a = 0
          · simp only [if_pos h0]
            exact ⟨rfl, fun r hr => by cases hr⟩
          simp only [if_neg h0]
          cases s.infos.get id with
          | none => exact ⟨rfl, fun r hr => by cases hr⟩
          | some i =>
            by_cases h1 : i.type ≠ .council
            · simp only [if_pos h1]
              exact ⟨rfl, fun r hr => by cases hr⟩
            simp only [if_neg h1]
            cases Gov.exec g ⟨e.block.time, e.self, .castVote id o a (e.councilWeight a)⟩ with
            | error x => exact ⟨rfl, fun r hr => by cases hr⟩
            | ok g1 => exact ⟨rfl, fun r' hr' => by cases hr'; exact ⟨rfl, hs⟩⟩
  | execute id =>
    simp only [exec, executeProposal, bind, Except.bind]
    cases unrestricted e a with
    | error x => exact ⟨rfl, fun r hr => by cases hr⟩
    | ok _ =>
      simp only [show (s.ruling k q).infos = s.infos from rfl]
      cases s.infos.get id with
      | none => exact ⟨rfl, fun r hr => by cases hr⟩
      | some i =>
        simp only
        split
        · exact ⟨rfl, fun r hr => by cases hr⟩
        split
        · exact ⟨rfl, fun r hr => by cases hr⟩
        exact endProposal_ruling h
  | weightsChanged l =>
    simp only [exec, bind, Except.bind]
    cases weightsChanged e a g l with
    | error x => exact ⟨rfl, fun r hr => by cases hr⟩
    | ok r => exact ⟨rfl, fun r' hr' => by cases hr'; exact ⟨rfl, rfl⟩⟩
  | executeActions id =>
    simp only [exec, executeActions, bind, Except.bind]
    by_cases h0 : a ≠ e.self
    · simp only [if_pos h0]
      exact ⟨rfl, fun r hr => by cases hr⟩
    simp only [if_neg h0, show (s.ruling k q).infos = s.infos from rfl]
    cases hi : s.infos.get id with
    | none => exact ⟨rfl, fun r hr => by cases hr⟩
    | some i =>
      obtain ⟨h1, h2⟩ := actAll_ruling (e := e) (k := k) (q := q) (s := s) (hx id i rfl hi)
      simp only
      rw [h1]
      cases hr : actAll e s i.actions with
      | error x => exact ⟨rfl, fun r hr => by cases hr⟩
      | ok r =>
        refine ⟨rfl, fun r' hr' => ?_⟩
        cases hr'
        rw [show r.1 = s from h2 r hr]
        exact ⟨rfl, rfl⟩
  | deployInitial =>
    simp only [exec, deployInitial, bind, Except.bind]
    simp only [show (s.ruling k q).created = s.created from rfl]
    by_cases h0 : s.created ≠ e.block.time
    · simp only [if_pos h0]
      exact ⟨rfl, fun r hr => by cases hr⟩
    simp only [if_neg h0]
    by_cases h1 : e.creator ≠ a
    · simp only [if_pos h1]
      exact ⟨rfl, fun r hr => by cases hr⟩
    simp only [if_neg h1]
    exact ⟨rfl, fun r hr => by cases hr; exact ⟨rfl, rfl⟩⟩

end Verif.Controller

namespace Verif.Dao
open Verif
open Verif.Controller (GovConfig CouncilConfig Matching Transfer)

/-- The DAO with other rules in force. -/
def World.ruling (w : World) (k : GovConfig) (q : Option CouncilConfig) : World := { w with ctl := w.ctl.ruling k q }

/-- The message opens a proposal, or it runs the actions of one that changes the rules. -/
def touches (w : World) : Msg → Bool
  | .ctl (.executeActions id) => ((w.ctl.infos.get id).map (fun i => i.actions.any (·.isAmendment))).getD false
  | .ctl m => m.isOpening
  | _ => false

theorem deliver_ruling {c : Cfg} {e : Ext} {a : Addr} {k : GovConfig} {q : Option CouncilConfig} : ∀ (l : List Out) (w : World),
    deliver c e a (w.ruling k q) l = (deliver c e a w l).map (fun r => (r.1.ruling k q, r.2)) ∧
      ∀ r, deliver c e a w l = .ok r → r.1.ctl = w.ctl
  | [], w => ⟨rfl, fun r hr => by cases hr; rfl⟩
  | .pay _ _ :: t, w => ⟨rfl, fun r hr => by cases hr; rfl⟩
  | .sendNft _ _ :: t, w => ⟨rfl, fun r hr => by cases hr; rfl⟩
  | .notify x l :: t, w => by
    unfold deliver
    by_cases hx : x = c.self
    · simp only [if_pos hx, bind, Except.bind]
      simp only [show c.env e (w.ruling k q) = c.env e w from rfl, show (w.ruling k q).gov = w.gov from rfl,
        show (w.ruling k q).dist = w.dist from rfl]
      cases Controller.weightsChanged (c.env e w) a w.gov l with
      | error y => exact ⟨rfl, fun r hr => by cases hr⟩
      | ok r =>
        simp only
        cases updateDist c e w.dist r.2 with
        | error y => exact ⟨rfl, fun r hr => by cases hr⟩
        | ok d => exact deliver_ruling t { w with gov := r.1, dist := d }
    · simp only [if_neg hx]
      exact ⟨rfl, fun r hr => by cases hr; rfl⟩

theorem handle_ruling {c : Cfg} {e : Ext} {w : World} {a : Addr} {m : Msg} {k : GovConfig} {q : Option CouncilConfig}
    (h : Matching w.ctl k q) (hm : touches w m = false) :
    handle c e (w.ruling k q) a m = (handle c e w a m).map (fun r => (r.1.ruling k q, r.2)) ∧
      ∀ r, handle c e w a m = .ok r → r.1.ctl.config = w.ctl.config ∧ r.1.ctl.council = w.ctl.council := by
  cases m with
  | ctl m =>
    obtain ⟨h1, h2⟩ := Controller.exec_ruling (e := c.env e w) (a := a) (g := w.gov) (m := m) h
      (by cases m <;> first | rfl | exact hm)
      (fun id i hid hi x hx => by
        subst hid
        have h1 : ((w.ctl.infos.get id).map (fun i => i.actions.any (·.isAmendment))).getD false = false := hm
        rw [hi] at h1
        cases hxa : x.isAmendment with
        | false => rfl
        | true => exact absurd (List.any_eq_true.2 ⟨x, hx, hxa⟩) (by rw [show i.actions.any (·.isAmendment) = false from h1]; decide))
    simp only [handle, bind, Except.bind]
    simp only [show c.env e (w.ruling k q) = c.env e w from rfl, show (w.ruling k q).gov = w.gov from rfl,
      show (w.ruling k q).ctl = w.ctl.ruling k q from rfl]
    rw [h1]
    cases hr : Controller.exec (c.env e w) a w.ctl w.gov m with
    | error y => exact ⟨rfl, fun r hr => by cases hr⟩
    | ok r => exact ⟨rfl, fun r' hr' => by cases hr'; exact h2 r hr⟩
  | gov m =>
    simp only [handle, bind, Except.bind]
    simp only [show (w.ruling k q).gov = w.gov from rfl, show (w.ruling k q).block = w.block from rfl]
    cases Gov.exec w.gov ⟨w.block.time, a, m⟩ with
    | error y => exact ⟨rfl, fun r hr => by cases hr⟩
    | ok r => exact ⟨rfl, fun r' hr' => by cases hr'; exact ⟨rfl, rfl⟩⟩
  | dist m =>
    simp only [handle, bind, Except.bind]
    simp only [show (w.ruling k q).dist = w.dist from rfl]
    cases Distributor.exec w.dist (e.denv a) m with
    | error y => exact ⟨rfl, fun r hr => by cases hr⟩
    | ok r => exact ⟨rfl, fun r' hr' => by cases hr'; exact ⟨rfl, rfl⟩⟩
  | mem m =>
    simp only [handle, bind, Except.bind]
    simp only [show (w.ruling k q).mem = w.mem from rfl, show c.menv e (w.ruling k q) a = c.menv e w a from rfl]
    cases w.mem.exec ⟨c.menv e w a, e.proxy⟩ m with
    | error y => exact ⟨rfl, fun r hr => by cases hr⟩
    | ok r =>
      obtain ⟨h1, h2⟩ := deliver_ruling (c := c) (e := e) (a := c.comps.membership) (k := k) (q := q) r.2 { w with mem := r.1 }
      exact ⟨h1, fun r' hr' => by rw [h2 r' hr']; exact ⟨rfl, rfl⟩⟩
  | council m =>
    simp only [handle, bind, Except.bind]
    simp only [show (w.ruling k q).council = w.council from rfl, show c.menv e (w.ruling k q) a = c.menv e w a from rfl]
    cases Multisig.exec w.council (c.menv e w a) m with
    | error y => exact ⟨rfl, fun r hr => by cases hr⟩
    | ok r =>
      obtain ⟨h1, h2⟩ := deliver_ruling (c := c) (e := e) (a := c.comps.council) (k := k) (q := q) r.2 { w with council := r.1 }
      exact ⟨h1, fun r' hr' => by rw [h2 r' hr']; exact ⟨rfl, rfl⟩⟩

theorem Matching.of_eq {s s' : Controller.State} {k : GovConfig} {q : Option CouncilConfig} (h : Matching s k q)
    (h' : s'.config = s.config ∧ s'.council = s.council) : Matching s' k q :=
  ⟨by rw [h'.1]; exact h.early, by rw [h'.1]; exact h.duration, by rw [h'.2]; exact h.council⟩

theorem Traced.ruling {c : Cfg} {k : GovConfig} {q : Option CouncilConfig} {w w' : World} {l : List Item} {t : List Entry}
    (h : Traced c w l w' t) : Matching w.ctl k q → (∀ x ∈ t, touches x.world x.msg = false) →
      ∃ t', Traced c (w.ruling k q) l (w'.ruling k q) t' ∧ t'.map Entry.label = t.map Entry.label ∧
        w'.ctl.config = w.ctl.config ∧ w'.ctl.council = w.ctl.council := by
  induction h with
  | nil w => exact fun _ _ => ⟨[], .nil _, rfl, rfl, rfl⟩
  | @call w w1 w2 w3 a m subs rest t1 t2 e room h h1 h2 ih1 ih2 =>
    intro hm hx
    obtain ⟨g1, g2⟩ := handle_ruling (c := c) (e := e) (a := a) hm (hx _ List.mem_cons_self)
    have g3 := g2 _ h
    rw [h] at g1
    obtain ⟨s1, k1, k2, k3⟩ := ih1 (Matching.of_eq hm g3) (fun x hx' => hx x (by simp [hx']))
    have hm2 := Matching.of_eq (Matching.of_eq hm g3) k3
    obtain ⟨s2, k4, k5, k6⟩ := ih2 hm2 (fun x hx' => hx x (by simp [hx']))
    refine ⟨⟨w.ruling k q, e, a, m⟩ :: (s1 ++ s2), .call e room g1 k1 k4, ?_, ?_⟩
    · simp only [List.map_cons, List.map_append, k2, k5]; rfl
    · exact ⟨k6.1.trans (k3.1.trans g3.1), k6.2.trans (k3.2.trans g3.2)⟩
  | @actions w w1 w2 w3 id subs rest t1 t2 e room h h1 h2 ih1 ih2 =>
    intro hm hx
    obtain ⟨g1, g2⟩ := handle_ruling (c := c) (e := e) (a := c.self) hm (hx _ List.mem_cons_self)
    have g3 := g2 _ h
    simp only at g1
    rw [h] at g1
    obtain ⟨s1, k1, k2, k3⟩ := ih1 (Matching.of_eq hm g3) (fun x hx' => hx x (by simp [hx']))
    have hm2 := Matching.of_eq (Matching.of_eq hm g3) k3
    obtain ⟨s2, k4, k5, k6⟩ := ih2 hm2 (fun x hx' => hx x (by simp [hx']))
    refine ⟨⟨w.ruling k q, e, c.self, .ctl (.executeActions id)⟩ :: (s1 ++ s2), .actions e room g1 k1 k4, ?_, ?_⟩
    · simp only [List.map_cons, List.map_append, k2, k5]; rfl
    · exact ⟨k6.1.trans (k3.1.trans g3.1), k6.2.trans (k3.2.trans g3.2)⟩
  | failed h ih =>
    intro hm hx
    obtain ⟨t', k1, k2⟩ := ih hm hx
    exact ⟨t', .failed k1, k2⟩
  | @deposit w w1 w2 id t calls rest t1 t2 hc h1 h2 ih1 ih2 =>
    intro hm hx
    obtain ⟨s1, k1, k2, k3⟩ := ih1 hm (fun x hx' => hx x (by simp [hx']))
    obtain ⟨s2, k4, k5, k6⟩ := ih2 (Matching.of_eq hm k3) (fun x hx' => hx x (by simp [hx']))
    exact ⟨s1 ++ s2, .deposit hc k1 k4, by rw [List.map_append, List.map_append, k2, k5], k6.1.trans k3.1, k6.2.trans k3.2⟩
  | @other w w1 w2 calls rest t1 t2 hc h1 h2 ih1 ih2 =>
    intro hm hx
    obtain ⟨s1, k1, k2, k3⟩ := ih1 hm (fun x hx' => hx x (by simp [hx']))
    obtain ⟨s2, k4, k5, k6⟩ := ih2 (Matching.of_eq hm k3) (fun x hx' => hx x (by simp [hx']))
    exact ⟨s1 ++ s2, .other hc k1 k4, by rw [List.map_append, List.map_append, k2, k5], k6.1.trans k3.1, k6.2.trans k3.2⟩

theorem History.ruling {c : Cfg} {k : GovConfig} {q : Option CouncilConfig} {w w' : World} {t : List Entry}
    (h : History c w w' t) : Matching w.ctl k q → (∀ x ∈ t, touches x.world x.msg = false) →
      ∃ t', History c (w.ruling k q) (w'.ruling k q) t' ∧ t'.map Entry.label = t.map Entry.label ∧
        w'.ctl.config = w.ctl.config ∧ w'.ctl.council = w.ctl.council := by
  induction h with
  | start => exact fun _ _ => ⟨[], .start, rfl, rfl, rfl⟩
  | @tx w1 w2 a m t t1 h ha hx ih =>
    intro hm ht
    obtain ⟨s1, k1, k2, k3⟩ := ih hm (fun x hx' => ht x (by simp [hx']))
    obtain ⟨s2, k4, k5, k6⟩ := hx.ruling (Matching.of_eq hm k3) (fun x hx' => ht x (by simp [hx']))
    exact ⟨s1 ++ s2, .tx k1 ha k4, by rw [List.map_append, List.map_append, k2, k5], k6.1.trans k3.1, k6.2.trans k3.2⟩
  | @block w1 b t h hh htm ih =>
    intro hm ht
    obtain ⟨s1, k1, k2, k3⟩ := ih hm ht
    exact ⟨s1, .block k1 hh htm, k2, k3⟩

end Verif.Dao
