import Verif.Dao.Props18

/-!
# The contracts of a DAO together: histories in which no proposal forges a message

Most theorems about a DAO assume that no custom message that a proposal could carry forges the messages that the
contracts send to one another (`Cfg.Tame`). Here the assumption is weakened to the messages of the proposals that were run.
A history without forged messages is also one of the DAO in which such messages would go elsewhere (`Cfg.calm`), which
meets the assumption. `Midway` describes what is reached within a transaction.
-/

set_option linter.unusedSimpArgs false

namespace Verif.Dao
open Verif
open Verif.Controller (DaoType Transfer Sub Info Action)

/-- The actions that a message runs, if any, ask the controller for no message that the contracts of the DAO expect from
one another only. -/
def Entry.calm (c : Cfg) (x : Entry) : Prop := ∀ a ∈ actionsRun x, ∀ m, Says c a m → m.tame = true

/-- No message of a list runs actions that forge a message. -/
def Calm (c : Cfg) (t : List Entry) : Prop := ∀ x ∈ t, x.calm c

theorem Calm.append {c : Cfg} {t t' : List Entry} : Calm c (t ++ t') ↔ Calm c t ∧ Calm c t' := by
  unfold Calm
  constructor
  · exact fun h => ⟨fun x hx => h x (List.mem_append_left _ hx), fun x hx => h x (List.mem_append_right _ hx)⟩
  · rintro ⟨h1, h2⟩ x hx
    rcases List.mem_append.1 hx with hx | hx
    · exact h1 x hx
    · exact h2 x hx

theorem Calm.cons {c : Cfg} {x : Entry} {t : List Entry} : Calm c (x :: t) ↔ x.calm c ∧ Calm c t := by
  rw [← List.singleton_append, Calm.append]
  unfold Calm
  simp

/-- The DAO in which messages that could be forged go elsewhere. -/
def Cfg.calm (c : Cfg) : Cfg :=
  { c with decode := fun n =>
      match c.decode n with
      | some (some m) => if m.tame then some (some m) else some none
      | x => x }

theorem calm_wf {c : Cfg} (h : c.Wf) : c.calm.Wf := ⟨h.membership, h.council, h.both⟩

theorem calm_tame (c : Cfg) : c.calm.Tame := by
  intro n m h
  simp only [Cfg.calm] at h
  split at h
  · split at h
    · cases h; assumption
    · cases h
  · rename_i hx
    exact absurd h (hx m)

theorem calm_genesis {c : Cfg} {w : World} (h : Genesis c w) : Genesis c.calm w :=
  ⟨h.ctl, h.gov, h.dist, h.mem, h.council, h.log⟩

theorem calm_env (c : Cfg) (e : Ext) (w : World) : c.calm.env e w = c.env e w := by
  have hp : (fun n => (c.calm.decode n).isSome) = fun n => (c.decode n).isSome := by
    funext n
    simp only [Cfg.calm]
    split
    · rename_i m hd
      rw [hd]
      split <;> rfl
    · rfl
  unfold Cfg.env
  rw [hp]
  rfl

theorem calm_updateDist (c : Cfg) (e : Ext) : ∀ (l : List Sub) (d : Distributor.State),
    updateDist c.calm e d l = updateDist c e d l := by
  intro l
  induction l with
  | nil => intro d; rfl
  | cons a t ih =>
    intro d
    cases a with
    | distributor m =>
      simp only [updateDist]
      show (Distributor.exec d (e.denv c.self) m >>= _) = (Distributor.exec d (e.denv c.self) m >>= _)
      congr 1
      funext r
      exact ih _
    | _ => rfl

theorem calm_deliver (c : Cfg) (e : Ext) (f : Addr) : ∀ (l : List Out) (w : World),
    deliver c.calm e f w l = deliver c e f w l := by
  intro l
  induction l with
  | nil => intro w; rfl
  | cons a t ih =>
    intro w
    cases a with
    | notify h l =>
      simp only [deliver]
      rw [calm_env]
      show (if h = c.self then _ else _) = (if h = c.self then _ else _)
      split
      · congr 1
        funext r
        rw [calm_updateDist]
        congr 1
        funext d
        exact ih _
      · rfl
    | _ => rfl

/-- Custom messages come from the actions of proposals only. -/
theorem custom_said {e : Controller.Env} {u : Addr} {s : Controller.State} {g : Gov.State} {m : Controller.Msg}
    {r : Controller.State × Gov.State × List Sub} (h : Controller.exec e u s g m = .ok r) {n : Nat}
    (hn : Sub.custom n ∈ r.2.2) :
    ∃ id i l, m = .executeActions id ∧ s.infos.get id = some i ∧ Action.executeMsgs l ∈ i.actions ∧ n ∈ l := by
  have hcreate : m.isCreate = true → False := by
    intro hm
    obtain ⟨_, _, _, h1⟩ := Controller.created_exec hm h
    obtain ⟨_, _, h2⟩ := h1 _ hn
    cases h2
  cases m with
  | createProposal p f => exact (hcreate rfl).elim
  | createWithNft p l => exact (hcreate rfl).elim
  | createCouncil p => exact (hcreate rfl).elim
  | receive f a p => exact (hcreate rfl).elim
  | castVote id o =>
    simp only [Controller.exec, bind_ok_iff, pure_ok_iff] at h
    obtain ⟨r1, h1, rfl⟩ := h
    cases hn
  | castCouncilVote id o =>
    simp only [Controller.exec, bind_ok_iff, pure_ok_iff] at h
    obtain ⟨r1, h1, rfl⟩ := h
    cases hn
  | execute id =>
    exfalso
    simp only [Controller.exec] at h
    obtain ⟨_, inf, p, _, _, _, _, _, _, _, rfl⟩ := Controller.executeProposal_ok_iff.1 h
    have hdep : ∀ (id : Nat) (a : Controller.DepositAsset) (dst : Addr), Sub.custom n ∉ Controller.sendDeposit id a dst := by
      intro id a dst hi
      unfold Controller.sendDeposit at hi
      obtain ⟨y, _, hy⟩ := List.mem_map.1 hi
      cases hy
    have hret : Sub.custom n ∉ Controller.returnDeposit id inf := by
      unfold Controller.returnDeposit
      cases inf.deposit with
      | none => intro hi; cases hi
      | some d => exact hdep _ _ _
    simp only at hn
    unfold Controller.outcomeSubs at hn
    split at hn
    · rcases List.mem_cons.1 hn with hi | hi
      · cases hi
      · exact hret hi
    · unfold Controller.rejectedDeposit at hn
      split at hn
      · cases hn
      · split at hn
        · split at hn
          · exact hdep _ _ _ hn
          · cases hn
        · exact hret hn
    · cases hn
  | weightsChanged l =>
    exfalso
    simp only [Controller.exec, bind_ok_iff, pure_ok_iff] at h
    obtain ⟨r1, h1, rfl⟩ := h
    rcases Controller.weightsChanged_ok_iff.1 h1 with ⟨_, rfl⟩ | ⟨_, _, _, h2⟩
    · cases hn
    · simp [h2] at hn
  | executeActions id =>
    simp only [Controller.exec, bind_ok_iff, pure_ok_iff] at h
    obtain ⟨r1, h1, rfl⟩ := h
    obtain ⟨_, i, hi, h2⟩ := Controller.executeActions_ok_iff.1 h1
    obtain ⟨a, ha, _, _, l', hd, hy⟩ := doesAll_sub ((Controller.actAll_iff _).1 h2) hn
    cases hd with
    | msgs _ =>
      obtain ⟨k, hk, hkn⟩ := List.mem_map.1 hy
      cases hkn
      exact ⟨id, i, _, rfl, hi, ha, hk⟩
    | config => cases hy
    | configMultisig => cases hy
    | _ => rw [List.mem_singleton] at hy; cases hy
  | deployInitial =>
    exfalso
    simp only [Controller.exec, bind_ok_iff, pure_ok_iff] at h
    obtain ⟨r1, h1, rfl⟩ := h
    obtain ⟨_, _, rfl⟩ := Controller.deployInitial_ok_iff.1 h1
    simp at hn

/-- Both DAOs handle a message in the same way unless it runs actions that forge one. -/
theorem calm_handle {c : Cfg} {e : Ext} {w : World} {a : Addr} {m : Msg} (h : Entry.calm c ⟨w, e, a, m⟩) :
    handle c.calm e w a m = handle c e w a m := by
  cases m with
  | ctl m =>
    simp only [handle]
    rw [calm_env]
    cases hr : Controller.exec (c.env e w) a w.ctl w.gov m with
    | error x => rfl
    | ok r =>
      show Except.ok (_, _) = Except.ok (_, _)
      congr 2
      apply List.map_congr_left
      intro s hs
      cases s with
      | custom n =>
        obtain ⟨id, i, l, rfl, hi, ha, hn⟩ := custom_said hr hs
        simp only [toItem, Cfg.calm]
        cases hd : c.decode n with
        | none => rfl
        | some x =>
          cases x with
          | none => rfl
          | some m' =>
            have hrun : Action.executeMsgs l ∈ actionsRun ⟨w, e, a, .ctl (.executeActions id)⟩ := by
              simp only [actionsRun]
              rw [hi]
              exact ha
            have := h _ hrun m' (.custom hn hd)
            simp only [this, if_true]
      | _ => rfl
  | gov m => rfl
  | dist m => rfl
  | mem m =>
    simp only [handle]
    show (w.mem.exec ⟨c.menv e w a, e.proxy⟩ m >>= _) = (w.mem.exec ⟨c.menv e w a, e.proxy⟩ m >>= _)
    congr 1
    funext r
    exact calm_deliver c e _ _ _
  | council m =>
    simp only [handle]
    show (Multisig.exec w.council (c.menv e w a) m >>= _) = (Multisig.exec w.council (c.menv e w a) m >>= _)
    congr 1
    funext r
    exact calm_deliver c e _ _ _

theorem Traced.calm {c : Cfg} {w w' : World} {l : List Item} {t : List Entry} (h : Traced c w l w' t) :
    Calm c t → Traced c.calm w l w' t := by
  induction h with
  | nil w => intro _; exact .nil w
  | call e room h _ _ ih1 ih2 =>
    intro hc
    obtain ⟨h1, h2⟩ := Calm.cons.1 hc
    obtain ⟨h2, h3⟩ := Calm.append.1 h2
    exact .call e room ((calm_handle h1).trans h) (ih1 h2) (ih2 h3)
  | actions e room h _ _ ih1 ih2 =>
    intro hc
    obtain ⟨h1, h2⟩ := Calm.cons.1 hc
    obtain ⟨h2, h3⟩ := Calm.append.1 h2
    exact .actions (c := c.calm) e room ((calm_handle h1).trans h) (ih1 h2) (ih2 h3)
  | failed _ ih => intro hc; exact .failed (ih hc)
  | deposit hcl _ _ ih1 ih2 =>
    intro hc
    obtain ⟨h2, h3⟩ := Calm.append.1 hc
    exact .deposit hcl (ih1 h2) (ih2 h3)
  | other hcl _ _ ih1 ih2 =>
    intro hc
    obtain ⟨h2, h3⟩ := Calm.append.1 hc
    exact .other hcl (ih1 h2) (ih2 h3)

theorem History.calm {c : Cfg} {w w' : World} {t : List Entry} (h : History c w w' t) :
    Calm c t → History c.calm w w' t := by
  induction h with
  | start => intro _; exact .start
  | tx _ ha hx ih =>
    intro hc
    obtain ⟨h2, h3⟩ := Calm.append.1 hc
    exact .tx (c := c.calm) (ih h2) ha (hx.calm h3)
  | block _ hh ht ih => intro hc; exact .block (ih hc) hh ht

/-- Back again. -/
theorem Traced.uncalm {c : Cfg} {w w' : World} {l : List Item} {t : List Entry} (h : Traced c.calm w l w' t) :
    Calm c t → Traced c w l w' t := by
  induction h with
  | nil w => intro _; exact .nil w
  | call e room h _ _ ih1 ih2 =>
    intro hc
    obtain ⟨h1, h2⟩ := Calm.cons.1 hc
    obtain ⟨h2, h3⟩ := Calm.append.1 h2
    exact .call e room ((calm_handle h1).symm.trans h) (ih1 h2) (ih2 h3)
  | actions e room h _ _ ih1 ih2 =>
    intro hc
    obtain ⟨h1, h2⟩ := Calm.cons.1 hc
    obtain ⟨h2, h3⟩ := Calm.append.1 h2
    exact .actions (c := c) e room ((calm_handle h1).symm.trans h) (ih1 h2) (ih2 h3)
  | failed _ ih => intro hc; exact .failed (ih hc)
  | deposit hcl _ _ ih1 ih2 =>
    intro hc
    obtain ⟨h2, h3⟩ := Calm.append.1 hc
    exact .deposit hcl (ih1 h2) (ih2 h3)
  | other hcl _ _ ih1 ih2 =>
    intro hc
    obtain ⟨h2, h3⟩ := Calm.append.1 hc
    exact .other hcl (ih1 h2) (ih2 h3)

theorem History.uncalm {c : Cfg} {w w' : World} {t : List Entry} (h : History c.calm w w' t) :
    Calm c t → History c w w' t := by
  induction h with
  | start => intro _; exact .start
  | tx _ ha hx ih =>
    intro hc
    obtain ⟨h2, h3⟩ := Calm.append.1 hc
    exact .tx (c := c) (ih h2) ha (hx.uncalm h3)
  | block _ hh ht ih => intro hc; exact .block (ih hc) hh ht

/-! ### Within a transaction -/

/-- From state `w0` with queue `l0`, the messages `t` are handled, one after the other; then the state is `v` and the rest
of the queue is `q`. -/
inductive Midway (c : Cfg) (w0 : World) (l0 : List Item) : World → List Item → List Entry → Prop
  | start : Midway c w0 l0 w0 l0 []
  | call {v v1 : World} {a : Addr} {m : Msg} {subs rest : List Item} {t : List Entry} (e : Ext)
      (h : Midway c w0 l0 v (.call a m :: rest) t) (room : v.gov.pollCount + 1 < 2 ^ 64)
      (hx : handle c e v a m = .ok (v1, subs)) : Midway c w0 l0 v1 (subs ++ rest) (t ++ [⟨v, e, a, m⟩])
  | actions {v v1 : World} {id : Nat} {subs rest : List Item} {t : List Entry} (e : Ext)
      (h : Midway c w0 l0 v (.actions id :: rest) t) (room : v.gov.pollCount + 1 < 2 ^ 64)
      (hx : handle c e v c.self (.ctl (.executeActions id)) = .ok (v1, subs)) :
      Midway c w0 l0 v1 (subs ++ rest) (t ++ [⟨v, e, c.self, .ctl (.executeActions id)⟩])
  | failed {v : World} {id : Nat} {rest : List Item} {t : List Entry} (h : Midway c w0 l0 v (.actions id :: rest) t) :
      Midway c w0 l0 v rest t
  | deposit {v : World} {id : Nat} {d : Transfer} {calls rest : List Item} {t : List Entry}
      (h : Midway c w0 l0 v (.deposit id d :: rest) t) (hc : Calls c calls) :
      Midway c w0 l0 { v with log := v.log ++ [.paid id d] } (calls ++ rest) t
  | other {v : World} {calls rest : List Item} {t : List Entry}
      (h : Midway c w0 l0 v (.other :: rest) t) (hc : Calls c calls) : Midway c w0 l0 v (calls ++ rest) t

theorem Traced.midway {c : Cfg} {w w' : World} {l : List Item} {t : List Entry} (h : Traced c w l w' t) :
    ∀ {w0 l0 t0 rest}, Midway c w0 l0 w (l ++ rest) t0 → Midway c w0 l0 w' rest (t0 ++ t) := by
  induction h with
  | nil w => intro w0 l0 t0 rest h0; rwa [List.append_nil]
  | call e room h _ _ ih1 ih2 =>
    intro w0 l0 t0 r h0
    have h1 := Midway.call e h0 room h
    have h3 := ih2 (ih1 h1)
    rwa [List.append_assoc, List.append_assoc] at h3
  | actions e room h _ _ ih1 ih2 =>
    intro w0 l0 t0 r h0
    have h1 := Midway.actions e h0 room h
    have h3 := ih2 (ih1 h1)
    rwa [List.append_assoc, List.append_assoc] at h3
  | failed _ ih => intro w0 l0 t0 r h0; exact ih (.failed h0)
  | deposit hcl _ _ ih1 ih2 =>
    intro w0 l0 t0 r h0
    have h3 := ih2 (ih1 (Midway.deposit h0 hcl))
    rwa [List.append_assoc] at h3
  | other hcl _ _ ih1 ih2 =>
    intro w0 l0 t0 r h0
    have h3 := ih2 (ih1 (Midway.other h0 hcl))
    rwa [List.append_assoc] at h3

/-- The state that a message met is reached by the messages before it. -/
theorem Midway.split {c : Cfg} {w0 v : World} {l0 q : List Item} {t : List Entry} (h : Midway c w0 l0 v q t) :
    ∀ {t1 x t2}, t = t1 ++ x :: t2 → ∃ i rest v1 subs, Midway c w0 l0 x.world (i :: rest) t1 ∧
      (i = .call x.sender x.msg ∨ ∃ id, i = .actions id ∧ x.sender = c.self ∧ x.msg = .ctl (.executeActions id)) ∧
      handle c x.ext x.world x.sender x.msg = .ok (v1, subs) := by
  have last : ∀ {t t1 : List Entry} {y x : Entry} {t2 : List Entry}, t ++ [y] = t1 ++ x :: t2 →
      (t = t1 ∧ y = x ∧ t2 = []) ∨ ∃ t3, t = t1 ++ x :: t3 := by
    intro t t1 y x t2 he
    rcases List.eq_nil_or_concat t2 with rfl | ⟨t3, z, rfl⟩
    · obtain ⟨h1, h2⟩ := List.append_inj' he rfl
      cases h2
      exact Or.inl ⟨h1, rfl, rfl⟩
    · rw [List.concat_eq_append, ← List.cons_append, ← List.append_assoc] at he
      obtain ⟨h1, _⟩ := List.append_inj' he rfl
      exact Or.inr ⟨t3, h1⟩
  induction h with
  | start =>
    intro t1 x t2 he
    exact absurd he.symm (by simp)
  | call e h room hx ih =>
    intro t1 x t2 he
    rcases last he with ⟨rfl, rfl, _⟩ | ⟨t3, h3⟩
    · exact ⟨_, _, _, _, h, Or.inl rfl, hx⟩
    · exact ih h3
  | actions e h room hx ih =>
    intro t1 x t2 he
    rcases last he with ⟨rfl, rfl, _⟩ | ⟨t3, h3⟩
    · exact ⟨_, _, _, _, h, Or.inr ⟨_, rfl, rfl, rfl⟩, hx⟩
    · exact ih h3
  | failed _ ih => exact ih
  | deposit _ _ ih => exact ih
  | other _ _ ih => exact ih

theorem Midway.calm {c : Cfg} {w0 v : World} {l0 q : List Item} {t : List Entry} (h : Midway c w0 l0 v q t) :
    Calm c t → Midway c.calm w0 l0 v q t := by
  induction h with
  | start => intro _; exact .start
  | call e h room hx ih =>
    intro hc
    obtain ⟨h1, h2⟩ := Calm.append.1 hc
    exact .call (c := c.calm) e (ih h1) room ((calm_handle (h2 _ (List.mem_singleton_self _))).trans hx)
  | actions e h room hx ih =>
    intro hc
    obtain ⟨h1, h2⟩ := Calm.append.1 hc
    exact .actions (c := c.calm) e (ih h1) room ((calm_handle (h2 _ (List.mem_singleton_self _))).trans hx)
  | failed _ ih => intro hc; exact .failed (ih hc)
  | deposit _ hcl ih => intro hc; exact .deposit (ih hc) hcl
  | other _ hcl ih => intro hc; exact .other (ih hc) hcl

/-- What is known within a transaction. -/
structure Amid (c : Cfg) (w0 v : World) (q : List Item) (t : List Entry) : Prop where
  base : Base c v
  allowed : ∀ i ∈ q, Allowed c i
  tracks : Tracks c w0 v t
  settles : Settles w0 v
  sent : ∀ id, sentCount v id = batches v id
  ran : ∀ id, ranCount v id + queued q id ≤ sentCount v id

theorem queued_append (a b : List Item) (id : Nat) : queued (a ++ b) id = queued a id + queued b id := by
  unfold queued
  rw [List.filterMap_append, List.count_append]

theorem sent_step {c : Cfg} {v v1 : World} {a : Addr} {m : Msg} {subs : List Item} (hb : Base c v)
    (hh : Handled c v a m v1 subs) {id : Nat} (had : Added c v v1 m subs id) (h : sentCount v id = batches v id) :
    sentCount v1 id = batches v1 id := by
  rw [had.sent, h]
  cases hx : executed v id with
  | true => simp [(resolved_stable hb hh.moved hx).2]
  | false => simp [(due_nil (c := c) hx).2]

theorem Midway.amid {c : Cfg} (hw : c.Wf) (ht : c.Tame) {w0 v : World} {a0 : Addr} {m0 : Msg} {q : List Item} {t : List Entry}
    (hr : Reachable c w0) (ha0 : c.outsider a0) (h : Midway c w0 [.call a0 m0] v q t) : Amid c w0 v q t := by
  induction h with
  | start =>
    refine ⟨hr.base hw ht, fun i hi => by rw [List.mem_singleton.1 hi]; exact Or.inl ha0,
      ⟨hr.tally hw ht, .refl _, fun id st h0 h1 => by rw [h0] at h1; cases h1⟩, .refl (hr.timely hw ht),
      fun id => (hr.ledger hw ht id).2.1, fun id => ?_⟩
    have := (hr.ledger hw ht id).2.2
    have hq : queued [.call a0 m0] id = 0 := rfl
    omega
  | @call v v1 a m subs rest t e h room hx ih =>
    have ha : c.outsider a ∨ (a = c.self ∧ m.tame = true) := ih.allowed _ List.mem_cons_self
    have hk : Known c a m := by
      rcases ha with ha | ⟨ha, hm⟩
      · exact Or.inl ha
      · exact Or.inr ⟨ha, Or.inl hm⟩
    have hh := handled hw ht ih.base hk room hx
    refine ⟨hh.base, fun i hi => ?_, ih.tracks.trans ih.base (.one hw ih.base hk room hx hh ih.tracks.1),
      ih.settles.trans (hh.settles ih.base hk room hx ih.settles.timely),
      fun id => sent_step ih.base hh (added ih.base room hh id) (ih.sent id), fun id => ?_⟩
    · rcases List.mem_append.1 hi with hi | hi
      · exact hh.allowed i hi
      · exact ih.allowed i (List.mem_cons_of_mem _ hi)
    · have had := added ih.base room hh id
      have hruns : (if m.runs = some id then 1 else 0) = 0 := by
        rw [if_neg]
        intro hr
        have hm : m = .ctl (.executeActions id) := by
          unfold Msg.runs at hr
          split at hr
          · cases hr; rfl
          · cases hr
        subst hm
        rcases ha with ha | ⟨_, ha⟩
        · obtain ⟨r, hx⟩ := handle_ctl hx
          have hx := hx.exec
          simp only [Controller.exec, bind_ok_iff, pure_ok_iff] at hx
          obtain ⟨r1, hx, _⟩ := hx
          exact ha.1 (Controller.executeActions_ok_iff.1 hx).1
        · cases ha
      have h1 := ih.ran id
      have h2 := had.ran
      have h3 := had.queued
      have h4 := had.sent
      rw [queued_cons] at h1
      rw [queued_append]
      have h5 : (if (Item.call a m).batch = some id then 1 else 0) = 0 := rfl
      omega
  | @actions v v1 id subs rest t e h room hx ih =>
    have hk : Known c c.self (.ctl (.executeActions id)) := Or.inr ⟨rfl, Or.inr ⟨id, rfl⟩⟩
    have hh := handled hw ht ih.base hk room hx
    refine ⟨hh.base, fun i hi => ?_, ih.tracks.trans ih.base (.one hw ih.base hk room hx hh ih.tracks.1),
      ih.settles.trans (hh.settles ih.base hk room hx ih.settles.timely),
      fun id => sent_step ih.base hh (added ih.base room hh id) (ih.sent id), fun j => ?_⟩
    · rcases List.mem_append.1 hi with hi | hi
      · exact hh.allowed i hi
      · exact ih.allowed i (List.mem_cons_of_mem _ hi)
    · have had := added ih.base room hh j
      have h1 := ih.ran j
      have h2 := had.ran
      have h3 := had.queued
      have h4 := had.sent
      rw [queued_cons] at h1
      rw [queued_append]
      have h5 : (if (Item.actions id).batch = some j then 1 else 0) = if id = j then 1 else 0 := by simp [Item.batch]
      simp only [Msg.runs, Option.some.injEq] at h2
      omega
  | @failed v id rest t h ih =>
    refine ⟨ih.base, fun i hi => ih.allowed i (List.mem_cons_of_mem _ hi), ih.tracks, ih.settles, ih.sent, fun j => ?_⟩
    have h1 := ih.ran j
    rw [queued_cons] at h1
    omega
  | @deposit v id d calls rest t h hc ih =>
    have htr := ih.tracks.trans ih.base (.log (c := c) ih.tracks.1 (v.log ++ [.paid id d]))
    rw [List.append_nil] at htr
    refine ⟨⟨ih.base.ctl, ih.base.mem, ih.base.council⟩, fun i hi => ?_, htr,
      ⟨⟨ih.settles.timely.mem, ih.settles.timely.council, ih.settles.timely.done⟩, ih.settles.clock, ih.settles.total,
        ih.settles.closed, ih.settles.old⟩, fun j => ?_, fun j => ?_⟩
    · rcases List.mem_append.1 hi with hi | hi
      · exact hc.allowed i hi
      · exact ih.allowed i (List.mem_cons_of_mem _ hi)
    · have := ih.sent j
      simp only [sentCount, List.count_append] at this ⊢
      rw [this]
      simp
      rfl
    · have h1 := ih.ran j
      rw [queued_cons] at h1
      rw [queued_append, (calls_quiet hc j).2]
      simp only [sentCount, ranCount, List.count_append] at h1 ⊢
      simp
      omega
  | @other v calls rest t h hc ih =>
    refine ⟨ih.base, fun i hi => ?_, ih.tracks, ih.settles, ih.sent, fun j => ?_⟩
    · rcases List.mem_append.1 hi with hi | hi
      · exact hc.allowed i hi
      · exact ih.allowed i (List.mem_cons_of_mem _ hi)
    · have h1 := ih.ran j
      rw [queued_cons] at h1
      rw [queued_append, (calls_quiet hc j).2]
      omega

end Verif.Dao
