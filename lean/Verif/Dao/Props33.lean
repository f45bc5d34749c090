import Verif.Dao.Order

/-!
# The contracts of a DAO together: the order of messages of different members within a block (C164)
-/

set_option linter.unusedSimpArgs false

namespace Verif.Dao
open Verif

/-! ## Specification -/

/-- A signed message, with the answers of the other contracts at its time. -/
structure Signed where
  ext : Ext
  sender : Addr
  msg : Msg

/-- The member a message is about: who votes, in general or as a member of the council, who claims rewards, for whom is
staked, who unstakes or claims what was unstaked. Other messages are about no single member. -/
def whose (x : Signed) : Option Addr :=
  match x.msg with
  | .ctl (.castVote _ _) => some x.sender
  | .ctl (.castCouncilVote _ _) => some x.sender
  | .dist (.claim u _ _) => some u
  | .mem (.staking (.receive _ (.stake u))) => some u
  | .mem (.staking (.stakeDenom _ u)) => some (u.getD x.sender)
  | .mem (.staking (.unstake _)) => some x.sender
  | .mem (.staking (.claim _)) => some x.sender
  | _ => none

/-- The messages, accepted one after the other within a block; payments are taken without further messages. -/
inductive Sequel (c : Cfg) : World → List Signed → World → Prop
  | nil (w : World) : Sequel c w [] w
  | cons {w w1 w2 : World} {x : Signed} {l : List Signed} {items : List Item}
      (h : handle c x.ext w x.sender x.msg = .ok (w1, items)) (ht : Sequel c w1 l w2) : Sequel c w (x :: l) w2

/-- The same messages, in an order that keeps the order of the messages about each member. -/
def Interleaved (l l' : List Signed) : Prop :=
  ∀ u, l.filter (fun x => decide (whose x = some u)) = l'.filter (fun x => decide (whose x = some u))

/-- The amount of `asset` that comes with a message to the membership contract. -/
def staked (asset : Addr) (x : Signed) : Nat :=
  match x.msg with
  | .mem (.staking m) => m.transferred asset
  | _ => 0

/-- The same controller, but for when proposals can be executed at the earliest. -/
structure SameButCooldown (s t : Controller.State) : Prop where
  flags : s.creating = t.creating ∧ s.executing = t.executing ∧ s.voting = t.voting
  config : s.enterprise = t.enterprise ∧ s.config = t.config ∧ s.council = t.council ∧ s.created = t.created ∧
    s.treasuries = t.treasuries
  infos : ∀ id, (s.infos.get id).map (fun i => { i with earliest := none }) =
    (t.infos.get id).map (fun i => { i with earliest := none })

/-- The same world, but for the ids of claims of stake and for the cooldowns of proposals. -/
structure Alike (w t : World) : Prop where
  stakes : ∃ k s s', w.mem = .staking k s ∧ t.mem = .staking k s' ∧ Staking.SameButIds s s'
  polls : w.gov = t.gov
  rewards : w.dist = t.dist
  rest : w.council = t.council ∧ w.block = t.block ∧ w.log = t.log
  ctl : SameButCooldown w.ctl t.ctl

/-! ## What a message about a member does -/

theorem SameButCooldown.rfl' (s : Controller.State) : SameButCooldown s s :=
  ⟨⟨rfl, rfl, rfl⟩, ⟨rfl, rfl, rfl, rfl, rfl⟩, fun _ => rfl⟩

theorem SameButCooldown.symm {s t : Controller.State} (h : SameButCooldown s t) : SameButCooldown t s :=
  ⟨⟨h.flags.1.symm, h.flags.2.1.symm, h.flags.2.2.symm⟩,
    ⟨h.config.1.symm, h.config.2.1.symm, h.config.2.2.1.symm, h.config.2.2.2.1.symm, h.config.2.2.2.2.symm⟩,
    fun id => (h.infos id).symm⟩

theorem SameButCooldown.trans {s t r : Controller.State} (h : SameButCooldown s t) (h' : SameButCooldown t r) :
    SameButCooldown s r :=
  ⟨⟨h.flags.1.trans h'.flags.1, h.flags.2.1.trans h'.flags.2.1, h.flags.2.2.trans h'.flags.2.2⟩,
    ⟨h.config.1.trans h'.config.1, h.config.2.1.trans h'.config.2.1, h.config.2.2.1.trans h'.config.2.2.1,
      h.config.2.2.2.1.trans h'.config.2.2.2.1, h.config.2.2.2.2.trans h'.config.2.2.2.2⟩,
    fun id => (h.infos id).trans (h'.infos id)⟩

theorem SameButCooldown.get {s t : Controller.State} (h : SameButCooldown s t) {id : Nat} {i : Controller.Info}
    (hi : s.infos.get id = some i) : ∃ j, t.infos.get id = some j ∧ j.type = i.type := by
  have := h.infos id
  rw [hi] at this
  cases hj : t.infos.get id with
  | none => rw [hj] at this; cases this
  | some j =>
    rw [hj] at this
    simp only [Option.map_some, Option.some.injEq, Controller.Info.mk.injEq] at this
    exact ⟨j, rfl, this.1.symm⟩

theorem voted_alike {e : Controller.Env} {s : Controller.State} {id : Nat} {i : Controller.Info} {o n : Controller.Executability}
    {t : Nat} (hv : s.voting = none) (hi : s.infos.get id = some i) :
    SameButCooldown s (Controller.voted e s id i o n t) ∧
      (s.config.early = false → Controller.voted e s id i o n t = s) := by
  have hs : { s with voting := none } = s := by rw [← hv]
  unfold Controller.voted
  rw [hs]
  split
  · rename_i h
    refine ⟨?_, fun h' => by rw [h'] at h; exact absurd h.1 (by decide)⟩
    unfold Controller.restartCooldown
    split
    · refine ⟨⟨rfl, rfl, rfl⟩, ⟨rfl, rfl, rfl, rfl, rfl⟩, fun j => ?_⟩
      simp only [Map.get_set]
      split
      · rename_i hj
        subst hj
        rw [hi]
        rfl
      · rfl
    · exact .rfl' s
  · exact ⟨.rfl' s, fun _ => rfl⟩

/-- The call of the membership contract. -/
def stakingCall (c : Cfg) (b : Block) (x : Signed) : Option Staking.Call :=
  match x.msg with
  | .mem (.staking m) => some ⟨⟨b, x.sender, c.self, x.ext.restricted⟩, m, true⟩
  | _ => none

/-- What governance is told, when the member has the weight `n` afterwards and `k` in the council. -/
def govMsg (x : Signed) (u : Addr) (n k : Nat) : Option Gov.Msg :=
  match x.msg with
  | .ctl (.castVote id o) => some (.castVote id o u n)
  | .ctl (.castCouncilVote id o) => some (.castVote id o u k)
  | .mem (.staking (.claim _)) => none
  | .mem _ => some (.updateVotes u n)
  | _ => none

/-- What happens at the distributor, when the member has the weight `n` afterwards. -/
def DistStep (x : Signed) (u : Addr) (n : Nat) (d d' : Distributor.State) : Prop :=
  match x.msg with
  | .dist m => ∃ o, Distributor.exec d (x.ext.denv x.sender) m = .ok (d', o)
  | .mem (.staking (.claim _)) => d' = d
  | .mem _ => Distributor.updateOne d (u, n) = .ok d'
  | _ => d' = d

/-- What a message about `u` does. -/
structure Does (c : Cfg) (k : Staking.Kind) (s s1 : Staking.State) (x : Signed) (u : Addr) (w w1 : World) (items : List Item) :
    Prop where
  mem : w1.mem = .staking k s1
  rest : w1.council = w.council ∧ w1.block = w.block ∧ w1.log = w.log
  ctl : SameButCooldown w.ctl w1.ctl
  fixed : w.ctl.config.early = false → w1.ctl = w.ctl
  items : ∀ i ∈ items, i = .other
  staked : (stakingCall c w.block x = none ∧ s1 = s) ∨
    ∃ d, stakingCall c w.block x = some d ∧ Staking.accepted k s d ∧ s1 = (Staking.step k s d).1
  others : ∀ v, v ≠ u → s1.mem.weight v = s.mem.weight v
  gov : (govMsg x u (s1.mem.weight u) (w.council.weight u) = none ∧ w1.gov = w.gov) ∨
    ∃ m, govMsg x u (s1.mem.weight u) (w.council.weight u) = some m ∧ Gov.exec w.gov ⟨w.block.time, c.self, m⟩ = .ok w1.gov
  dist : DistStep x u (s1.mem.weight u) w.dist w1.dist

theorem concerns_call {c : Cfg} {b : Block} {x : Signed} {d : Staking.Call} (h : stakingCall c b x = some d) :
    Staking.concerns d = whose x := by
  unfold stakingCall at h
  split at h
  · rename_i m hm
    cases h
    unfold Staking.concerns whose
    rw [hm]
    cases m with
    | receive a hk => cases hk <;> rfl
    | _ => rfl
  · cases h

theorem eff_weight {x : Staking.Abs} {b : Block} {p : Staking.Act} {v : Addr} (h : v ≠ p.user) :
    (x.eff b p).mem.weight v = x.mem.weight v := by
  cases p with
  | stake u a => exact Staking.weight_ne (fun h' => h h'.symm) _ _ _
  | unstake u a => exact Staking.weight_ne (fun h' => h h'.symm) _ _ _
  | take u => rfl

/-- What one report of a new weight does. -/
theorem deliver_one {c : Cfg} (hw : c.Wf) {e : Ext} {w w1 : World} {u : Addr} {o n : Nat} {items : List Item}
    (h : deliver c e c.comps.membership w [.notify c.self [⟨u, o, n⟩]] = .ok (w1, items)) :
    items = [] ∧ w1 = { w with gov := w1.gov, dist := w1.dist } ∧
      Gov.exec w.gov ⟨w.block.time, c.self, .updateVotes u n⟩ = .ok w1.gov ∧
      Distributor.updateOne w.dist (u, n) = .ok w1.dist := by
  unfold deliver at h
  rw [if_pos rfl] at h
  obtain ⟨r, h1, h⟩ := bind_ok_iff.1 h
  obtain ⟨d, h2, h⟩ := bind_ok_iff.1 h
  unfold deliver at h
  cases h
  rcases Controller.weightsChanged_ok_iff.1 h1 with ⟨h3, _⟩ | ⟨_, _, h3, h4⟩
  · exact absurd h3 hw.both
  · rw [h4] at h2
    unfold updateDist at h2
    obtain ⟨y, h5, h6⟩ := bind_ok_iff.1 h2
    unfold updateDist at h6
    cases h6
    obtain ⟨_, h7, _⟩ := Distributor.exec_report_iff.1 h5
    obtain ⟨z, h8, h9⟩ := foldlM_cons_ok_iff.1 h7
    cases foldlM_nil_ok_iff.1 h9
    unfold Controller.updateAllVotes at h3
    obtain ⟨g, h10, h11⟩ := foldlM_cons_ok_iff.1 h3
    cases foldlM_nil_ok_iff.1 h11
    exact ⟨rfl, rfl, h10, h8⟩

theorem handle_does {c : Cfg} (hw : c.Wf) {w w1 : World} (hb : Base c w) {k : Staking.Kind} {s : Staking.State}
    (hm : w.mem = .staking k s) {x : Signed} {u : Addr} (hu : whose x = some u) {items : List Item}
    (hr : handle c x.ext w x.sender x.msg = .ok (w1, items)) : ∃ s1, Does c k s s1 x u w w1 items := by
  obtain ⟨e, a, m⟩ := x
  have hok : (Member.staking k s).Ok c.self := hm ▸ hb.mem
  have hwt : ∀ v, w.mem.weight v = s.mem.weight v := fun v => by rw [hm]; rfl
  cases m with
  | ctl m =>
    cases m with
    | castVote id o =>
      cases hu
      simp only [handle, Controller.exec, bind_ok_iff, pure_ok_iff] at hr
      obtain ⟨_, ⟨r, h1, rfl⟩, h2⟩ := hr
      cases h2
      obtain ⟨_, _, i, p, q, hi, _, _, had, hg, _, hs⟩ := Controller.castVote_ok_iff.1 h1
      have hv := voted_alike (e := c.env e w) (o := Controller.executability (p.finalStatus ((c.env e w).total .never)))
        (n := Controller.executability (q.finalStatus ((c.env e w).total .never))) (t := q.endsAt) hb.ctl.idle.2.2 hi
      rw [← hs] at hv
      refine ⟨s, hm, ⟨rfl, rfl, by simp [ranOf]⟩, hv.1, hv.2, by simp, .inl ⟨rfl, rfl⟩, fun _ _ => rfl, .inr ⟨_, rfl, ?_⟩, rfl⟩
      unfold Gov.exec
      have had : c.self = w.gov.admin := had
      simp only [had, ne_eq, not_true, if_false]
      rw [← hwt]
      exact hg
    | castCouncilVote id o =>
      cases hu
      simp only [handle, Controller.exec, bind_ok_iff, pure_ok_iff] at hr
      obtain ⟨_, ⟨r, h1, rfl⟩, h2⟩ := hr
      cases h2
      obtain ⟨_, _, _, i, hi, _, had, hg, hs⟩ := Controller.castCouncilVote_ok_iff.1 h1
      refine ⟨s, hm, ⟨rfl, rfl, by simp [ranOf]⟩, by rw [hs]; exact .rfl' _, fun _ => hs, by simp, .inl ⟨rfl, rfl⟩,
        fun _ _ => rfl, .inr ⟨_, rfl, ?_⟩, rfl⟩
      unfold Gov.exec
      have had : c.self = w.gov.admin := had
      simp only [had, ne_eq, not_true, if_false]
      exact hg
    | _ => cases hu
  | gov m => cases hu
  | dist m =>
    cases m with
    | claim v ds ts =>
      cases hu
      simp only [handle, bind_ok_iff, pure_ok_iff] at hr
      obtain ⟨r, h1, h2⟩ := hr
      cases h2
      exact ⟨s, hm, ⟨rfl, rfl, rfl⟩, .rfl' _, fun _ => rfl, by simp, .inl ⟨rfl, rfl⟩, fun _ _ => rfl, .inl ⟨rfl, rfl⟩, ⟨_, h1⟩⟩
    | _ => cases hu
  | council m => cases hu
  | mem m =>
    cases m with
    | nft m => cases hu
    | multisig m => cases hu
    | staking m =>
      simp only [handle] at hr
      obtain ⟨y, h1, h2⟩ := bind_ok_iff.1 hr
      rw [hm] at h1
      simp only [Member.exec] at h1
      obtain ⟨r, h3, h4⟩ := bind_ok_iff.1 h1
      cases h4
      have hcall : stakingCall c w.block ⟨e, a, .mem (.staking m)⟩ =
          some ⟨⟨w.block, a, c.self, e.restricted⟩, m, true⟩ := rfl
      have hc := (concerns_call hcall).trans hu
      have hstep := Staking.step_of_ok (k := k) (s := s) (c := ⟨⟨w.block, a, c.self, e.restricted⟩, m, true⟩) rfl h3
      obtain ⟨y, hy, _, h5, h6⟩ := Staking.exec_act (c := ⟨⟨w.block, a, c.self, e.restricted⟩, m, true⟩) hok.good hc h3
      have hyu : y.user = u := by
        have := (Staking.acts_user hy).symm.trans hc
        simpa using this
      have hmem : r.1.mem = ((Staking.abs s).eff w.block y).mem := congrArg Staking.Abs.mem h5
      have hoth : ∀ v, v ≠ u → r.1.mem.weight v = s.mem.weight v := by
        intro v hv
        rw [hmem, eff_weight (by rw [hyu]; exact hv)]
        rfl
      have hst : (stakingCall c w.block ⟨e, a, .mem (.staking m)⟩ = none ∧ r.1 = s) ∨
          ∃ d, stakingCall c w.block ⟨e, a, .mem (.staking m)⟩ = some d ∧ Staking.accepted k s d ∧
            r.1 = (Staking.step k s d).1 := .inr ⟨_, rfl, ⟨rfl, r, h3⟩, by rw [hstep]⟩
      have hrep : ∀ o n, r.2 = s.mem.report [⟨u, o, n⟩] → r.1.mem.weight u = n →
          (∀ p, m ≠ .claim p) → ∃ s1, Does c k s s1 ⟨e, a, .mem (.staking m)⟩ u w w1 items := by
        intro o n hrn hn hcl
        rw [hrn, report_single (m := s.mem) hok.hooks] at h2
        obtain ⟨rfl, g1, g2, g3⟩ := deliver_one hw h2
        refine ⟨r.1, by rw [g1], ⟨by rw [g1], by rw [g1], by rw [g1]⟩, by rw [g1]; exact .rfl' _, fun _ => by rw [g1], by simp,
          hst, hoth, .inr ⟨.updateVotes u n, ?_, g2⟩, ?_⟩
        · rw [hn]
          unfold govMsg
          cases m <;> first | rfl | exact absurd rfl (hcl _)
        · rw [hn]
          unfold DistStep
          cases m <;> first | exact g3 | exact absurd rfl (hcl _)
      cases y with
      | stake v n =>
        cases hyu
        refine hrep _ _ h6 (by rw [hmem]; simp [Staking.Abs.eff, Staking.Act.user, Staking.abs, Members.weight_setWeight]) ?_
        rintro p rfl
        obtain ⟨_, ⟨_, _, h⟩ | ⟨_, o, h, _⟩⟩ := hy <;> cases h
      | unstake v n =>
        cases hyu
        refine hrep _ _ h6 (by rw [hmem]; simp [Staking.Abs.eff, Staking.Act.user, Staking.abs, Members.weight_setWeight]) ?_
        rintro p rfl
        cases hy.1
      | take v =>
        cases hyu
        obtain ⟨⟨o, ho, _⟩, _⟩ := hy
        simp only at ho
        subst ho
        rw [h6] at h2
        simp only [Staking.Abs.out] at h2
        unfold deliver at h2
        cases h2
        refine ⟨r.1, rfl, ⟨rfl, rfl, rfl⟩, .rfl' _, fun _ => rfl, ?_, hst, hoth, .inl ⟨rfl, rfl⟩, rfl⟩
        simp [outItem]

/-! ## Executions -/

theorem Does.exec {c : Cfg} {k : Staking.Kind} {s s1 : Staking.State} {x : Signed} {u : Addr} {w w1 : World}
    {items : List Item} (h : Does c k s s1 x u w w1 items) (room : w.gov.pollCount + 1 < 2 ^ 64)
    (hr : handle c x.ext w x.sender x.msg = .ok (w1, items)) : Exec c w [.call x.sender x.msg] w1 := by
  refine .call x.ext room hr ?_ (.nil _)
  have := h.items
  clear hr h
  induction items with
  | nil => exact .nil _
  | cons i t ih =>
    rw [this i (by simp)]
    exact .other (calls := []) (fun _ hi => by cases hi) (.nil _) (ih (fun j hj => this j (by simp [hj])))

theorem govMsg_voter {x : Signed} {u : Addr} {n k : Nat} {m : Gov.Msg} (h : govMsg x u n k = some m) (b : Nat) (a : Addr) :
    Gov.voterOf ⟨b, a, m⟩ = some u := by
  unfold govMsg at h
  split at h
  all_goals first | (cases h; rfl) | cases h

theorem govMsg_typed {x : Signed} {u : Addr} {n k : Nat} {m : Gov.Msg} (h : govMsg x u n k = some m) (hn : n < M128)
    (hk : k < M128) : m.typed := by
  unfold govMsg at h
  split at h
  all_goals first | (cases h; first | exact hn | exact hk) | cases h


/-- What messages about members do not change. -/
structure Fixed (w t : World) : Prop where
  mem : ∃ k s s', w.mem = .staking k s ∧ t.mem = .staking k s' ∧ s.asset = s'.asset
  gov : Gov.SameFrame w.gov t.gov
  dist : w.dist.admin = t.dist.admin ∧ w.dist.min = t.dist.min
  rest : w.council = t.council ∧ w.block = t.block ∧ w.log = t.log
  ctl : SameButCooldown w.ctl t.ctl
  early : w.ctl.config.early = false → w.ctl = t.ctl

theorem Fixed.symm {w t : World} (h : Fixed w t) : Fixed t w := by
  obtain ⟨k, s, s', h1, h2, h3⟩ := h.mem
  exact ⟨⟨k, s', s, h2, h1, h3.symm⟩, h.gov.symm, ⟨h.dist.1.symm, h.dist.2.symm⟩,
    ⟨h.rest.1.symm, h.rest.2.1.symm, h.rest.2.2.symm⟩, h.ctl.symm,
    fun he => (h.early (by rw [h.ctl.config.2.1]; exact he)).symm⟩

theorem Fixed.trans {w t r : World} (h : Fixed w t) (h' : Fixed t r) : Fixed w r := by
  obtain ⟨k, s, s', h1, h2, h3⟩ := h.mem
  obtain ⟨k', t0, t', g1, g2, g3⟩ := h'.mem
  rw [h2] at g1
  cases g1
  exact ⟨⟨k, s, t', h1, g2, h3.trans g3⟩, h.gov.trans h'.gov, ⟨h.dist.1.trans h'.dist.1, h.dist.2.trans h'.dist.2⟩,
    ⟨h.rest.1.trans h'.rest.1, h.rest.2.1.trans h'.rest.2.1, h.rest.2.2.trans h'.rest.2.2⟩, h.ctl.trans h'.ctl,
    fun he => (h.early he).trans (h'.early (by rw [← h.ctl.config.2.1]; exact he))⟩

theorem Fixed.rfl' {w : World} {k : Staking.Kind} {s : Staking.State} (hm : w.mem = .staking k s) : Fixed w w :=
  ⟨⟨k, s, s, hm, hm, rfl⟩, .rfl' _, ⟨rfl, rfl⟩, ⟨rfl, rfl, rfl⟩, .rfl' _, fun _ => rfl⟩

/-- What concerns one member is the same. -/
structure Own (u : Addr) (w t : World) : Prop where
  weight : w.mem.weight u = t.mem.weight u
  votes : ∀ i, w.gov.votes.get (Gov.vkey u i) = t.gov.votes.get (Gov.vkey u i)
  dist : Distributor.UserPart u w.dist t.dist

theorem Own.rfl' (u : Addr) (w : World) : Own u w w := ⟨rfl, fun _ => rfl, .rfl' _ _⟩

theorem Own.symm {u : Addr} {w t : World} (h : Own u w t) : Own u t w :=
  ⟨h.weight.symm, fun i => (h.votes i).symm, h.dist.symm⟩

theorem Own.trans {u : Addr} {w t r : World} (h : Own u w t) (h' : Own u t r) : Own u w r :=
  ⟨h.weight.trans h'.weight, fun i => (h.votes i).trans (h'.votes i), h.dist.trans h'.dist⟩

theorem weight_small {c : Cfg} {w : World} (h : Base c w) (u : Addr) : w.mem.weight u < M128 ∧ w.council.weight u < M128 := by
  constructor
  · rw [Member.weight_eq]
    exact lt_of_le_of_lt (Members.weight_le_wsum _ _) h.mem.small
  · exact lt_of_le_of_lt (Members.weight_le_wsum _ _) h.council.small

/-- The message as governance sees it. -/
theorem Does.affects {c : Cfg} {k : Staking.Kind} {s s1 : Staking.State} {x : Signed} {u : Addr} {w w1 : World}
    {items : List Item} (h : Does c k s s1 x u w w1 items) (hb : Base c w) (hb1 : Base c w1) {m : Gov.Msg}
    (hm : govMsg x u (s1.mem.weight u) (w.council.weight u) = some m)
    (hx : Gov.exec w.gov ⟨w.block.time, c.self, m⟩ = .ok w1.gov) :
    Gov.Affects w.gov ⟨w.block.time, c.self, m⟩ u w1.gov := by
  have hws := weight_small hb u
  have hws1 := weight_small hb1 u
  rw [h.mem] at hws1
  have := Gov.affects hb.ctl.inv (govMsg_voter hm w.block.time c.self) (govMsg_typed hm hws1.1 hws.2)
    (fun i p hp => hb.ctl.started i p hp)
  rw [Gov.step_ok hx] at this
  exact this

theorem Does.later {c : Cfg} (hw : c.Wf) (ht : c.Tame) {k : Staking.Kind} {s s1 : Staking.State} {x : Signed} {u : Addr}
    {w w1 : World} {items : List Item} (h : Does c k s s1 x u w w1 items) (hr : Reachable c w) (ho : c.outsider x.sender)
    (room : w.gov.pollCount + 1 < 2 ^ 64) (hh : handle c x.ext w x.sender x.msg = .ok (w1, items)) :
    Reachable c w1 ∧ Base c w1 ∧ DistOk c w1 := by
  have h1 : Reachable c w1 := hr.tx ho (h.exec room hh)
  exact ⟨h1, h1.base hw ht, h1.dist hw ht⟩

theorem distStep_fixed {x : Signed} {u : Addr} (hu : whose x = some u) {n : Nat} {d d' : Distributor.State}
    (h : DistStep x u n d d') : d'.admin = d.admin ∧ d'.min = d.min := by
  obtain ⟨e, a, m⟩ := x
  unfold DistStep at h
  split at h
  · rename_i m' hm
    simp only at hm
    subst hm
    cases m' with
    | claim v ds ts =>
      obtain ⟨o, h⟩ := h
      obtain ⟨h1, h2, _⟩ := Distributor.claim_fixed h
      exact ⟨h1, h2⟩
    | _ => cases hu
  · rw [h]; exact ⟨rfl, rfl⟩
  · obtain ⟨h1, h2, _⟩ := Distributor.update_fixed h
    exact ⟨h1, h2⟩
  · rw [h]; exact ⟨rfl, rfl⟩

theorem Does.same {c : Cfg} {k : Staking.Kind} {s s1 : Staking.State} {x : Signed} {u : Addr} {w w1 : World}
    {items : List Item} (h : Does c k s s1 x u w w1 items) (hm : w.mem = .staking k s) (hu : whose x = some u) (hb : Base c w)
    (hb1 : Base c w1) : Fixed w w1 := by
  refine ⟨⟨k, s, s1, hm, h.mem, ?_⟩, ?_, ?_, ⟨h.rest.1.symm, h.rest.2.1.symm, h.rest.2.2.symm⟩, h.ctl,
    fun he => (h.fixed he).symm⟩
  · rcases h.staked with ⟨_, h1⟩ | ⟨d, h1, h2, h3⟩
    · rw [h1]
    · have hok : (Member.staking k s).Ok c.self := hm ▸ hb.mem
      have hc : Staking.concerns d ≠ none := by rw [concerns_call h1, hu]; exact Option.some_ne_none _
      obtain ⟨y, _, _, h4, _⟩ := Staking.accepted_act hok.good hc h2
      rw [h3]
      exact ((congrArg Staking.Abs.asset h4).trans Staking.eff_asset).symm
  · rcases h.gov with ⟨_, h1⟩ | ⟨m, h1, h2⟩
    · rw [h1]; exact .rfl' _
    · exact (h.affects hb hb1 h1 h2).frame
  · obtain ⟨h1, h2⟩ := distStep_fixed hu h.dist
    exact ⟨h1.symm, h2.symm⟩

/-- Others are not concerned. -/
theorem Does.frame {c : Cfg} {k : Staking.Kind} {s s1 : Staking.State} {x : Signed} {u v : Addr} {w w1 : World}
    {items : List Item} (h : Does c k s s1 x u w w1 items) (hm : w.mem = .staking k s) (hu : whose x = some u) (hb : Base c w)
    (hb1 : Base c w1) (hv : v ≠ u) : Own v w w1 := by
  refine ⟨?_, fun i => ?_, ?_⟩
  · rw [hm, h.mem]; exact (h.others v hv).symm
  · rcases h.gov with ⟨_, h1⟩ | ⟨m, h1, h2⟩
    · rw [h1]
    · exact ((h.affects hb hb1 h1 h2).others v i hv).symm
  · have hd := h.dist
    obtain ⟨e, a, m⟩ := x
    unfold DistStep at hd
    split at hd
    · rename_i m' hm'
      simp only at hm'
      subst hm'
      cases m' with
      | claim r ds ts =>
        cases hu
        obtain ⟨o, hd⟩ := hd
        exact ⟨Distributor.claim_other hv hd, by rw [(Distributor.claim_fixed hd).2.2.2]⟩
      | _ => cases hu
    · rw [hd]; exact .rfl' _ _
    · exact Distributor.update_frame (fun hh => hv hh.symm) hd
    · rw [hd]; exact .rfl' _ _

/-- The member's own part after the message depends only on the member's own part before. -/
theorem Does.local {c : Cfg} {k : Staking.Kind} {s s1 t0 t1 : Staking.State} {x : Signed} {u : Addr} {w w1 t t' : World}
    {items items' : List Item} (h : Does c k s s1 x u w w1 items) (h' : Does c k t0 t1 x u t t' items')
    (hm : w.mem = .staking k s) (hm' : t.mem = .staking k t0) (hu : whose x = some u)
    (hb : Base c w) (hb1 : Base c w1) (gb : Base c t) (gb1 : Base c t') (hf : Fixed w t) (ho : Own u w t) : Own u w1 t' := by
  have hasset : s.asset = t0.asset := by
    obtain ⟨k', a, b, h1, h2, h3⟩ := hf.mem
    rw [hm] at h1; rw [hm'] at h2
    cases h1; cases h2
    exact h3
  have hwt : s.mem.weight u = t0.mem.weight u := by
    have := ho.weight
    rw [hm, hm'] at this
    exact this
  have hok : (Member.staking k s).Ok c.self := hm ▸ hb.mem
  have gok : (Member.staking k t0).Ok c.self := hm' ▸ gb.mem
  have hwt1 : s1.mem.weight u = t1.mem.weight u := by
    rcases h.staked with ⟨e1, e2⟩ | ⟨d, e1, e2, e3⟩
    · rcases h'.staked with ⟨g1, g2⟩ | ⟨d', g1, g2, g3⟩
      · rw [e2, g2]; exact hwt
      · rw [← hf.rest.2.1, e1] at g1; cases g1
    · rcases h'.staked with ⟨g1, g2⟩ | ⟨d', g1, g2, g3⟩
      · rw [← hf.rest.2.1, e1] at g1; cases g1
      · rw [← hf.rest.2.1, e1] at g1
        cases g1
        have hc : Staking.concerns d ≠ none := by rw [concerns_call e1, hu]; exact Option.some_ne_none _
        obtain ⟨y, y1, _, y2, _⟩ := Staking.accepted_act hok.good hc e2
        obtain ⟨z, z1, _, z2, _⟩ := Staking.accepted_act gok.good hc g2
        rw [← hasset] at z1
        cases Staking.acts_unique y1 z1
        have m1 : s1.mem = ((Staking.abs s).eff d.env.block y).mem := by rw [e3]; exact congrArg Staking.Abs.mem y2
        have m2 : t1.mem = ((Staking.abs t0).eff d.env.block y).mem := by rw [g3]; exact congrArg Staking.Abs.mem z2
        rw [m1, m2]
        cases y with
        | stake v n =>
          by_cases hv : u = v
          · simp [Staking.Abs.eff, Staking.abs, Members.weight_setWeight, hwt, ← hv]
          · simp [Staking.Abs.eff, Staking.abs, Members.weight_setWeight, hwt, hv]
        | unstake v n =>
          by_cases hv : u = v
          · simp [Staking.Abs.eff, Staking.abs, Members.weight_setWeight, hwt, ← hv]
          · simp [Staking.Abs.eff, Staking.abs, Members.weight_setWeight, hwt, hv]
        | take v => exact hwt
  refine ⟨by rw [h.mem, h'.mem]; exact hwt1, fun i => ?_, ?_⟩
  · have hg := h'.gov
    rw [← hwt1, ← hf.rest.1, ← hf.rest.2.1] at hg
    rcases h.gov with ⟨e1, e2⟩ | ⟨m, e1, e2⟩
    · rcases hg with ⟨g1, g2⟩ | ⟨m', g1, _⟩
      · rw [e2, g2]; exact ho.votes i
      · rw [e1] at g1; cases g1
    · rcases hg with ⟨g1, g2⟩ | ⟨m', g1, g2⟩
      · rw [e1] at g1; cases g1
      · rw [e1] at g1
        cases g1
        have a1 := h.affects hb hb1 e1 e2
        have a2 := h'.affects gb gb1 (by rw [← hwt1, ← hf.rest.1]; exact e1) (by rw [← hf.rest.2.1]; exact g2)
        rw [a1.own i, a2.own i, ← hf.rest.2.1, ho.votes i, hf.gov.newVote]
  · have d1 := h.dist
    have d2 := h'.dist
    rw [← hwt1] at d2
    unfold DistStep at d1 d2
    obtain ⟨e, a, m⟩ := x
    simp only at d1 d2
    cases m with
    | dist m' =>
      cases m' with
      | claim r ds ts =>
        cases hu
        obtain ⟨o1, d1⟩ := d1
        obtain ⟨o2, d2⟩ := d2
        obtain ⟨y, hy, hk, _⟩ := Distributor.claim_kept ho.dist.toKept d1
        have d2' : Distributor.claim t.dist (e.denv a) u ds ts = .ok (t'.dist, o2) := d2
        rw [hy] at d2'
        cases d2'
        refine ⟨hk, ?_⟩
        rw [(Distributor.claim_fixed d1).2.2.2, (Distributor.claim_fixed d2).2.2.2]
        exact ho.dist.weights
      | _ => cases hu
    | mem m' =>
      cases m' with
      | staking m' =>
        cases m' with
        | claim o =>
          simp only at d1 d2
          rw [d1, d2]; exact ho.dist
        | receive a' hk => exact Distributor.update_part ho.dist hf.dist.2 d1 d2
        | stakeDenom f o => exact Distributor.update_part ho.dist hf.dist.2 d1 d2
        | unstake n => exact Distributor.update_part ho.dist hf.dist.2 d1 d2
        | _ => cases hu
      | _ => cases hu
    | ctl m' =>
      simp only at d1 d2
      rw [d1, d2]; exact ho.dist
    | _ => cases hu


/-- The messages are about members and sent from outside. -/
def Valid (c : Cfg) (l : List Signed) : Prop := ∀ x ∈ l, whose x ≠ none ∧ c.outsider x.sender

/-- One message of a history. -/
theorem one_step {c : Cfg} (hw : c.Wf) (ht : c.Tame) {w w1 : World} (h : Reachable c w) {k : Staking.Kind} {s : Staking.State}
    (hm : w.mem = .staking k s) (room : w.gov.pollCount + 1 < 2 ^ 64) {x : Signed} {u : Addr} (hu : whose x = some u)
    (ho : c.outsider x.sender) {items : List Item} (hr : handle c x.ext w x.sender x.msg = .ok (w1, items)) :
    ∃ s1, Does c k s s1 x u w w1 items ∧ Reachable c w1 ∧ Fixed w w1 ∧ w1.gov.pollCount + 1 < 2 ^ 64 := by
  have hb := h.base hw ht
  obtain ⟨s1, hd⟩ := handle_does hw hb hm hu hr
  obtain ⟨h1, hb1, _⟩ := hd.later hw ht h ho room hr
  have hf := hd.same hm hu hb hb1
  exact ⟨s1, hd, h1, hf, by rw [← hf.gov.count]; exact room⟩

theorem Sequel.append {c : Cfg} : ∀ {p q : List Signed} {w w2 : World}, Sequel c w (p ++ q) w2 →
    ∃ w1, Sequel c w p w1 ∧ Sequel c w1 q w2
  | [], q, w, w2, h => ⟨w, .nil w, h⟩
  | x :: p, q, w, w2, h => by
    cases h with
    | cons h1 h2 =>
      obtain ⟨w1, h3, h4⟩ := h2.append
      exact ⟨w1, .cons h1 h3, h4⟩

theorem Sequel.snoc {c : Cfg} {x : Signed} {w1 w2 : World} {items : List Item}
    (hx : handle c x.ext w1 x.sender x.msg = .ok (w2, items)) : ∀ {p : List Signed} {w : World}, Sequel c w p w1 →
    Sequel c w (p ++ [x]) w2
  | [], _, h => by
    cases h
    exact .cons hx (.nil _)
  | _ :: _, _, h => by
    cases h with
    | cons h1 h2 => exact .cons h1 (h2.snoc hx)

theorem Sequel.fixed {c : Cfg} (hw : c.Wf) (ht : c.Tame) : ∀ {l : List Signed} {w w1 : World} {k : Staking.Kind} {s : Staking.State},
    Reachable c w → w.mem = .staking k s → w.gov.pollCount + 1 < 2 ^ 64 → Valid c l → Sequel c w l w1 →
    Reachable c w1 ∧ Fixed w w1 ∧ w1.gov.pollCount + 1 < 2 ^ 64
  | [], w, w1, k, s, h, hm, room, _, hs => by
    cases hs
    exact ⟨h, .rfl' hm, room⟩
  | x :: l, w, w2, k, s, h, hm, room, hv, hs => by
    cases hs with
    | cons h1 h2 =>
      obtain ⟨hx, ho⟩ := hv x (by simp)
      obtain ⟨u, hu⟩ := Option.ne_none_iff_exists'.1 hx
      obtain ⟨s1, d, r1, f1, room1⟩ := one_step hw ht h hm room hu ho h1
      obtain ⟨r2, f2, room2⟩ := h2.fixed hw ht r1 d.mem room1 (fun y hy => hv y (by simp [hy]))
      exact ⟨r2, f1.trans f2, room2⟩

theorem Sequel.frame {c : Cfg} (hw : c.Wf) (ht : c.Tame) {u : Addr} : ∀ {l : List Signed} {w w1 : World} {k : Staking.Kind}
    {s : Staking.State}, Reachable c w → w.mem = .staking k s → w.gov.pollCount + 1 < 2 ^ 64 → Valid c l →
    (∀ x ∈ l, whose x ≠ some u) → Sequel c w l w1 → Own u w w1
  | [], w, w1, k, s, h, hm, room, _, _, hs => by
    cases hs
    exact .rfl' _ _
  | x :: l, w, w2, k, s, h, hm, room, hv, hn, hs => by
    cases hs with
    | cons h1 h2 =>
      obtain ⟨hx, ho⟩ := hv x (by simp)
      obtain ⟨v, hu⟩ := Option.ne_none_iff_exists'.1 hx
      obtain ⟨s1, d, r1, f1, room1⟩ := one_step hw ht h hm room hu ho h1
      have hne : u ≠ v := fun hh => hn x (by simp) (by rw [hu, hh])
      exact (d.frame hm hu (h.base hw ht) (r1.base hw ht) hne).trans
        (h2.frame hw ht r1 d.mem room1 (fun y hy => hv y (by simp [hy])) (fun y hy => hn y (by simp [hy])))

/-- What concerns a member depends only on the messages about the member. -/
theorem Sequel.agree {c : Cfg} (hw : c.Wf) (ht : c.Tame) {u : Addr} {k : Staking.Kind} : ∀ {l l' : List Signed} {w w1 t t1 : World}
    {s s' : Staking.State}, Reachable c w → Reachable c t → w.mem = .staking k s → t.mem = .staking k s' →
    w.gov.pollCount + 1 < 2 ^ 64 → Fixed w t → Own u w t → Valid c l → Valid c l' → Sequel c w l w1 → Sequel c t l' t1 →
    l.filter (fun x => decide (whose x = some u)) = l'.filter (fun x => decide (whose x = some u)) → Own u w1 t1
  | [], l', w, w1, t, t1, s, s', h, g, hm, gm, room, hf, ho, _, hv', hs, hs', hl => by
    cases hs
    have hn : ∀ x ∈ l', whose x ≠ some u := by
      have := List.filter_eq_nil_iff.1 hl.symm
      intro x hx
      simpa using this x hx
    exact ho.trans (hs'.frame hw ht g gm (by rw [← hf.gov.count]; exact room) hv' hn)
  | x :: l, l', w, w2, t, t1, s, s', h, g, hm, gm, room, hf, ho, hv, hv', hs, hs', hl => by
    cases hs with
    | cons h1 h2 =>
      obtain ⟨hx, hout⟩ := hv x (by simp)
      obtain ⟨v, hu⟩ := Option.ne_none_iff_exists'.1 hx
      obtain ⟨s1, d, r1, f1, room1⟩ := one_step hw ht h hm room hu hout h1
      have hvl : Valid c l := fun y hy => hv y (by simp [hy])
      by_cases hne : v = u
      · subst hne
        rw [List.filter_cons_of_pos (by simpa using hu), eq_comm, List.filter_eq_cons_iff] at hl
        obtain ⟨p, q, rfl, hp, _, hq⟩ := hl
        have hp' : ∀ y ∈ p, whose y ≠ some v := fun y hy => by simpa using hp y hy
        obtain ⟨tp, hs1, hs2⟩ := hs'.append
        have roomt : t.gov.pollCount + 1 < 2 ^ 64 := by rw [← hf.gov.count]; exact room
        have hvp : Valid c p := fun y hy => hv' y (by simp [hy])
        obtain ⟨g2, f2, room2⟩ := hs1.fixed hw ht g gm roomt hvp
        have o2 := hs1.frame hw ht g gm roomt hvp hp'
        obtain ⟨k', a, s2, b1, b2, b3⟩ := f2.mem
        rw [gm] at b1
        cases b1
        cases hs2 with
        | cons h3 h4 =>
          obtain ⟨s3, d3, r3, f3, room3⟩ := one_step hw ht g2 b2 room2 hu hout h3
          have o3 := d.local d3 hm b2 hu (h.base hw ht) (r1.base hw ht) (g2.base hw ht) (r3.base hw ht) (hf.trans f2)
            (ho.trans o2)
          exact h2.agree hw ht r1 r3 d.mem d3.mem room1 (f1.symm.trans ((hf.trans f2).trans f3)) o3 hvl
            (fun y hy => hv' y (by simp [hy])) h4 hq.symm
      · rw [List.filter_cons_of_neg (by rw [hu]; simpa using hne)] at hl
        have o1 := d.frame hm hu (h.base hw ht) (r1.base hw ht) (fun hh => hne hh.symm)
        exact h2.agree hw ht r1 g d.mem gm room1 (f1.symm.trans hf) (o1.symm.trans ho) hvl hv' hs' hl

/-- The message is a vote for option `k` of poll `i`. -/
def votesFor (x : Signed) (i k : Nat) : Prop :=
  ∃ o : Gov.Outcome, (x.msg = .ctl (.castVote i o) ∨ x.msg = .ctl (.castCouncilVote i o)) ∧ o.idx = k

theorem Sequel.has {c : Cfg} (hw : c.Wf) (ht : c.Tame) {i n : Nat} : ∀ {l : List Signed} {w w1 : World} {k : Staking.Kind}
    {s : Staking.State}, Reachable c w → w.mem = .staking k s → w.gov.pollCount + 1 < 2 ^ 64 → Valid c l → Sequel c w l w1 →
    ∀ p q, w.gov.polls.get i = some p → w1.gov.polls.get i = some q →
    (q.results.has n = true ↔ p.results.has n = true ∨ ∃ x ∈ l, votesFor x i n)
  | [], w, w1, k, s, h, hm, room, _, hs, p, q, hp, hq => by
    cases hs
    rw [hp] at hq
    cases hq
    simp
  | x :: l, w, w2, k, s, h, hm, room, hv, hs, p, q, hp, hq => by
    cases hs with
    | @cons _ w1 _ _ _ _ h1 h2 =>
      obtain ⟨hx, ho⟩ := hv x (by simp)
      obtain ⟨u, hu⟩ := Option.ne_none_iff_exists'.1 hx
      obtain ⟨s1, d, r1, f1, room1⟩ := one_step hw ht h hm room hu ho h1
      obtain ⟨p1, hp1, _, _⟩ := f1.gov.get hp
      have ih := h2.has hw ht r1 d.mem room1 (fun y hy => hv y (by simp [hy])) p1 q hp1 hq (n := n)
      have key : p1.results.has n = true ↔ p.results.has n = true ∨ votesFor x i n := by
        rcases d.gov with ⟨e1, e2⟩ | ⟨m, e1, e2⟩
        · rw [e2, hp] at hp1
          cases hp1
          refine ⟨Or.inl, fun h => h.elim id ?_⟩
          rintro ⟨o, h | h, _⟩ <;> simp [govMsg, h] at e1
        · rw [(d.affects (h.base hw ht) (r1.base hw ht) e1 e2).has i p p1 hp hp1 n]
          refine or_congr Iff.rfl ⟨?_, ?_⟩
          · rintro ⟨_, o, v, a, e3, _, e4⟩
            simp only at e3
            subst e3
            unfold govMsg at e1
            split at e1
            · rename_i hmsg
              cases e1
              exact ⟨_, .inl hmsg, e4⟩
            · rename_i hmsg
              cases e1
              exact ⟨_, .inr hmsg, e4⟩
            all_goals cases e1
          · rintro ⟨o, hmsg, e4⟩
            have hmm : ∃ a, m = .castVote i o u a := by
              rcases hmsg with hmsg | hmsg <;>
              · simp only [govMsg, hmsg, Option.some.injEq] at e1
                exact ⟨_, e1.symm⟩
            obtain ⟨a, rfl⟩ := hmm
            unfold Gov.exec at e2
            obtain ⟨had, e2⟩ := ite_ok_iff.1 e2
            obtain ⟨c1, c2, c3, c4, c5, c6, c7, _⟩ := Gov.castVote_ok_iff.1 e2
            exact ⟨by simpa using had, o, u, a, rfl, ⟨c1, c2, c3, c4, c5, c6, c7⟩, e4⟩
      rw [ih, key]
      simp only [List.mem_cons, exists_eq_or_imp]
      tauto

theorem Interleaved.mem {c : Cfg} {l l' : List Signed} (h : Interleaved l l') (hv : Valid c l) {x : Signed} (hx : x ∈ l) : x ∈ l' := by
  obtain ⟨u, hu⟩ := Option.ne_none_iff_exists'.1 (hv x hx).1
  have : x ∈ l.filter (fun x => decide (whose x = some u)) := List.mem_filter.2 ⟨hx, by simpa using hu⟩
  rw [h u] at this
  exact (List.mem_filter.1 this).1

/-- Whatever the order, polls and rewards are the same. -/
theorem Sequel.same {c : Cfg} (hw : c.Wf) (ht : c.Tame) {l l' : List Signed} {w w1 w2 : World} {k : Staking.Kind} {s : Staking.State}
    (h : Reachable c w) (hm : w.mem = .staking k s) (room : w.gov.pollCount + 1 < 2 ^ 64) (hv : Valid c l) (hv' : Valid c l')
    (hil : Interleaved l l') (h1 : Sequel c w l w1) (h2 : Sequel c w l' w2) :
    w1.gov = w2.gov ∧ w1.dist = w2.dist ∧ Fixed w1 w2 := by
  obtain ⟨r1, f1, _⟩ := h1.fixed hw ht h hm room hv
  obtain ⟨r2, f2, _⟩ := h2.fixed hw ht h hm room hv'
  have hf := f1.symm.trans f2
  have ho : ∀ u, Own u w1 w2 := fun u =>
    h1.agree hw ht h h hm hm room (.rfl' hm) (.rfl' _ _) hv hv' h2 (hil u)
  refine ⟨?_, ?_, hf⟩
  · refine Gov.state_ext (r1.base hw ht).ctl.inv (r2.base hw ht).ctl.inv hf.gov (fun u i => (ho u).votes i) ?_
    intro i p q hp hq n
    obtain ⟨p0, hp0, _, _⟩ := f1.gov.symm.get hp
    rw [h1.has hw ht h hm room hv p0 p hp0 hp, h2.has hw ht h hm room hv' p0 q hp0 hq]
    refine or_congr Iff.rfl ⟨?_, ?_⟩
    · rintro ⟨x, hx, e⟩; exact ⟨x, hil.mem hv hx, e⟩
    · rintro ⟨x, hx, e⟩; exact ⟨x, Interleaved.mem (fun u => (hil u).symm) hv' hx, e⟩
  · exact Distributor.userParts_ext (fun u => (ho u).dist) hf.dist.1 hf.dist.2 (r1.dist hw ht).inv (r2.dist hw ht).inv

/-! ## The membership contract -/

/-- The messages to the membership contract. -/
def calls (c : Cfg) (b : Block) (l : List Signed) : List Staking.Call := l.filterMap (stakingCall c b)

theorem calls_concern {c : Cfg} {b : Block} {l : List Signed} (hv : Valid c l) : ∀ d ∈ calls c b l, d.env.block = b ∧
    Staking.concerns d ≠ none := by
  intro d hd
  obtain ⟨x, hx, e⟩ := List.mem_filterMap.1 hd
  refine ⟨?_, by rw [concerns_call e]; exact (hv x hx).1⟩
  unfold stakingCall at e
  split at e
  · cases e; rfl
  · cases e

theorem calls_filter (c : Cfg) (b : Block) (u : Addr) : ∀ l : List Signed,
    (calls c b l).filter (fun d => decide (Staking.concerns d = some u)) =
      calls c b (l.filter (fun x => decide (whose x = some u)))
  | [] => rfl
  | x :: l => by
    have ih := calls_filter c b u l
    unfold calls at ih ⊢
    cases hx : stakingCall c b x with
    | none =>
      rw [List.filterMap_cons_none hx, ih]
      by_cases h : whose x = some u
      · rw [List.filter_cons_of_pos (by simpa using h), List.filterMap_cons_none hx]
      · rw [List.filter_cons_of_neg (by simpa using h)]
    | some d =>
      rw [List.filterMap_cons_some hx]
      by_cases h : whose x = some u
      · have h' : Staking.concerns d = some u := (concerns_call hx).trans h
        rw [List.filter_cons_of_pos (by simpa using h'), List.filter_cons_of_pos (by simpa using h),
          List.filterMap_cons_some hx, ih]
      · have h' : ¬ Staking.concerns d = some u := fun hh => h ((concerns_call hx).symm.trans hh)
        rw [List.filter_cons_of_neg (by simpa using h'), List.filter_cons_of_neg (by simpa using h), ih]

theorem calls_interleaved (c : Cfg) (b : Block) {l l' : List Signed} (h : Interleaved l l') :
    Staking.Interleaved (calls c b l) (calls c b l') := by
  intro u
  rw [calls_filter, calls_filter, h u]

theorem calls_sum (c : Cfg) (b : Block) (asset : Addr) : ∀ l : List Signed,
    ((calls c b l).map (fun d => d.msg.transferred asset)).sum = (l.map (staked asset)).sum
  | [] => rfl
  | x :: l => by
    have ih := calls_sum c b asset l
    unfold calls at ih ⊢
    rw [List.map_cons, List.sum_cons, ← ih]
    unfold stakingCall staked
    rcases x with ⟨e, a, m⟩
    cases m with
    | mem m =>
      cases m with
      | staking m => rfl
      | _ => simp
    | _ => simp

theorem Sequel.stakes {c : Cfg} (hw : c.Wf) (ht : c.Tame) : ∀ {l : List Signed} {w w1 : World} {k : Staking.Kind} {s : Staking.State},
    Reachable c w → w.mem = .staking k s → w.gov.pollCount + 1 < 2 ^ 64 → Valid c l → Sequel c w l w1 →
    w1.mem = .staking k (Staking.run k s (calls c w.block l)) ∧ Staking.allAccepted k s (calls c w.block l)
  | [], w, w1, k, s, h, hm, room, _, hs => by
    cases hs
    exact ⟨hm, trivial⟩
  | x :: l, w, w2, k, s, h, hm, room, hv, hs => by
    cases hs with
    | cons h1 h2 =>
      obtain ⟨hx, ho⟩ := hv x (by simp)
      obtain ⟨u, hu⟩ := Option.ne_none_iff_exists'.1 hx
      obtain ⟨s1, d, r1, f1, room1⟩ := one_step hw ht h hm room hu ho h1
      obtain ⟨e1, e2⟩ := h2.stakes hw ht r1 d.mem room1 (fun y hy => hv y (by simp [hy]))
      rw [← f1.rest.2.1] at e1 e2
      unfold calls at e1 e2 ⊢
      rcases d.staked with ⟨g1, rfl⟩ | ⟨y, g1, g2, rfl⟩
      · rw [List.filterMap_cons_none g1]
        exact ⟨e1, e2⟩
      · rw [List.filterMap_cons_some g1]
        exact ⟨e1, g2, e2⟩

theorem run_total {k : Staking.Kind} : ∀ (l : List Staking.Call) {s : Staking.State}, Staking.Inv s →
    (∀ d ∈ l, Staking.concerns d ≠ none) → Staking.allAccepted k s l →
    (Staking.run k s l).mem.total ≤ s.mem.total + (l.map (fun d => d.msg.transferred s.asset)).sum
  | [], s, _, _, _ => by simp [Staking.run]
  | d :: l, s, hi, hc, ha => by
    obtain ⟨x, h1, _, h3, _⟩ := Staking.accepted_act hi (hc d (by simp)) ha.1
    have he : (Staking.step k s d).1.asset = s.asset := (congrArg Staking.Abs.asset h3).trans Staking.eff_asset
    have h4 : (Staking.step k s d).1.mem.total ≤ s.mem.total + x.brought := by
      have h5 := Staking.eff_total (x := Staking.abs s) (b := d.env.block) (p := x)
      rw [← h3] at h5
      exact h5
    rw [Staking.acts_brought h1] at h4
    have ih := run_total l (Staking.inv_step hi d) (fun y hy => hc y (by simp [hy])) ha.2
    rw [he] at ih
    simp only [List.map_cons, List.sum_cons, Staking.run]
    omega

theorem allAccepted_append {k : Staking.Kind} : ∀ (p : List Staking.Call) {q : List Staking.Call} {s : Staking.State},
    Staking.allAccepted k s (p ++ q) → Staking.allAccepted k s p ∧ Staking.allAccepted k (Staking.run k s p) q
  | [], _, _, h => ⟨trivial, h⟩
  | _ :: p, _, _, h => ⟨⟨h.1, (allAccepted_append p h.2).1⟩, (allAccepted_append p h.2).2⟩

/-! ## Acceptance -/

/-- Effective weights are bounded by those at the beginning and the current stakes. -/
def StakeBound (E : Map Addr Nat) (d : Distributor.State) (m : Members) : Prop :=
  ∀ v, (d.effective.get v).getD 0 ≤ (E.get v).getD 0 + m.weight v

theorem effWeight_le (n m : Nat) : Distributor.effWeight n m ≤ n := by
  unfold Distributor.effWeight
  split <;> omega

theorem Does.bounded {c : Cfg} {k : Staking.Kind} {s s1 : Staking.State} {x : Signed} {u : Addr} {w w1 : World}
    {items : List Item} (h : Does c k s s1 x u w w1 items) (hu : whose x = some u) (hi : Staking.Inv s)
    {E : Map Addr Nat} (hb : StakeBound E w.dist s.mem) : StakeBound E w1.dist s1.mem := by
  have hrep : Distributor.updateOne w.dist (u, s1.mem.weight u) = .ok w1.dist → StakeBound E w1.dist s1.mem := by
    intro h1 v
    rw [(Distributor.update_fixed h1).2.2, Map.get_set]
    split
    · rename_i hv
      subst hv
      have := effWeight_le (s1.mem.weight u) w.dist.min
      simp only [Option.getD_some]
      omega
    · rename_i hv
      rw [h.others v (fun hh => hv hh.symm)]
      exact hb v
  have hkeep : s1 = s → w1.dist.effective = w.dist.effective → StakeBound E w1.dist s1.mem := by
    rintro rfl h2 v
    rw [h2]
    exact hb v
  have hd := h.dist
  have hs := h.staked
  obtain ⟨e, a, m⟩ := x
  unfold DistStep at hd
  cases m with
  | dist m' =>
    cases m' with
    | claim r ds ts =>
      simp only at hd
      obtain ⟨o, hd⟩ := hd
      rcases hs with ⟨_, h1⟩ | ⟨_, h1, _⟩
      · exact hkeep h1 (Distributor.claim_fixed hd).2.2.1
      · cases h1
    | _ => cases hu
  | mem m' =>
    cases m' with
    | staking m' =>
      cases m' with
      | claim o =>
        simp only at hd
        intro v
        rw [hd]
        by_cases hv : v = u
        · subst hv
          rcases hs with ⟨h1, _⟩ | ⟨d, h1, h2, h3⟩
          · cases h1
          · have hc : Staking.concerns d ≠ none := by rw [concerns_call h1, hu]; exact Option.some_ne_none _
            obtain ⟨y, y1, _, y2, _⟩ := Staking.accepted_act hi hc h2
            have hy : y = .take a := by
              cases h1
              have : Staking.acts k s.asset ⟨⟨w.block, a, c.self, e.restricted⟩, .claim o, true⟩ (.take a) := by
                cases y with
                | stake _ _ => obtain ⟨_, ⟨_, _, h⟩ | ⟨_, o, h, _⟩⟩ := y1 <;> cases h
                | unstake _ _ => cases y1.1
                | take b =>
                  have := y1.2
                  simp only at this
                  subst this
                  exact y1
              exact Staking.acts_unique y1 this
            have hmem : s1.mem = s.mem := by
              rw [hy] at y2
              rw [h3]
              exact congrArg Staking.Abs.mem y2
            rw [hmem]
            exact hb v
        · rw [h.others v hv]
          exact hb v
      | receive a' hk => exact hrep hd
      | stakeDenom f o => exact hrep hd
      | unstake n => exact hrep hd
      | _ => cases hu
    | _ => cases hu
  | ctl m' =>
    rcases hs with ⟨_, h1⟩ | ⟨_, h1, _⟩
    · exact hkeep h1 (by simp only at hd; rw [hd])
    · cases h1
  | gov m' => cases hu
  | council m' => cases hu

/-- One report of a new weight is accepted. -/
theorem deliver_accept {c : Cfg} (hw : c.Wf) {e : Ext} {w : World} {g : Gov.State} {d : Distributor.State} {u : Addr} {o n : Nat}
    (had : w.dist.admin = c.self)
    (hg : Gov.exec w.gov ⟨w.block.time, c.self, .updateVotes u n⟩ = .ok g) (hd : Distributor.updateOne w.dist (u, n) = .ok d) :
    ∃ r, deliver c e c.comps.membership w [.notify c.self [⟨u, o, n⟩]] = .ok r := by
  have hwc : Controller.weightsChanged (c.env e w) c.comps.membership w.gov [⟨u, o, n⟩] =
      .ok (g, [.distributor (.updateWeights [(u, n)])]) := by
    refine Controller.weightsChanged_ok_iff.2 (Or.inr ⟨hw.both, rfl, ?_, rfl⟩)
    exact foldlM_cons_ok_iff.2 ⟨g, hg, rfl⟩
  have hdd : updateDist c e w.dist [.distributor (.updateWeights [(u, n)])] = .ok d := by
    unfold updateDist
    refine bind_ok_iff.2 ⟨(d, []), ?_, rfl⟩
    simp only [Distributor.exec]
    refine bind_ok_iff.2 ⟨d, ?_, rfl⟩
    unfold Distributor.updateWeights
    exact ite_ok_iff.2 ⟨by simp [Ext.denv, had], foldlM_cons_ok_iff.2 ⟨d, hd, rfl⟩⟩
  unfold deliver
  rw [if_pos rfl]
  exact ⟨_, bind_ok_iff.2 ⟨_, hwc, bind_ok_iff.2 ⟨_, hdd, rfl⟩⟩⟩

theorem StakeBound.sum {E : Map Addr Nat} {d : Distributor.State} {m m' : Members} (h : StakeBound E d m) {u : Addr}
    (ho : ∀ v, v ≠ u → m'.weight v = m.weight v) (n : Nat) (hn : n ≤ m'.weight u) :
    (d.effective.set u n).sum (fun _ x => x) ≤ E.sum (fun _ x => x) + m'.wsum := by
  refine sum_le_two (fun v => ?_)
  rw [Map.get_set]
  split
  · rename_i hv
    subst hv
    simp only [Option.getD_some]
    have : (m'.weights.get u).getD 0 = m'.weight u := rfl
    omega
  · rename_i hv
    have := h v
    rw [← ho v (fun hh => hv hh.symm)] at this
    exact this

/-- A message accepted in one world is accepted in another one that agrees on what is fixed and on the member's own part. -/
theorem accepts {c : Cfg} (hw : c.Wf) (ht : c.Tame) {k : Staking.Kind} {s t0 : Staking.State} {x : Signed} {u : Addr}
    {w w1 t : World} {items : List Item} (h : Reachable c w) (g : Reachable c t) (hm : w.mem = .staking k s)
    (gm : t.mem = .staking k t0) (hu : whose x = some u) (hf : Fixed w t) (ho : Own u w t)
    (hr : handle c x.ext w x.sender x.msg = .ok (w1, items)) {E : Map Addr Nat} (hE : StakeBound E t.dist t0.mem)
    (hst : ∀ d, stakingCall c t.block x = some d → Staking.accepted k t0 d ∧
      E.sum (fun _ x => x) + (Staking.step k t0 d).1.mem.total < M128) :
    ∃ r, handle c x.ext t x.sender x.msg = .ok r := by
  have hb := h.base hw ht
  have gb := g.base hw ht
  have hok : (Member.staking k s).Ok c.self := hm ▸ hb.mem
  have gok : (Member.staking k t0).Ok c.self := gm ▸ gb.mem
  obtain ⟨s1, hd⟩ := handle_does hw hb hm hu hr
  obtain ⟨e, a, m⟩ := x
  have htakes : ∀ {id o n n'} {g1 : Gov.State}, Gov.castVote w.gov w.block.time id o u n = .ok g1 →
      ∃ g2, Gov.castVote t.gov t.block.time id o u n' = .ok g2 := by
    intro id o n n' g1 h1
    obtain ⟨c1, c2, p, c3, c4, c5, c6, _⟩ := Gov.castVote_ok_iff.1 h1
    obtain ⟨d1, d2, q, d3, d4, d5, d6⟩ := hf.gov.takes ⟨c1, c2, p, c3, c4, c5, c6⟩
    rw [← hf.rest.2.1]
    exact ⟨_, Gov.castVote_ok_iff.2 ⟨d1, d2, q, d3, d4, d5, d6, rfl⟩⟩
  cases m with
  | ctl m =>
    cases m with
    | castVote id o =>
      cases hu
      simp only [handle, Controller.exec, bind_ok_iff, pure_ok_iff] at hr
      obtain ⟨_, ⟨r, h1, rfl⟩, h2⟩ := hr
      obtain ⟨a1, a2, i, p, q, a3, a4, a5, a6, a7, a8, _⟩ := Controller.castVote_ok_iff.1 h1
      obtain ⟨j, b3, b4⟩ := hf.ctl.get a3
      obtain ⟨p', b5, _, _⟩ := hf.gov.get a5
      have hwt : t.mem.weight a ≠ 0 := by rw [← ho.weight]; exact a2
      obtain ⟨g2, b7⟩ := htakes (n' := t.mem.weight a) a7
      have b8 : ∃ q', g2.polls.get id = some q' := by
        obtain ⟨_, _, p, _, _, _, _, rfl⟩ := Gov.castVote_ok_iff.1 b7
        exact ⟨_, Map.get_set_self _ _ _⟩
      obtain ⟨q', b8⟩ := b8
      have b6 : c.self = t.gov.admin := by rw [← hf.gov.admin]; exact a6
      refine ⟨_, bind_ok_iff.2 ⟨_, bind_ok_iff.2 ⟨(_, g2), Controller.castVote_ok_iff.2
        ⟨a1, hwt, j, p', q', b3, b4.trans a4, b5, b6, b7, b8, rfl⟩, rfl⟩, rfl⟩⟩
    | castCouncilVote id o =>
      cases hu
      simp only [handle, Controller.exec, bind_ok_iff, pure_ok_iff] at hr
      obtain ⟨_, ⟨r, h1, rfl⟩, h2⟩ := hr
      obtain ⟨a1, a2, a3, i, a4, a5, a6, a7, _⟩ := Controller.castCouncilVote_ok_iff.1 h1
      obtain ⟨j, b4, b5⟩ := hf.ctl.get a4
      have b2 : ∃ x, t.ctl.council = some x := by rw [← hf.ctl.config.2.2.1]; exact a2
      have b3 : Multisig.queryWeight t.council a ≠ 0 := by rw [← hf.rest.1]; exact a3
      have b6 : c.self = t.gov.admin := by rw [← hf.gov.admin]; exact a6
      obtain ⟨g2, b7⟩ := htakes (n' := Multisig.queryWeight t.council a) a7
      refine ⟨_, bind_ok_iff.2 ⟨_, bind_ok_iff.2 ⟨(_, g2), Controller.castCouncilVote_ok_iff.2
        ⟨a1, b2, b3, j, b4, b5.trans a5, b6, b7, rfl⟩, rfl⟩, rfl⟩⟩
    | _ => cases hu
  | gov m => cases hu
  | dist m =>
    cases m with
    | claim v ds ts =>
      cases hu
      simp only [handle, bind_ok_iff, pure_ok_iff] at hr
      obtain ⟨r, h1, h2⟩ := hr
      obtain ⟨y, hy, _⟩ := Distributor.claim_kept ho.dist.toKept h1
      exact ⟨_, bind_ok_iff.2 ⟨_, hy, rfl⟩⟩
    | _ => cases hu
  | council m => cases hu
  | mem m =>
    cases m with
    | nft m => cases hu
    | multisig m => cases hu
    | staking m =>
      obtain ⟨acc, hsum⟩ := hst _ rfl
      have hc : Staking.concerns (⟨⟨t.block, a, c.self, e.restricted⟩, m, true⟩ : Staking.Call) ≠ none := by
        rw [concerns_call (c := c) (b := t.block) (x := ⟨e, a, .mem (.staking m)⟩) rfl, hu]; exact Option.some_ne_none _
      obtain ⟨_, r, h3⟩ := acc
      have hstep := Staking.step_of_ok (k := k) (s := t0) (c := ⟨⟨t.block, a, c.self, e.restricted⟩, m, true⟩) rfl h3
      rw [hstep] at hsum
      obtain ⟨y, hy, _, h5, h6⟩ := Staking.exec_act (c := ⟨⟨t.block, a, c.self, e.restricted⟩, m, true⟩) gok.good
        (Option.some_get (Option.isSome_iff_ne_none.2 hc)).symm h3
      have hyu : y.user = u := by
        have h7 := (Staking.acts_user hy).symm.trans
          (concerns_call (c := c) (b := t.block) (x := ⟨e, a, .mem (.staking m)⟩) rfl)
        rw [hu] at h7
        simpa using h7
      have hmem : r.1.mem = ((Staking.abs t0).eff t.block y).mem := congrArg Staking.Abs.mem h5
      have hinv : Staking.Inv r.1 := by
        have := Staking.inv_step (k := k) gok.good ⟨⟨t.block, a, c.self, e.restricted⟩, m, true⟩
        rw [hstep] at this
        exact this
      have hoth : ∀ v, v ≠ u → r.1.mem.weight v = t0.mem.weight v := by
        intro v hv
        rw [hmem, eff_weight (by rw [hyu]; exact hv)]
        rfl
      have hwt1 : s1.mem.weight u = r.1.mem.weight u := by
        have hasset : s.asset = t0.asset := by
          obtain ⟨k', a, b, h1, h2, h3⟩ := hf.mem
          rw [hm] at h1; rw [gm] at h2
          cases h1; cases h2
          exact h3
        have hwt : s.mem.weight u = t0.mem.weight u := by
          have := ho.weight
          rw [hm, gm] at this
          exact this
        rcases hd.staked with ⟨e1, e2⟩ | ⟨d, e1, e2, e3⟩
        · cases e1
        · rw [hf.rest.2.1] at e1
          cases e1
          obtain ⟨z, z1, _, z2, _⟩ := Staking.accepted_act hok.good hc e2
          rw [hasset] at z1
          cases Staking.acts_unique hy z1
          have m1 : s1.mem = ((Staking.abs s).eff t.block y).mem := by rw [e3]; exact congrArg Staking.Abs.mem z2
          rw [m1, hmem]
          cases y with
          | stake v n =>
            cases hyu
            simp only [Staking.Act.user] at hwt
            simp [Staking.Abs.eff, Staking.Act.user, Staking.abs, Members.weight_setWeight, hwt]
          | unstake v n =>
            cases hyu
            simp only [Staking.Act.user] at hwt
            simp [Staking.Abs.eff, Staking.Act.user, Staking.abs, Members.weight_setWeight, hwt]
          | take v => exact hwt
      have hdist := hd.dist
      have hrep : ∀ o n, r.2 = t0.mem.report [⟨u, o, n⟩] → r.1.mem.weight u = n →
          (∀ p, m ≠ .claim p) → ∃ r, handle c e t a (.mem (.staking m)) = .ok r := by
        intro o n hrn hn hcl
        have hup : Distributor.updateOne w.dist (u, n) = .ok w1.dist := by
          rw [hwt1, hn] at hdist
          unfold DistStep at hdist
          cases m <;> first | exact hdist | exact absurd rfl (hcl _)
        have hbd := hE.sum hoth (Distributor.effWeight n t.dist.min) (by rw [hn]; exact effWeight_le _ _)
        have htot := hinv.total
        obtain ⟨d', hd'⟩ := Distributor.update_accept ho.dist (g.dist hw ht).inv hup (by omega)
        have hsm : n < 2 ^ 128 := by
          have := Staking.weight_le_total hinv u
          unfold M128 at hsum
          omega
        obtain ⟨g', hg', _⟩ := Gov.C10_update_votes gb.ctl.gov.reachable (now := t.block.time) (voter := u) (amount := n) hsm
          (fun i p hp => gb.ctl.started i p (Controller.queryPoll_ok_iff.1 hp))
        rw [show t.gov.admin = c.self from gb.ctl.gov.admin] at hg'
        obtain ⟨z, hz⟩ := deliver_accept hw (e := e) (w := { t with mem := .staking k r.1 }) (o := o) (g.dist hw ht).admin hg' hd'
        refine ⟨z, ?_⟩
        simp only [handle]
        refine bind_ok_iff.2 ⟨(.staking k r.1, r.2), ?_, ?_⟩
        · rw [gm]
          simp only [Member.exec]
          exact bind_ok_iff.2 ⟨r, h3, rfl⟩
        · rw [hrn, report_single (m := t0.mem) gok.hooks]
          exact hz
      cases y with
      | stake v n =>
        cases hyu
        refine hrep _ _ h6 (by rw [hmem]; simp [Staking.Abs.eff, Staking.Act.user, Staking.abs, Members.weight_setWeight]) ?_
        rintro p rfl
        obtain ⟨_, ⟨_, _, h⟩ | ⟨_, o, h, _⟩⟩ := hy <;> cases h
      | unstake v n =>
        cases hyu
        refine hrep _ _ h6 (by rw [hmem]; simp [Staking.Abs.eff, Staking.Act.user, Staking.abs, Members.weight_setWeight]) ?_
        rintro p rfl
        cases hy.1
      | take v =>
        cases hyu
        refine ⟨({ t with mem := .staking k r.1 }, r.2.map (outItem c c.comps.membership)), ?_⟩
        simp only [handle]
        refine bind_ok_iff.2 ⟨(.staking k r.1, r.2), ?_, ?_⟩
        · rw [gm]
          simp only [Member.exec]
          exact bind_ok_iff.2 ⟨r, h3, rfl⟩
        · rw [h6]
          simp only [Staking.Abs.out]
          unfold deliver
          rfl

theorem Sequel.bounded {c : Cfg} (hw : c.Wf) (ht : c.Tame) {E : Map Addr Nat} : ∀ {l : List Signed} {w w1 : World}
    {k : Staking.Kind} {s s1 : Staking.State}, Reachable c w → w.mem = .staking k s → w.gov.pollCount + 1 < 2 ^ 64 → Valid c l →
    Sequel c w l w1 → w1.mem = .staking k s1 → StakeBound E w.dist s.mem → StakeBound E w1.dist s1.mem
  | [], w, w1, k, s, s1, h, hm, room, _, hs, hm1, hb => by
    cases hs
    rw [hm] at hm1
    cases hm1
    exact hb
  | x :: l, w, w2, k, s, s2, h, hm, room, hv, hs, hm2, hb => by
    cases hs with
    | cons h1 h2 =>
      obtain ⟨hx, ho⟩ := hv x (by simp)
      obtain ⟨u, hu⟩ := Option.ne_none_iff_exists'.1 hx
      obtain ⟨s1, d, r1, f1, room1⟩ := one_step hw ht h hm room hu ho h1
      have hok : (Member.staking k s).Ok c.self := hm ▸ (h.base hw ht).mem
      exact h2.bounded hw ht r1 d.mem room1 (fun y hy => hv y (by simp [hy])) hm2 (d.bounded hu hok.good hb)

/-! ## C164 -/

/-- Messages of one block, each about one member and sent from outside, in another order that keeps the order of the messages
about each member: if they are accepted in one order they are accepted in the other, and then polls, votes, rewards, stakes
and the council are the same; only the ids of claims of stake can differ and, if proposals can be executed early, from when
on they can. There must be room for everything staked in the block. -/
theorem C164_order {c : Cfg} (hw : c.Wf) (ht : c.Tame) {w w1 : World} (h : Reachable c w) {k : Staking.Kind} {s : Staking.State}
    (hm : w.mem = .staking k s) {l l' : List Signed} (hl : ∀ x ∈ l, whose x ≠ none ∧ c.outsider x.sender)
    (hl' : ∀ x ∈ l', whose x ≠ none ∧ c.outsider x.sender) (hil : Interleaved l l') (room : w.gov.pollCount + 1 < 2 ^ 64)
    (fit : w.dist.total + w.mem.total .never + (l.map (staked s.asset)).sum < 2 ^ 128) (h1 : Sequel c w l w1) :
    ∃ w2, Sequel c w l' w2 ∧ Alike w1 w2 ∧ (w.ctl.config.early = false → w1.ctl = w2.ctl) := by
  have hok : (Member.staking k s).Ok c.self := hm ▸ (h.base hw ht).mem
  have htot : w.mem.total .never = s.mem.total := by rw [hm]; rfl
  obtain ⟨e1, e2⟩ := h1.stakes hw ht h hm room hl
  have hroom : Staking.Room s (calls c w.block l) := by
    unfold Staking.Room
    rw [calls_sum]
    unfold M128
    omega
  obtain ⟨hperm, acc', habs, _⟩ := Staking.order_abs _ _ hok.good (calls_concern hl) (fun d hd => (calls_concern hl' d hd).2)
    (calls_interleaved c w.block hil) hroom e2
  have hex : ∀ p' q', l' = p' ++ q' → ∃ t, Sequel c w p' t := by
    intro p'
    induction p' using List.reverseRecOn with
    | nil => exact fun _ _ => ⟨w, .nil w⟩
    | append_singleton p' x ih =>
      intro q' hq
      rw [List.append_assoc] at hq
      obtain ⟨t, ht1⟩ := ih _ hq
      have hvp' : Valid c p' := fun y hy => hl' y (by rw [hq]; simp [hy])
      obtain ⟨hx, _⟩ := hl' x (by rw [hq]; simp)
      obtain ⟨u, hu⟩ := Option.ne_none_iff_exists'.1 hx
      have hfil := hil u
      rw [hq, List.filter_append, List.filter_eq_append_iff] at hfil
      obtain ⟨p1, q1, rfl, f1, f2⟩ := hfil
      rw [List.singleton_append, List.filter_cons_of_pos (by simpa using hu), List.filter_eq_cons_iff] at f2
      obtain ⟨p2, q2, rfl, f3, _, _⟩ := f2
      rw [← List.append_assoc] at h1 hl
      have hfp : (p1 ++ p2).filter (fun x => decide (whose x = some u)) = p'.filter (fun x => decide (whose x = some u)) := by
        rw [List.filter_append, f1, List.filter_eq_nil_iff.2 f3, List.append_nil]
      obtain ⟨wp, s1, s2⟩ := h1.append
      have hvp : Valid c (p1 ++ p2) := fun y hy => hl y (List.mem_append_left _ hy)
      obtain ⟨r1, g1, _⟩ := s1.fixed hw ht h hm room hvp
      obtain ⟨r2, g2, _⟩ := ht1.fixed hw ht h hm room hvp'
      have own := s1.agree hw ht h h hm hm room (.rfl' hm) (.rfl' _ _) hvp hvp' ht1 hfp
      obtain ⟨m1, _⟩ := s1.stakes hw ht h hm room hvp
      obtain ⟨m2, _⟩ := ht1.stakes hw ht h hm room hvp'
      have hbd : StakeBound w.dist.effective t.dist (Staking.run k s (calls c w.block p')).mem :=
        ht1.bounded hw ht h hm room hvp' m2 (fun v => Nat.le_add_right _ _)
      cases s2 with
      | cons h3 h4 =>
        obtain ⟨⟨t1, it⟩, hr⟩ := accepts hw ht r1 r2 m1 m2 hu (g1.symm.trans g2) own h3 hbd (by
          intro d hd
          rw [← g2.rest.2.1] at hd
          have ha := acc'
          rw [hq] at ha
          unfold calls at ha
          rw [List.filterMap_append, List.singleton_append, List.filterMap_cons_some hd] at ha
          obtain ⟨a1, a2⟩ := allAccepted_append _ ha
          refine ⟨a2.1, ?_⟩
          have hc : ∀ y ∈ calls c w.block (p' ++ [x]), Staking.concerns y ≠ none :=
            fun y hy => (calls_concern (l := p' ++ [x]) (fun z hz => hl' z (by rw [hq]; simp at hz ⊢; tauto)) y hy).2
          have hcx : calls c w.block (p' ++ [x]) = calls c w.block p' ++ [d] := by
            unfold calls
            rw [List.filterMap_append, List.filterMap_cons_some hd]
            rfl
          have hrx : ∀ (z : List Staking.Call) (s : Staking.State), Staking.run k s (z ++ [d]) = (Staking.step k (Staking.run k s z) d).1 := by
            intro z
            induction z with
            | nil => intro s; rfl
            | cons y z ih => intro s; exact ih _
          have hax : ∀ (z : List Staking.Call) (s : Staking.State), Staking.allAccepted k s z →
              Staking.accepted k (Staking.run k s z) d → Staking.allAccepted k s (z ++ [d]) := by
            intro z
            induction z with
            | nil => intro s _ h; exact ⟨h, trivial⟩
            | cons y z ih => intro s h h'; exact ⟨h.1, ih _ h.2 h'⟩
          have ht2 := run_total (k := k) (calls c w.block (p' ++ [x])) hok.good hc (by rw [hcx]; exact hax _ _ a1 a2.1)
          rw [calls_sum, hcx, hrx] at ht2
          have hsum := (hperm.map (fun d => d.msg.transferred s.asset)).sum_eq
          rw [calls_sum, calls_sum, hq] at hsum
          simp only [List.map_append, List.sum_append] at hsum ht2
          have hdt := (h.dist hw ht).inv.total
          simp only [List.map_append, List.sum_append] at fit
          unfold M128
          have : ∀ a b c : Nat, a + (b + c) = a + b + c := fun a b c => by omega
          omega)
        exact ⟨t1, ht1.snoc hr⟩
  obtain ⟨w2, h2⟩ := hex l' [] (by simp)
  obtain ⟨s1, s2, s3⟩ := h1.same hw ht h hm room hl hl' hil h2
  obtain ⟨m2, _⟩ := h2.stakes hw ht h hm room hl'
  refine ⟨w2, h2, ⟨⟨k, _, _, e1, m2, Staking.sameButIds_iff.2 habs⟩, s1, s2, s3.rest, s3.ctl⟩, ?_⟩
  intro he
  obtain ⟨_, f1, _⟩ := h1.fixed hw ht h hm room hl
  obtain ⟨_, f2, _⟩ := h2.fixed hw ht h hm room hl'
  rw [← f1.early he, ← f2.early he]

/-- Such messages are transactions of the DAO. -/
theorem C164_transactions {c : Cfg} (hw : c.Wf) (ht : c.Tame) {w w1 : World} (h : Reachable c w) {k : Staking.Kind}
    {s : Staking.State} (hm : w.mem = .staking k s) {l : List Signed} (hl : ∀ x ∈ l, whose x ≠ none ∧ c.outsider x.sender)
    (room : w.gov.pollCount + 1 < 2 ^ 64) (h1 : Sequel c w l w1) : Later c w w1 ∧ w1.block = w.block := by
  have key : ∀ {l : List Signed} {w0 w w1 : World} {s : Staking.State}, Reachable c w → w.mem = .staking k s →
      w.gov.pollCount + 1 < 2 ^ 64 → Valid c l → Later c w0 w → Sequel c w l w1 → Later c w0 w1 := by
    intro l
    induction l with
    | nil => intro w0 w w1 s h hm room hv h0 hs; cases hs; exact h0
    | cons x l ih =>
      intro w0 w w1 s h hm room hv h0 hs
      cases hs with
      | cons h1 h2 =>
        obtain ⟨hx, ho⟩ := hv x (by simp)
        obtain ⟨u, hu⟩ := Option.ne_none_iff_exists'.1 hx
        obtain ⟨s1, d, r1, f1, room1⟩ := one_step hw ht h hm room hu ho h1
        exact ih r1 d.mem room1 (fun y hy => hv y (by simp [hy])) (.tx h0 ho (d.exec room h1)) h2
  exact ⟨key h hm room hl .refl h1, ((h1.fixed hw ht h hm room hl).2.1.rest.2.1).symm⟩

/-- Messages one after the other. -/
def inTurn (c : Cfg) (w : World) : List Signed → Option World
  | [] => some w
  | x :: l =>
    match handle c x.ext w x.sender x.msg with
    | .ok r => inTurn c r.1 l
    | .error _ => none

theorem inTurn_sequel {c : Cfg} : ∀ {l : List Signed} {w w1 : World}, inTurn c w l = some w1 → Sequel c w l w1
  | [], _, _, h => by cases h; exact .nil _
  | x :: l, w, w1, h => by
    unfold inTurn at h
    cases hr : handle c x.ext w x.sender x.msg with
    | error e => rw [hr] at h; cases h
    | ok r => rw [hr] at h; exact .cons hr (inTurn_sequel h)

/-- A proposal with few votes: user 10 has 5 of 100 coins and has voted yes. -/
def fewVotes : List Step :=
  [stake 10 5, stake 11 1, stake 12 94, at_ 2, propose 12 [.updateGovConfig sampleChange], at_ 3, vote 10 1 .yes, at_ 4]

/-- User 11 votes yes. -/
def voteOf11 : Signed := ⟨sampleExt, 11, .ctl (.castVote 1 .yes)⟩

/-- User 10 stakes 5 coins more. -/
def stakeOf10 : Signed := ⟨sampleExt, 10, .mem (.staking (.stakeDenom [⟨20, 5⟩] none))⟩

/-- User 12 unstakes 4 coins, and claims rewards. -/
def leaveOf12 : List Signed := [⟨sampleExt, 12, .mem (.staking (.unstake 4))⟩, ⟨sampleExt, 12, .dist (.claim 12 [5] [])⟩]

theorem interleaved_swap {x y : Signed} (h : whose x ≠ whose y) (l : List Signed) : Interleaved (x :: y :: l) (y :: x :: l) := by
  intro u
  by_cases hx : whose x = some u
  · have hy : whose y ≠ some u := fun hy => h (hx.trans hy.symm)
    simp [hx, hy]
  · by_cases hy : whose y = some u <;> simp [hx, hy]

example : ∃ k s, (sampleRun fewVotes).mem = .staking k s ∧ (sampleRun fewVotes).gov.pollCount = 1 ∧
    (sampleRun fewVotes).dist.total + (sampleRun fewVotes).mem.total .never +
      ((voteOf11 :: stakeOf10 :: leaveOf12).map (staked s.asset)).sum = 205 ∧
    (∀ x ∈ voteOf11 :: stakeOf10 :: leaveOf12, whose x ≠ none ∧ sampleCfg.outsider x.sender) ∧
    Interleaved (voteOf11 :: stakeOf10 :: leaveOf12) (stakeOf10 :: voteOf11 :: leaveOf12) ∧
    ∃ w1, Sequel sampleCfg (sampleRun fewVotes) (voteOf11 :: stakeOf10 :: leaveOf12) w1 := by
  cases hm : (sampleRun fewVotes).mem with
  | staking k s =>
    have hs : (match (sampleRun fewVotes).mem with | .staking _ s => s.asset | _ => 0) = 20 := by decide +kernel
    rw [hm] at hs
    simp only at hs
    refine ⟨k, s, rfl, by decide +kernel, ?_, by decide +kernel, interleaved_swap (by decide) _, ?_⟩
    · rw [hs, ← hm]
      decide +kernel
    · have : (inTurn sampleCfg (sampleRun fewVotes) (voteOf11 :: stakeOf10 :: leaveOf12)).isSome = true := by decide +kernel
      obtain ⟨w1, h1⟩ := Option.isSome_iff_exists.1 this
      exact ⟨w1, inTurn_sequel h1⟩
  | nft s =>
    have : (match (sampleRun fewVotes).mem with | .nft _ => false | _ => true) = true := by decide +kernel
    rw [hm] at this; cases this
  | multisig s =>
    have : (match (sampleRun fewVotes).mem with | .multisig _ => false | _ => true) = true := by decide +kernel
    rw [hm] at this; cases this

/-- The order does decide when a proposal can be executed: a member votes, and another one who has voted already stakes more,
in the same block; both together complete the quorum. If the vote comes first, the proposal can be executed in the same block;
if the stake comes first, only after the cooldown. -/
theorem C164_cooldown_witness : ∃ w w1 w2 x y, Reachable sampleCfg w ∧ whose x = some 11 ∧ whose y = some 10 ∧
    Sequel sampleCfg w [x, y] w1 ∧ Sequel sampleCfg w [y, x] w2 ∧ w1.gov = w2.gov ∧
    (∃ r, handle sampleCfg sampleExt w1 13 (.ctl (.execute 1)) = .ok r) ∧
    handle sampleCfg sampleExt w2 13 (.ctl (.execute 1)) = .error .withinVotingPeriod := by
  have h1 : (inTurn sampleCfg (sampleRun fewVotes) [voteOf11, stakeOf10]).isSome = true := by decide +kernel
  have h2 : (inTurn sampleCfg (sampleRun fewVotes) [stakeOf10, voteOf11]).isSome = true := by decide +kernel
  obtain ⟨w1, h1⟩ := Option.isSome_iff_exists.1 h1
  obtain ⟨w2, h2⟩ := Option.isSome_iff_exists.1 h2
  have e1 : w1 = (inTurn sampleCfg (sampleRun fewVotes) [voteOf11, stakeOf10]).getD (sampleRun fewVotes) := by rw [h1]; rfl
  have e2 : w2 = (inTurn sampleCfg (sampleRun fewVotes) [stakeOf10, voteOf11]).getD (sampleRun fewVotes) := by rw [h2]; rfl
  refine ⟨sampleRun fewVotes, w1, w2, voteOf11, stakeOf10, sampleRun_reachable _, rfl, rfl, inTurn_sequel h1, inTurn_sequel h2,
    ?_, ?_, ?_⟩
  · rw [e1, e2]; decide +kernel
  · have : (handle sampleCfg sampleExt w1 13 (.ctl (.execute 1))).isOk = true := by rw [e1]; decide +kernel
    cases h : handle sampleCfg sampleExt w1 13 (.ctl (.execute 1)) with
    | ok r => exact ⟨r, rfl⟩
    | error e => rw [h] at this; cases this
  · have : (match handle sampleCfg sampleExt w2 13 (.ctl (.execute 1)) with
        | .error e => decide (e = .withinVotingPeriod) | .ok _ => false) = true := by rw [e2]; decide +kernel
    cases h : handle sampleCfg sampleExt w2 13 (.ctl (.execute 1)) with
    | ok r => rw [h] at this; cases this
    | error e => rw [h] at this; simp only [decide_eq_true_eq] at this; rw [this]

end Verif.Dao
