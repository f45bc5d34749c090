import Verif.Dao.Aside

/-!
# The contracts of a DAO together: votes on a proposal matter to nothing else (C172)
-/

set_option linter.unusedSimpArgs false

namespace Verif.Dao
open Verif
open Verif.Controller (Transfer Sub CtlAside)

/-! ## Specification -/

/-- The message is a vote on the proposal. -/
def Msg.isVoteOn (j : Nat) : Msg → Bool
  | .ctl (.castVote i _) => i == j
  | .ctl (.castCouncilVote i _) => i == j
  | _ => false

/-- The message executes the proposal. -/
def Msg.isExecuteOf (j : Nat) : Msg → Bool
  | .ctl (.execute i) => i == j
  | _ => false

/-- What was sent, by whom, and what the other contracts answered. -/
def Entry.label (x : Entry) : Ext × Addr × Msg := (x.ext, x.sender, x.msg)

/-- The two DAOs are the same but for one proposal: the same members with the same stakes and claims, the same council, the
same rewards, rules and transfers of deposits; every other proposal is the same, with the same status, results and votes;
the proposal itself is of the same type, with the same actions and deposit, and was executed in both or in neither. -/
structure SameButFor (c : Cfg) (j : Nat) (w v : World) : Prop where
  block : v.block = w.block
  members : v.mem = w.mem
  council : v.council = w.council
  rewards : v.dist = w.dist
  rules : v.ctl.config = w.ctl.config ∧ v.ctl.council = w.ctl.council
  transfers : v.log = w.log
  count : v.gov.pollCount = w.gov.pollCount
  proposals : ∀ e i, i ≠ j →
    Controller.queryProposal (c.env e v) v.ctl v.gov i = Controller.queryProposal (c.env e w) w.ctl w.gov i
  votes : ∀ i u, i ≠ j → Gov.queryPollVoter v.gov i u = Gov.queryPollVoter w.gov i u
  outcomes : ∀ i, i ≠ j → outcome v i = outcome w i
  proposal : (v.ctl.infos.get j).map (fun i => (i.type, i.executedAt, i.deposit, i.actions)) =
    (w.ctl.infos.get j).map (fun i => (i.type, i.executedAt, i.deposit, i.actions))

/-! ## Lemmas -/

/-- Two states that differ at most in one proposal. -/
structure Aside (j : Nat) (w v : World) : Prop where
  same : v = { w with ctl := v.ctl, gov := v.gov }
  ctl : CtlAside j w.ctl w.gov v.ctl v.gov

theorem Aside.refl {j : Nat} {w : World} : Aside j w w := ⟨Eq.refl _, Eq.refl _, fun _ _ => Eq.refl _, Eq.refl _, fun _ _ => .rfl⟩

theorem Aside.sameButFor {c : Cfg} {j : Nat} {w v : World} (hb : Base c w) (h : Aside j w v) : SameButFor c j w v := by
  obtain ⟨s2, g2, rfl⟩ : ∃ s2 g2, v = { w with ctl := s2, gov := g2 } := ⟨_, _, h.same⟩
  have hc : CtlAside j w.ctl w.gov s2 g2 := h.ctl
  have hcfg : s2.config = w.ctl.config := by rw [hc.ctl]
  refine ⟨rfl, rfl, rfl, rfl, ⟨hcfg, by show s2.council = _; rw [hc.ctl]⟩, rfl, hc.gov.count.symm, fun e i hi => ?_,
    fun i u hi => ((hc.gov i hi).votes u).symm, fun i hi => ?_, ?_⟩
  · show Controller.queryProposal (c.env e w) s2 g2 i = _
    unfold Controller.queryProposal Gov.queryPoll
    rw [← (hc.gov i hi).poll]
    cases hp : w.gov.polls.get i with
    | none => rfl
    | some p =>
      show Controller.toResponse (c.env e w) s2 g2 p = Controller.toResponse (c.env e w) w.ctl w.gov p
      have hid : p.id = i := (hb.ctl.inv.pid i p hp).1
      have hal : ∀ x, Controller.allowsEarly s2 x = Controller.allowsEarly w.ctl x := by
        intro x; rw [hc.ctl]; rfl
      have hsim : ∀ n, Gov.simulateEnd g2 i n = Gov.simulateEnd w.gov i n := by
        intro n
        unfold Gov.simulateEnd
        rw [(hc.gov i hi).poll]
      have hfin : ∀ t x, Controller.finalStatus (c.env e w) g2 t i x = Controller.finalStatus (c.env e w) w.gov t i x := by
        intro t x
        unfold Controller.finalStatus
        rw [hsim]
      have hfix : ∀ st x, Controller.fixStatus (c.env e w) s2 g2 i st x = Controller.fixStatus (c.env e w) w.ctl w.gov i st x := by
        intro st x
        unfold Controller.fixStatus
        simp only [hal, hsim, hfin]
      unfold Controller.toResponse
      simp only [hid, hfix, hc.infos i hi]
  · unfold outcome
    show (match s2.infos.get i, g2.polls.get i with
      | some i, some p => if i.executedAt.isSome then some p.status else none
      | _, _ => none) = _
    rw [hc.infos i hi, ← (hc.gov i hi).poll]
    cases w.ctl.infos.get i <;> cases w.gov.polls.get i <;> rfl
  · show (s2.infos.get j).map _ = (w.ctl.infos.get j).map _
    have := congrArg (Option.map (fun i : Controller.Info => (i.type, i.executedAt, i.deposit, i.actions))) hc.info
    simp only [Option.map_map] at this
    exact this

theorem deliver_calm {c : Cfg} {e : Ext} {a : Addr} {w : World} {outs : List Out} (h : ∀ o ∈ outs, ∀ h l, o ≠ .notify h l) :
    deliver c e a w outs = .ok (w, outs.map (outItem c a)) := by
  cases outs with
  | nil => rfl
  | cons o t =>
    cases o with
    | notify x l => exact absurd rfl (h _ List.mem_cons_self x l)
    | pay _ _ => rfl
    | sendNft _ _ => rfl

theorem handle_aside {c : Cfg} (hw : c.Wf) {j : Nat} {e : Ext} {w v w1 : World} {a : Addr} {m : Msg} {subs : List Item}
    (hb : Base c w) (hv : Base c v) (hk : Known c a m) (room : w.gov.pollCount + 1 < 2 ^ 64) (h : Aside j w v)
    (hm : m.isVoteOn j = false ∧ m.isExecuteOf j = false) (hr : handle c e w a m = .ok (w1, subs)) :
    ∃ v1, handle c e v a m = .ok (v1, subs) ∧ Aside j w1 v1 := by
  obtain ⟨s2, g2, rfl⟩ : ∃ s2 g2, v = { w with ctl := s2, gov := g2 } := ⟨_, _, h.same⟩
  have hc : CtlAside j w.ctl w.gov s2 g2 := h.ctl
  cases m with
  | ctl m =>
    simp only [handle, bind_ok_iff, pure_ok_iff] at hr ⊢
    obtain ⟨r, h1, h2⟩ := hr
    cases h2
    have hab : m.about j = false := by
      unfold Msg.isVoteOn Msg.isExecuteOf at hm
      unfold Controller.Msg.about
      cases m <;> first | rfl | exact hm.1 | exact hm.2
    have hnm : ∀ l, m = .weightsChanged l → a ≠ (c.env e w).comps.membership := by
      intro l hl
      rcases hk with hk | ⟨rfl, _⟩
      · exact hk.2.1
      · exact fun hh => hw.membership hh.symm
    obtain ⟨r2, h3, h4, h5⟩ := Controller.exec_aside hc hab hnm h1
    refine ⟨{ w with ctl := r2.1, gov := r2.2.1, log := w.log ++ ranOf m ++ r.2.2.filterMap eventOf }, ⟨r2, h3, ?_⟩, rfl, h4⟩
    rw [h5]
  | gov m =>
    exfalso
    simp only [handle, bind_ok_iff] at hr
    obtain ⟨g, h1, _⟩ := hr
    unfold Gov.exec at h1
    rw [ite_ok_iff] at h1
    have hadm := hb.ctl.gov.admin
    rcases hk with hk | ⟨_, hk | ⟨id, hk⟩⟩
    · exact h1.1 (fun hh => hk.1 (hh.trans hadm))
    · cases hk
    · cases hk
  | dist m =>
    simp only [handle, bind_ok_iff, pure_ok_iff] at hr ⊢
    obtain ⟨r, h1, h2⟩ := hr
    cases h2
    exact ⟨{ w with ctl := s2, gov := g2, dist := r.1 }, ⟨r, h1, rfl⟩, rfl, hc⟩
  | mem m =>
    have htm : a = c.self → m.tame = true := by
      intro ha
      rcases hk with hk | ⟨_, hk | ⟨id, hk⟩⟩
      · exact absurd ha hk.1
      · exact hk
      · cases hk
    simp only [handle, bind_ok_iff] at hr ⊢
    obtain ⟨x, h1, h2⟩ := hr
    have hrep := Member.exec_ok (e := ⟨c.menv e w a, e.proxy⟩) hb.mem rfl htm h1
    rcases hrep.report with ⟨l, ho, hex, hle⟩ | ⟨ho, hsame⟩
    · rw [ho] at h2
      unfold deliver at h2
      rw [if_pos rfl] at h2
      simp only [bind_ok_iff] at h2
      obtain ⟨y, hy, d, hd, h3⟩ := h2
      cases h3
      rcases Controller.weightsChanged_ok_iff.1 hy with ⟨hcc, _⟩ | ⟨hn, hmm, hu, hs⟩
      · exact absurd hcc hw.both
      have hsmall : ∀ ch ∈ l, ch.new < M128 := by
        intro ch hch
        refine lt_of_le_of_lt (hle ch hch) ?_
        refine lt_of_le_of_lt (hrep.ok.weight_le _) ?_
        rw [hrep.ok.total]
        exact hrep.ok.small
      obtain ⟨g3, h4, h5⟩ := Controller.updateAll_aside (e := c.env e { w with mem := x.1 }) l hc.gov hb.ctl.inv hv.ctl.inv
        hb.ctl.started hv.ctl.started (by unfold M64; omega) hsmall hu
      refine ⟨{ w with ctl := s2, gov := g3, mem := x.1, dist := d }, ⟨x, h1, ?_⟩, rfl, hc.ctl, hc.infos, hc.info, h5⟩
      rw [ho]
      unfold deliver
      rw [if_pos rfl]
      simp only [bind_ok_iff]
      exact ⟨(g3, y.2), Controller.weightsChanged_ok_iff.2 (Or.inr ⟨hn, hmm, h4, hs⟩), d, hd, rfl⟩
    · rw [deliver_calm ho] at h2
      cases h2
      exact ⟨{ w with ctl := s2, gov := g2, mem := x.1 }, ⟨x, h1, deliver_calm ho⟩, rfl, hc⟩
  | council m =>
    have htm : a = c.self → (Msg.council m).tame = true := by
      intro ha
      rcases hk with hk | ⟨_, hk | ⟨id, hk⟩⟩
      · exact absurd ha hk.1
      · exact hk
      · cases hk
    simp only [handle, bind_ok_iff] at hr ⊢
    obtain ⟨x, h1, h2⟩ := hr
    have hadmin : (∃ z, m = .addHook z ∨ m = .removeHook z) → False := by
      rintro ⟨z, rfl | rfl⟩
      · simp only [Multisig.exec, bind_ok_iff, Members.addHook, ite_ok_iff, ne_eq, Classical.not_not] at h1
        obtain ⟨_, ⟨h1, _⟩, _⟩ := h1
        exact absurd (htm h1) (by simp [Msg.tame])
      · simp only [Multisig.exec, bind_ok_iff, Members.removeHook, ite_ok_iff, ne_eq, Classical.not_not] at h1
        obtain ⟨_, ⟨h1, _⟩, _⟩ := h1
        exact absurd (htm h1) (by simp [Msg.tame])
    obtain ⟨_, _, _, _, l, g5⟩ := multisig_hooks hb.council.good hb.council.small hb.council.snap
      (fun z => ⟨fun hh => hadmin ⟨z, Or.inl hh⟩, fun hh => hadmin ⟨z, Or.inr hh⟩⟩) h1
    have g6 : x.2 = [.notify c.self l] := g5.trans (report_single (m := w.council) hb.council.hooks l)
    rw [g6] at h2
    unfold deliver at h2
    rw [if_pos rfl] at h2
    simp only [bind_ok_iff] at h2
    obtain ⟨y, hy, d, hd, h3⟩ := h2
    cases h3
    rcases Controller.weightsChanged_ok_iff.1 hy with ⟨hcc, rfl⟩ | ⟨hcc, _⟩
    · refine ⟨{ w with ctl := s2, gov := g2, council := x.1, dist := d }, ⟨x, h1, ?_⟩, rfl, hc⟩
      rw [g6]
      unfold deliver
      rw [if_pos rfl]
      simp only [bind_ok_iff]
      exact ⟨(g2, []), Controller.weightsChanged_ok_iff.2 (Or.inl ⟨rfl, rfl⟩), d, hd, rfl⟩
    · exact absurd rfl hcc

/-- A vote on the proposal changes nothing else. -/
theorem handle_vote_aside {c : Cfg} {j : Nat} {e : Ext} {w w1 : World} {a : Addr} {m : Msg} {subs : List Item}
    (hb : Base c w) (hm : m.isVoteOn j = true) (hr : handle c e w a m = .ok (w1, subs)) : Aside j w1 w ∧ subs = [] := by
  cases m with
  | ctl m =>
    simp only [handle, bind_ok_iff, pure_ok_iff] at hr
    obtain ⟨r, h1, h2⟩ := hr
    have hv : (∃ o, m = .castVote j o) ∨ ∃ o, m = .castCouncilVote j o := by
      cases m with
      | castVote i o => exact Or.inl ⟨o, by rw [eq_of_beq (show (i == j) = true from hm)]⟩
      | castCouncilVote i o => exact Or.inr ⟨o, by rw [eq_of_beq (show (i == j) = true from hm)]⟩
      | _ => cases hm
    obtain ⟨h3, h4⟩ := Controller.exec_vote_aside hb.ctl.idle.2.2 hv h1
    have hran : ranOf m = [] := by rcases hv with ⟨o, rfl⟩ | ⟨o, rfl⟩ <;> rfl
    rw [h4, hran] at h2
    cases h2
    refine ⟨⟨?_, h3⟩, rfl⟩
    simp
  | _ => cases hm

theorem Aside.trans {j : Nat} {w v u : World} (h : Aside j w v) (h' : Aside j v u) : Aside j w u := by
  refine ⟨?_, h.ctl.trans h'.ctl⟩
  rw [h'.same, h.same]

/-- Everything in a queue but the votes on the proposal by others than the controller. -/
def keeps (c : Cfg) (j : Nat) : Item → Bool
  | .call a m => !(m.isVoteOn j && decide (a ≠ c.self))
  | _ => true

theorem subs_keep {c : Cfg} (j : Nat) {w w1 : World} {a : Addr} {m : Msg} {subs : List Item} (h : Handled c w a m w1 subs) :
    subs.filter (keeps c j) = subs := by
  refine List.filter_eq_self.2 fun i hi => ?_
  rcases h.kind with ⟨e, m', r, _, hx⟩ | ⟨_, _, _, ho⟩
  · rw [hx.subs] at hi
    obtain ⟨s, _, rfl⟩ := List.mem_map.1 hi
    cases s with
    | custom n =>
      simp only [toItem]
      rcases c.decode n with _ | _ | y <;> simp [keeps]
    | _ => simp [toItem, keeps]
  · rw [ho i hi]; rfl

theorem Traced.aside {c : Cfg} (hw : c.Wf) (ht : c.Tame) {j : Nat} {w w' : World} {l : List Item} {t : List Entry}
    (h : Traced c w l w' t) : ∀ v, (∀ i ∈ l, Allowed c i) → Base c w → Base c v → Aside j w v →
      (∀ x ∈ t, x.msg.isExecuteOf j = false) → (∀ x ∈ t, x.msg.isVoteOn j = true → x.sender ≠ c.self) →
      ∃ v' t', Traced c v (l.filter (keeps c j)) v' t' ∧
        t'.map Entry.label = (t.filter (fun x => !x.msg.isVoteOn j)).map Entry.label ∧ Base c w' ∧ Base c v' ∧ Aside j w' v' := by
  induction h with
  | nil w => intro v _ hb hv ha _ _; exact ⟨v, [], .nil v, rfl, hb, hv, ha⟩
  | @call w w1 w2 w3 a m subs rest t1 t2 e room h h1 h2 ih1 ih2 =>
    intro v hl hb hv ha hx hs
    have hal : c.outsider a ∨ (a = c.self ∧ m.tame = true) := hl _ List.mem_cons_self
    have hk : Known c a m := by
      rcases hal with ha | ⟨ha, hm⟩
      · exact Or.inl ha
      · exact Or.inr ⟨ha, Or.inl hm⟩
    have hh := handled hw ht hb hk room h
    have hrest : ∀ i ∈ rest, Allowed c i := fun i hi => hl i (List.mem_cons_of_mem _ hi)
    have hx1 : ∀ x ∈ t1, x.msg.isExecuteOf j = false := fun x hx' => hx x (by simp [hx'])
    have hx2 : ∀ x ∈ t2, x.msg.isExecuteOf j = false := fun x hx' => hx x (by simp [hx'])
    have hs1 : ∀ x ∈ t1, x.msg.isVoteOn j = true → x.sender ≠ c.self := fun x hx' => hs x (by simp [hx'])
    have hs2 : ∀ x ∈ t2, x.msg.isVoteOn j = true → x.sender ≠ c.self := fun x hx' => hs x (by simp [hx'])
    by_cases hvote : m.isVoteOn j = true
    · obtain ⟨g1, rfl⟩ := handle_vote_aside hb hvote h
      have hne : a ≠ c.self := hs ⟨w, e, a, m⟩ List.mem_cons_self hvote
      cases h1
      obtain ⟨v', t', k1, k2, k3⟩ := ih2 v hrest hh.base hv (g1.trans ha) hx2 hs2
      refine ⟨v', t', ?_, ?_, k3⟩
      · rw [List.filter_cons_of_neg (by simp [keeps, hvote, hne])]
        exact k1
      · rw [List.filter_cons_of_neg (by simp [hvote])]
        exact k2
    · have hvote : m.isVoteOn j = false := by simpa using hvote
      obtain ⟨v1, g1, g2⟩ := handle_aside hw hb hv hk room ha ⟨hvote, hx ⟨w, e, a, m⟩ List.mem_cons_self⟩ h
      have room' : v.gov.pollCount + 1 < 2 ^ 64 := by rw [← ha.ctl.gov.count]; exact room
      have hh' := handled hw ht hv hk room' g1
      obtain ⟨v2, s1, k1, k2, b2, b2', a2⟩ := ih1 v1 hh.allowed hh.base hh'.base g2 hx1 hs1
      obtain ⟨v3, s2, k3, k4, b3⟩ := ih2 v2 hrest b2 b2' a2 hx2 hs2
      rw [subs_keep j hh] at k1
      refine ⟨v3, ⟨v, e, a, m⟩ :: (s1 ++ s2), ?_, ?_, b3⟩
      · rw [List.filter_cons_of_pos (by simp [keeps, hvote])]
        exact .call e room' g1 k1 k3
      · rw [List.filter_cons_of_pos (by simp [hvote]), List.map_cons, List.map_cons, List.map_append, List.filter_append,
          List.map_append, k2, k4]
        rfl
  | @actions w w1 w2 w3 id subs rest t1 t2 e room h h1 h2 ih1 ih2 =>
    intro v hl hb hv ha hx hs
    have hk : Known c c.self (.ctl (.executeActions id)) := Or.inr ⟨rfl, Or.inr ⟨id, rfl⟩⟩
    have hh := handled hw ht hb hk room h
    obtain ⟨v1, g1, g2⟩ := handle_aside hw hb hv hk room ha ⟨rfl, rfl⟩ h
    have room' : v.gov.pollCount + 1 < 2 ^ 64 := by rw [← ha.ctl.gov.count]; exact room
    have hh' := handled hw ht hv hk room' g1
    obtain ⟨v2, s1, k1, k2, b2, b2', a2⟩ := ih1 v1 hh.allowed hh.base hh'.base g2 (fun x hx' => hx x (by simp [hx']))
      (fun x hx' => hs x (by simp [hx']))
    obtain ⟨v3, s2, k3, k4, b3⟩ := ih2 v2 (fun i hi => hl i (List.mem_cons_of_mem _ hi)) b2 b2' a2
      (fun x hx' => hx x (by simp [hx'])) (fun x hx' => hs x (by simp [hx']))
    rw [subs_keep j hh] at k1
    refine ⟨v3, ⟨v, e, c.self, .ctl (.executeActions id)⟩ :: (s1 ++ s2), ?_, ?_, b3⟩
    · rw [List.filter_cons_of_pos rfl]
      exact .actions e room' g1 k1 k3
    · rw [List.filter_cons_of_pos rfl, List.map_cons, List.map_cons, List.map_append, List.filter_append,
        List.map_append, k2, k4]
      rfl
  | failed h ih =>
    intro v hl hb hv ha hx hs
    obtain ⟨v', t', k1, k2⟩ := ih v (fun i hi => hl i (List.mem_cons_of_mem _ hi)) hb hv ha hx hs
    refine ⟨v', t', ?_, k2⟩
    rw [List.filter_cons_of_pos rfl]
    exact .failed k1
  | @deposit w w1 w2 id t calls rest t1 t2 hc h1 h2 ih1 ih2 =>
    intro v hl hb hv ha hx hs
    have hlog : Aside j { w with log := w.log ++ [.paid id t] } { v with log := v.log ++ [.paid id t] } := by
      refine ⟨?_, ha.ctl⟩
      rw [ha.same]
    obtain ⟨v1, s1, k1, k2, b2, b2', a2⟩ := ih1 { v with log := v.log ++ [.paid id t] } hc.allowed
      ⟨hb.ctl, hb.mem, hb.council⟩ ⟨hv.ctl, hv.mem, hv.council⟩ hlog
      (fun x hx' => hx x (by simp [hx'])) (fun x hx' => hs x (by simp [hx']))
    obtain ⟨v3, s2, k3, k4, b3⟩ := ih2 v1 (fun i hi => hl i (List.mem_cons_of_mem _ hi)) b2 b2' a2
      (fun x hx' => hx x (by simp [hx'])) (fun x hx' => hs x (by simp [hx']))
    refine ⟨v3, s1 ++ s2, ?_, ?_, b3⟩
    · rw [List.filter_cons_of_pos rfl]
      exact .deposit (fun i hi => hc i (List.mem_filter.1 hi).1) k1 k3
    · rw [List.map_append, List.filter_append, List.map_append, k2, k4]
  | @other w w1 w2 calls rest t1 t2 hc h1 h2 ih1 ih2 =>
    intro v hl hb hv ha hx hs
    obtain ⟨v1, s1, k1, k2, b2, b2', a2⟩ := ih1 v hc.allowed hb hv ha
      (fun x hx' => hx x (by simp [hx'])) (fun x hx' => hs x (by simp [hx']))
    obtain ⟨v3, s2, k3, k4, b3⟩ := ih2 v1 (fun i hi => hl i (List.mem_cons_of_mem _ hi)) b2 b2' a2
      (fun x hx' => hx x (by simp [hx'])) (fun x hx' => hs x (by simp [hx']))
    refine ⟨v3, s1 ++ s2, ?_, ?_, b3⟩
    · rw [List.filter_cons_of_pos rfl]
      exact .other (fun i hi => hc i (List.mem_filter.1 hi).1) k1 k3
    · rw [List.map_append, List.filter_append, List.map_append, k2, k4]

theorem History.aside {c : Cfg} (hw : c.Wf) (ht : c.Tame) {j : Nat} {w w' : World} {t : List Entry} (hr : Reachable c w)
    (h : History c w w' t) : (∀ x ∈ t, x.msg.isExecuteOf j = false) →
      (∀ x ∈ t, x.msg.isVoteOn j = true → x.sender ≠ c.self) →
      ∃ v' t', History c w v' t' ∧ t'.map Entry.label = (t.filter (fun x => !x.msg.isVoteOn j)).map Entry.label ∧
        Aside j w' v' := by
  induction h with
  | start => exact fun _ _ => ⟨w, [], .start, rfl, .refl⟩
  | @tx w1 w2 a m t t1 h ha hx ih =>
    intro hxe hxs
    obtain ⟨v1, s1, k1, k2, a1⟩ := ih (fun x hx' => hxe x (by simp [hx'])) (fun x hx' => hxs x (by simp [hx']))
    have hb := (h.later.reachable hr).base hw ht
    have hv := (k1.later.reachable hr).base hw ht
    obtain ⟨v2, s2, k3, k4, _, _, a2⟩ := hx.aside hw ht v1 (fun i hi => by rw [List.mem_singleton.1 hi]; exact Or.inl ha)
      hb hv a1 (fun x hx' => hxe x (by simp [hx'])) (fun x hx' => hxs x (by simp [hx']))
    by_cases hkeep : keeps c j (.call a m) = true
    · rw [List.filter_cons_of_pos hkeep] at k3
      refine ⟨v2, s1 ++ s2, .tx k1 ha k3, ?_, a2⟩
      rw [List.map_append, List.filter_append, List.map_append, k2, k4]
    · rw [List.filter_cons_of_neg hkeep] at k3
      cases k3
      refine ⟨v1, s1, k1, ?_, a2⟩
      rw [List.filter_append, List.map_append, ← k4, k2]
      simp
  | @block w1 b t h hh htm ih =>
    intro hxe hxs
    obtain ⟨v1, s1, k1, k2, a1⟩ := ih hxe hxs
    have hbl : v1.block = w1.block := by rw [a1.same]
    refine ⟨{ v1 with block := b }, s1, .block k1 (by rw [hbl]; exact hh) (by rw [hbl]; exact htm), k2, ?_, a1.ctl⟩
    rw [a1.same]

/-! ## C172 -/

/-- A vote on a proposal, when it is cast, changes nothing but this proposal and sends no messages. -/
theorem C172_vote {c : Cfg} (hw : c.Wf) (ht : c.Tame) {w w1 : World} (hr : Reachable c w) {j : Nat} {e : Ext} {a : Addr}
    {m : Msg} {subs : List Item} (hm : m.isVoteOn j = true) (room : w.gov.pollCount + 1 < 2 ^ 64) (hk : c.outsider a)
    (h : handle c e w a m = .ok (w1, subs)) : SameButFor c j w1 w ∧ subs = [] := by
  have hb := hr.base hw ht
  obtain ⟨h1, h2⟩ := handle_vote_aside hb hm h
  exact ⟨h1.sameButFor (handled hw ht hb (Or.inl hk) room h).base, h2⟩

example : ∃ r, Reachable sampleCfg (sampleRun (sampleVoted.take 7)) ∧ sampleCfg.outsider 11 ∧
    handle sampleCfg sampleExt (sampleRun (sampleVoted.take 7)) 11 (.ctl (.castVote 1 .no)) = .ok r ∧
    Gov.queryPollVoter r.1.gov 1 11 = some ⟨1, 11, .no, 40⟩ := by
  have hs : ((handle sampleCfg sampleExt (sampleRun (sampleVoted.take 7)) 11 (.ctl (.castVote 1 .no))).toOption.map
      (fun r => Gov.queryPollVoter r.1.gov 1 11)) = some (some ⟨1, 11, .no, 40⟩) := by decide +kernel
  obtain ⟨r, h1, h2⟩ := Option.map_eq_some_iff.1 hs
  refine ⟨r, sampleRun_reachable _, by decide, ?_, h2⟩
  cases hh : handle sampleCfg sampleExt (sampleRun (sampleVoted.take 7)) 11 (.ctl (.castVote 1 .no)) with
  | error e => rw [hh] at h1; cases h1
  | ok x => rw [hh] at h1; cases h1; rfl

/-- **Votes on a proposal matter to nothing else.** From a history of a DAO in which a proposal is not executed, leave out all
votes on this proposal that its members cast. Then all other messages are handled as before, with what they lead to, and in
the end everything is the same but for this proposal. -/
theorem C172_votes {c : Cfg} (hw : c.Wf) (ht : c.Tame) {w w' : World} {t : List Entry} (hr : Reachable c w)
    (h : History c w w' t) {j : Nat} (hx : ∀ x ∈ t, x.msg.isExecuteOf j = false)
    (hs : ∀ x ∈ t, x.msg.isVoteOn j = true → x.sender ≠ c.self) :
    ∃ v' t', History c w v' t' ∧ t'.map Entry.label = (t.filter (fun x => !x.msg.isVoteOn j)).map Entry.label ∧
      SameButFor c j w' v' := by
  obtain ⟨v', t', h1, h2, h3⟩ := h.aside hw ht hr hx hs
  exact ⟨v', t', h1, h2, h3.sameButFor ((h.later.reachable hr).base hw ht)⟩

/-- Users 10 and 11 vote on two proposals, the stake of 10 changes, which changes their votes on both, and the first proposal
is executed. -/
example : ∃ w' t, Reachable sampleCfg sampleGenesis ∧ History sampleCfg sampleGenesis w' t ∧
    (∀ x ∈ t, x.msg.isExecuteOf 2 = false) ∧ (∀ x ∈ t, x.msg.isVoteOn 2 = true → x.sender ≠ sampleCfg.self) ∧
    (t.filter (fun x => x.msg.isVoteOn 2)).length = 3 ∧ Gov.queryPollVoter w'.gov 2 10 = some ⟨2, 10, .no, 65⟩ ∧
    (∃ m, outcome w' 1 = some m) := by
  have hs : ((traceAll sampleCfg sampleGenesis [stake 10 60, stake 11 40, at_ 2,
      propose 12 [.updateGovConfig sampleChange, .executeMsgs [1, 2]], propose 12 [.updateMetadata 7], at_ 3, vote 10 2 .yes,
      vote 10 1 .yes, vote 11 2 .yes, at_ 5, vote 10 2 .no, vote 11 1 .no, stake 10 5, at_ 20, execute 13 1]).map (fun r =>
        r.2.all (fun x => ! x.msg.isExecuteOf 2 && (! x.msg.isVoteOn 2 || decide (x.sender ≠ sampleCfg.self))) &&
          decide ((r.2.filter (fun x => x.msg.isVoteOn 2)).length = 3 ∧
            Gov.queryPollVoter r.1.gov 2 10 = some ⟨2, 10, .no, 65⟩ ∧ (outcome r.1 1).isSome))) =
      some true := by decide +kernel
  obtain ⟨⟨w', t⟩, h1, h2⟩ := Option.map_eq_some_iff.1 hs
  simp only [Bool.and_eq_true, decide_eq_true_eq] at h2
  refine ⟨w', t, .init sample_genesis, traceAll_history _ .start h1, fun x hx => ?_, fun x hx hm => ?_, h2.2.1, h2.2.2.1,
    Option.isSome_iff_exists.1 h2.2.2.2⟩
  · have := (Bool.and_eq_true _ _ ▸ List.all_eq_true.1 h2.1 x hx).1
    simpa using this
  · have := (Bool.and_eq_true _ _ ▸ List.all_eq_true.1 h2.1 x hx).2
    rw [hm] at this
    exact of_decide_eq_true this

end Verif.Dao
