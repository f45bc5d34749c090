import Verif.Dao.Props19
import Verif.Dao.Props5

/-!
# The contracts of a DAO together: every vote was cast by its voter (C138)
-/

set_option linter.unusedSimpArgs false

namespace Verif.Dao
open Verif
open Verif.Controller (Action Info Sub PType)

/-! ### Specification -/

/-- The option that a message on record chooses for a user on a proposal. -/
def Entry.vote (x : Entry) (id : Nat) (u : Addr) : Option Gov.Outcome :=
  match x.msg with
  | .ctl (.castVote j o) => if j = id ∧ x.sender = u then some o else none
  | .ctl (.castCouncilVote j o) => if j = id ∧ x.sender = u then some o else none
  | _ => none

/-- The options that a user chose on a proposal, in order. -/
def votesCast (t : List Entry) (id : Nat) (u : Addr) : List Gov.Outcome := t.filterMap (·.vote id u)

/-- The weight of a user in the body that decides on proposals of a type: the members, or the council. -/
def standing (w : World) (k : PType) (u : Addr) : Nat :=
  match k with
  | .general => w.mem.weight u
  | .council => Multisig.queryWeight w.council u

/-- The message on record met these conditions: the proposal was open, the sender not restricted and with weight in the body
that decides. -/
structure Able (x : Entry) (id : Nat) (u : Addr) (k : PType) : Prop where
  allowed : x.ext.restricted u = false
  weight : 0 < standing x.world k u
  stored : ∃ i, x.world.ctl.infos.get id = some i ∧ i.type = k
  voting : ∃ p, Gov.queryPoll x.world.gov id = .ok p ∧ p.live ∧ x.world.block.time < p.endsAt

/-- The amount of a vote is the weight of the voter in the body that decides, when a vote of theirs was cast, or their weight
among the members, after a message to the membership contract. -/
def Counted (c : Cfg) (t : List Entry) (id : Nat) (u : Addr) (k : PType) (n : Nat) : Prop :=
  (∃ x ∈ t, (x.vote id u).isSome = true ∧ n = standing x.world k u) ∨
  ∃ x ∈ t, ∃ m w1 subs, x.msg = .mem m ∧ handle c x.ext x.world x.sender x.msg = .ok (w1, subs) ∧ n = w1.mem.weight u

/-! ### One message -/

theorem set_choice {g g' : Gov.State} {now j : Nat} {o : Gov.Outcome} {v : Addr} {n : Nat}
    (h : Gov.castVote g now j o v n = .ok g') (id : Nat) (u : Addr) :
    g'.votes.get (Gov.vkey u id) =
      if j = id ∧ v = u then some ⟨j, v, o, n⟩ else g.votes.get (Gov.vkey u id) := by
  obtain ⟨_, _, p, _, _, _, _, rfl⟩ := Gov.castVote_ok_iff.1 h
  simp only [Map.get_set]
  by_cases hk : j = id ∧ v = u
  · obtain ⟨rfl, rfl⟩ := hk
    simp
  · rw [if_neg hk, if_neg]
    intro hh
    obtain ⟨h1, h2⟩ := Gov.vkey_inj.1 hh
    exact hk ⟨h2, h1⟩

/-- What one message does to a vote: it stays, or it is one of the voter, or it is reweighed by the membership contract. -/
theorem Handled.voted {c : Cfg} (hw : c.Wf) {e : Ext} {w w1 : World} {a : Addr} {m : Msg} {subs : List Item}
    (hb : Base c w) (hk : Known c a m) (hr : handle c e w a m = .ok (w1, subs)) (id : Nat) (u : Addr) :
    (Entry.vote ⟨w, e, a, m⟩ id u = none ∧ w1.gov.votes.get (Gov.vkey u id) = w.gov.votes.get (Gov.vkey u id)) ∨
    (∃ o k, Entry.vote ⟨w, e, a, m⟩ id u = some o ∧ Able ⟨w, e, a, m⟩ id u k ∧
      w1.gov.votes.get (Gov.vkey u id) = some ⟨id, u, o, standing w k u⟩) ∨
    (∃ mm, m = .mem mm ∧ w1.gov.votes.get (Gov.vkey u id) =
      (w.gov.votes.get (Gov.vkey u id)).map (fun v => { v with amount := w1.mem.weight u })) := by
  cases m with
  | mem m =>
    have hs : a = c.self → m.tame = true := by
      intro hs
      rcases hk with hk | ⟨_, hk | ⟨_, hk⟩⟩
      · exact absurd hs hk.1
      · exact hk
      · cases hk
    have hm := handle_mem hw hb.mem hs hr
    have hblk : w1.block = w.block := by have := hm.same; simp only at this; rw [this]
    rcases hm.gov with ⟨l, e', hx, hl, hu, _⟩ | ⟨hg, _, hmw⟩
    · have hci : CtlInv (c.env e' w1).self (c.env e' w1).daoType (c.env e' w1).block.time w.ctl w.gov := by
        have h1 : (c.env e' w1).daoType = w.mem.daoType := hm.type
        have h2 : (c.env e' w1).block = w.block := hblk
        rw [h1, h2]
        exact hb.ctl
      obtain ⟨k1, k2⟩ := updateAll_votes l hl hci hu hx
      by_cases ho : Gov.openAt w.gov (c.env e' w1).block.time id
      · have := k1 id ho u
        by_cases hin : u ∈ l.map (·.user)
        · rw [if_pos hin] at this
          exact Or.inr (Or.inr ⟨m, rfl, this⟩)
        · rw [if_neg hin] at this
          exact Or.inl ⟨rfl, this⟩
      · exact Or.inl ⟨rfl, k2 id ho u⟩
    · refine Or.inl ⟨rfl, ?_⟩
      have hg : w1.gov = w.gov := hg
      rw [hg]
  | gov m =>
    exfalso
    simp only [handle, bind_ok_iff] at hr
    obtain ⟨g, hg, _⟩ := hr
    unfold Gov.exec at hg
    rw [ite_ok_iff] at hg
    have hadm : a = w.gov.admin := Classical.not_not.1 hg.1
    rw [hb.ctl.gov.admin] at hadm
    rcases hk with hk | ⟨_, hk | ⟨_, hk⟩⟩
    · exact hk.1 hadm
    · cases hk
    · cases hk
  | dist m =>
    simp only [handle, bind_ok_iff, pure_ok_iff] at hr
    obtain ⟨x, _, hr⟩ := hr
    cases hr
    exact Or.inl ⟨rfl, rfl⟩
  | council m =>
    have hm : a = c.self → (Msg.council m).tame = true := by
      intro hs
      rcases hk with hk | ⟨_, hk | ⟨_, hk⟩⟩
      · exact absurd hs hk.1
      · exact hk
      · cases hk
    refine Or.inl ⟨rfl, ?_⟩
    have := (handle_council hb.council hm hr).2.1
    simp only at this
    rw [this]
  | ctl m =>
    obtain ⟨r, hx⟩ := handle_ctl hr
    have he := hx.exec
    have hworld := hx.world
    simp only at hworld
    have hgov : w1.gov = r.2.1 := by rw [hworld]
    rw [hgov]
    have hcreate : m.isCreate = true → r.2.1.votes.get (Gov.vkey u id) = w.gov.votes.get (Gov.vkey u id) := by
      intro hm
      obtain ⟨_, cp, h1, _⟩ := Controller.created_exec hm he
      obtain ⟨_, _, h6⟩ := Gov.createPoll_ok_iff.1 h1.poll
      rw [h6]
    cases m with
    | createProposal p f => exact Or.inl ⟨rfl, hcreate rfl⟩
    | createWithNft p l => exact Or.inl ⟨rfl, hcreate rfl⟩
    | createCouncil p => exact Or.inl ⟨rfl, hcreate rfl⟩
    | receive f a p => exact Or.inl ⟨rfl, hcreate rfl⟩
    | castVote j o =>
      simp only [Controller.exec, bind_ok_iff, pure_ok_iff] at he
      obtain ⟨r1, h1, rfl⟩ := he
      obtain ⟨hres, hwt, i', p, q, hi', hty, hp, _, hg, _⟩ := Controller.castVote_ok_iff.1 h1
      have hset := set_choice hg id u
      obtain ⟨_, _, p', hp', hlive, _, hlt, _⟩ := Gov.castVote_ok_iff.1 hg
      by_cases hju : j = id ∧ a = u
      · rw [if_pos hju] at hset
        obtain ⟨rfl, rfl⟩ := hju
        refine Or.inr (Or.inl ⟨o, .general, by simp [Entry.vote], ⟨hres, Nat.pos_of_ne_zero hwt, ⟨i', hi', hty⟩,
          p', Controller.queryPoll_ok_iff.2 hp', hlive, hlt⟩, hset⟩)
      · rw [if_neg hju] at hset
        exact Or.inl ⟨by simp only [Entry.vote, if_neg hju], hset⟩
    | castCouncilVote j o =>
      simp only [Controller.exec, bind_ok_iff, pure_ok_iff] at he
      obtain ⟨r1, h1, rfl⟩ := he
      obtain ⟨hres, _, hwt, i', hi', hty, _, hg, _⟩ := Controller.castCouncilVote_ok_iff.1 h1
      have hset := set_choice hg id u
      obtain ⟨_, _, p', hp', hlive, _, hlt, _⟩ := Gov.castVote_ok_iff.1 hg
      by_cases hju : j = id ∧ a = u
      · rw [if_pos hju] at hset
        obtain ⟨rfl, rfl⟩ := hju
        refine Or.inr (Or.inl ⟨o, .council, by simp [Entry.vote], ⟨hres, Nat.pos_of_ne_zero hwt, ⟨i', hi', hty⟩,
          p', Controller.queryPoll_ok_iff.2 hp', hlive, hlt⟩, hset⟩)
      · rw [if_neg hju] at hset
        exact Or.inl ⟨by simp only [Entry.vote, if_neg hju], hset⟩
    | execute j =>
      simp only [Controller.exec] at he
      obtain ⟨_, i', p, _, _, _, _, _, _, _, rfl⟩ := Controller.executeProposal_ok_iff.1 he
      exact Or.inl ⟨rfl, rfl⟩
    | weightsChanged l =>
      simp only [Controller.exec, bind_ok_iff, pure_ok_iff] at he
      obtain ⟨r1, h1, rfl⟩ := he
      rcases Controller.weightsChanged_ok_iff.1 h1 with ⟨_, h2⟩ | ⟨_, h2, _⟩
      · exact Or.inl ⟨rfl, by rw [h2]⟩
      · exfalso
        rcases hk with hk | ⟨hk, _⟩
        · exact hk.2.1 h2
        · exact hw.membership (h2.symm.trans hk)
    | executeActions j =>
      simp only [Controller.exec, bind_ok_iff, pure_ok_iff] at he
      obtain ⟨r1, _, rfl⟩ := he
      exact Or.inl ⟨rfl, rfl⟩
    | deployInitial =>
      simp only [Controller.exec, bind_ok_iff, pure_ok_iff] at he
      obtain ⟨r1, _, rfl⟩ := he
      exact Or.inl ⟨rfl, rfl⟩

/-! ### Histories -/

/-- What a record says about the votes of a user on a proposal. -/
structure Recorded (c : Cfg) (id : Nat) (u : Addr) (w w' : World) (t : List Entry) : Prop where
  infos : ∀ i, w.ctl.infos.get id = some i → ∃ i', w'.ctl.infos.get id = some i' ∧ i'.type = i.type
  choice : choice w' id u = (votesCast t id u).getLast?.or (choice w id u)
  able : ∀ x ∈ t, ∀ o, x.vote id u = some o → ∃ i, w'.ctl.infos.get id = some i ∧ Able x id u i.type
  amount : ∀ v, Gov.queryPollVoter w'.gov id u = some v →
    (∃ i, w'.ctl.infos.get id = some i ∧ Counted c t id u i.type v.amount) ∨
    ∃ v0, Gov.queryPollVoter w.gov id u = some v0 ∧ v0.amount = v.amount

theorem Counted.left {c : Cfg} {t t' : List Entry} {id : Nat} {u : Addr} {k : PType} {n : Nat}
    (h : Counted c t id u k n) : Counted c (t ++ t') id u k n := by
  rcases h with ⟨x, hx, h⟩ | ⟨x, hx, h⟩
  · exact Or.inl ⟨x, List.mem_append_left _ hx, h⟩
  · exact Or.inr ⟨x, List.mem_append_left _ hx, h⟩

theorem Counted.right {c : Cfg} {t t' : List Entry} {id : Nat} {u : Addr} {k : PType} {n : Nat}
    (h : Counted c t' id u k n) : Counted c (t ++ t') id u k n := by
  rcases h with ⟨x, hx, h⟩ | ⟨x, hx, h⟩
  · exact Or.inl ⟨x, List.mem_append_right _ hx, h⟩
  · exact Or.inr ⟨x, List.mem_append_right _ hx, h⟩

theorem Recorded.refl (c : Cfg) (id : Nat) (u : Addr) {w w' : World} (hc : w'.ctl = w.ctl) (hg : w'.gov = w.gov) :
    Recorded c id u w w' [] := by
  refine ⟨fun i hi => ⟨i, by rw [hc]; exact hi, rfl⟩, ?_, fun x hx => (by cases hx), fun v hv => Or.inr ⟨v, by rw [← hg]; exact hv, rfl⟩⟩
  unfold Verif.Dao.choice
  rw [hg]
  rfl

theorem Recorded.trans {c : Cfg} {id : Nat} {u : Addr} {w w1 w2 : World} {t t' : List Entry}
    (h1 : Recorded c id u w w1 t) (h2 : Recorded c id u w1 w2 t') : Recorded c id u w w2 (t ++ t') := by
  refine ⟨fun i hi => ?_, ?_, fun x hx o ho => ?_, fun v hv => ?_⟩
  · obtain ⟨i1, k1, k2⟩ := h1.infos i hi
    obtain ⟨i2, k3, k4⟩ := h2.infos i1 k1
    exact ⟨i2, k3, k4.trans k2⟩
  · rw [h2.choice, h1.choice]
    unfold votesCast
    rw [List.filterMap_append, List.getLast?_append, ← Option.or_assoc]
  · rcases List.mem_append.1 hx with hx | hx
    · obtain ⟨i, k1, k2⟩ := h1.able x hx o ho
      obtain ⟨i2, k3, k4⟩ := h2.infos i k1
      exact ⟨i2, k3, by rw [k4]; exact k2⟩
    · exact h2.able x hx o ho
  · rcases h2.amount v hv with ⟨i, k1, k2⟩ | ⟨v1, k1, k2⟩
    · exact Or.inl ⟨i, k1, k2.right⟩
    · rcases h1.amount v1 k1 with ⟨i, k3, k4⟩ | ⟨v0, k3, k4⟩
      · obtain ⟨i2, k5, k6⟩ := h2.infos i k3
        exact Or.inl ⟨i2, k5, by rw [k6, ← k2]; exact k4.left⟩
      · exact Or.inr ⟨v0, k3, k4.trans k2⟩

theorem Recorded.one {c : Cfg} (hw : c.Wf) {e : Ext} {w w1 : World} {a : Addr} {m : Msg} {subs : List Item}
    (hb : Base c w) (hk : Known c a m) (hr : handle c e w a m = .ok (w1, subs)) (hh : Handled c w a m w1 subs)
    (id : Nat) (u : Addr) : Recorded c id u w w1 [⟨w, e, a, m⟩] := by
  have hinf : ∀ i, w.ctl.infos.get id = some i → ∃ i', w1.ctl.infos.get id = some i' ∧ i'.type = i.type := by
    intro i hi
    obtain ⟨i', k1, k2, _⟩ := hh.step.infos id i hi
    exact ⟨i', k1, k2⟩
  rcases Handled.voted hw hb hk hr id u with ⟨h0, hv⟩ | ⟨o, k, h0, hab, hv⟩ | ⟨mm, rfl, hv⟩
  · refine ⟨hinf, ?_, fun x hx o ho => ?_, fun v hv' => Or.inr ⟨v, ?_, rfl⟩⟩
    · unfold votesCast Verif.Dao.choice Gov.queryPollVoter
      rw [hv]
      simp [h0]
    · rw [List.mem_singleton.1 hx, h0] at ho
      cases ho
    · unfold Gov.queryPollVoter at hv' ⊢
      rw [← hv]; exact hv'
  · obtain ⟨i, hi, hik⟩ := hab.stored
    obtain ⟨i', k1, k2⟩ := hinf i hi
    have hk' : i'.type = k := k2.trans hik
    refine ⟨hinf, ?_, fun x hx o ho => ⟨i', k1, ?_⟩, fun v hv' => Or.inl ⟨i', k1, Or.inl ⟨_, List.mem_singleton_self _, ?_, ?_⟩⟩⟩
    · unfold votesCast Verif.Dao.choice Gov.queryPollVoter
      rw [hv]
      simp [h0]
    · rw [List.mem_singleton.1 hx, hk']; exact hab
    · rw [h0]; rfl
    · unfold Gov.queryPollVoter at hv'
      rw [hv] at hv'
      cases hv'
      rw [hk']
  · have h0 : Entry.vote ⟨w, e, a, .mem mm⟩ id u = none := rfl
    refine ⟨hinf, ?_, fun x hx o ho => ?_, fun v hv' => ?_⟩
    · unfold votesCast Verif.Dao.choice Gov.queryPollVoter
      rw [hv]
      simp [h0, Function.comp_def]
    · rw [List.mem_singleton.1 hx, h0] at ho
      cases ho
    · unfold Gov.queryPollVoter at hv'
      rw [hv] at hv'
      cases hg : w.gov.votes.get (Gov.vkey u id) with
      | none => rw [hg] at hv'; cases hv'
      | some v0 =>
        rw [hg] at hv'
        cases hv'
        left
        obtain ⟨hvk, hpos, hle⟩ := hb.ctl.inv.vkeys _ _ hg
        have hid : v0.pollId = id := ((Gov.vkey_inj.1 hvk).2).symm
        rw [hid] at hpos hle
        have hpoll := (hb.ctl.inv.ids id).2 ⟨hpos, hle⟩
        have hhas := hb.ctl.infos id
        rw [Map.has_iff.2 hpoll] at hhas
        obtain ⟨i, hi⟩ := Map.has_iff.1 hhas
        obtain ⟨i', k1, _⟩ := hinf i hi
        exact ⟨i', k1, Or.inr ⟨_, List.mem_singleton_self _, mm, w1, subs, rfl, hr, rfl⟩⟩

theorem History.recorded {c : Cfg} (hw : c.Wf) (ht : c.Tame) {w w' : World} {t : List Entry} (hr : Reachable c w)
    (h : History c w w' t) (id : Nat) (u : Addr) : Recorded c id u w w' t :=
  h.induct hw ht (P := fun w w' t => Recorded c id u w w' t) (fun w => .refl c id u rfl rfl) (fun w l => .refl c id u rfl rfl)
    (fun w b => .refl c id u rfl rfl) (fun _ _ _ _ _ h1 h2 => h1.trans h2)
    (fun _ _ _ _ _ _ hb hk hr hh => Recorded.one hw hb hk hr hh id u) hr

/-- Every reachable state has a history from a new DAO. -/
theorem Reachable.history {c : Cfg} {w : World} (h : Reachable c w) : ∃ w0 t, Genesis c w0 ∧ History c w0 w t := by
  induction h with
  | @init w h => exact ⟨w, [], h, .start⟩
  | tx _ ha hx ih =>
    obtain ⟨w0, t, h0, h1⟩ := ih
    obtain ⟨t', hx⟩ := hx.traced
    exact ⟨w0, _, h0, .tx h1 ha hx⟩
  | block _ hh htm ih =>
    obtain ⟨w0, t, h0, h1⟩ := ih
    exact ⟨w0, _, h0, .block h1 hh htm⟩

/-! ### Proposals that passed have votes for them -/

/-- Proposals that passed have votes for them. -/
def Supported (w : World) : Prop :=
  ∀ id p o n, w.gov.polls.get id = some p → p.status = .passed o n → 0 < p.votesFor .yes

theorem passed_votes {p : Gov.Poll} (hf : 0 < p.threshold) {m o n : Nat} (h : p.finalStatus m = .passed o n) :
    0 < p.votesFor .yes := by
  by_contra hz
  have hz : p.votesFor .yes = 0 := by omega
  have hno : p.thresholdReached .yes = false := by
    unfold Gov.Poll.thresholdReached Gov.Poll.geThreshold
    rw [hz]
    simp only [decide_eq_false_iff_not, not_le]
    have : (checkedFromRatio 0 (wsub128 p.totalVotes (p.votesFor .abstain))).getD 0 = 0 := by
      unfold checkedFromRatio
      simp only [Nat.zero_mul, Nat.zero_div]
      split
      · rfl
      · split <;> rfl
    rw [this]
    exact hf
  unfold Gov.Poll.finalStatus at h
  split at h
  · cases h
  · unfold Gov.Poll.mostVoted at h
    rw [hno] at h
    by_cases hv : p.thresholdReached .veto = true
    · rw [if_pos hv] at h
      simp [Gov.Outcome.idx] at h
    · rw [if_neg hv] at h
      cases hn : p.thresholdReached .no with
      | true => rw [hn] at h; simp [Gov.Outcome.idx] at h
      | false => rw [hn] at h; simp at h

theorem Handled.supported {c : Cfg} {e : Ext} {w w1 : World} {a : Addr} {m : Msg} {subs : List Item}
    (hb : Base c w) (room : w.gov.pollCount + 1 < 2 ^ 64) (hr : handle c e w a m = .ok (w1, subs))
    (hh : Handled c w a m w1 subs) (h : Supported w) : Supported w1 := by
  intro id p o n hp hs
  have hdead : ¬ p.live := by
    rintro ⟨x, hx⟩
    rw [hs] at hx; cases hx
  have hhas := hh.base.ctl.infos id
  rw [Map.has_iff.2 ⟨p, hp⟩] at hhas
  obtain ⟨i, hi⟩ := Map.has_iff.1 hhas
  have hex : i.executedAt ≠ none := fun hn => hdead ((hh.base.ctl.ended id i p hi hp).1 hn)
  have ho : outcome w1 id = some (.passed o n) := by
    rw [outcome_of hi hp, if_pos (Option.isSome_iff_ne_none.2 hex), hs]
  cases h0 : outcome w id with
  | some st =>
    obtain ⟨j, q, hj, hq, hx, _⟩ := outcome_some h0
    have hql : ¬ q.live := by
      intro hl
      rw [(hb.ctl.ended id j q hj hq).2 hl] at hx; cases hx
    obtain ⟨p', k1, _, k2⟩ := hh.step.polls id q hq
    rw [hp] at k1
    cases k1
    have := k2 hql
    subst this
    exact h id _ o n hq hs
  | none =>
    have hm := hh.resolved hb room hr h0 ho
    subst hm
    obtain ⟨r, hx⟩ := handle_ctl hr
    have he := hx.exec
    simp only [Controller.exec] at he
    obtain ⟨_, j, q, hj, hq, _, _, _, _, _, rfl⟩ := Controller.executeProposal_ok_iff.1 he
    have hworld := hx.world
    simp only at hworld
    rw [hworld] at hp
    simp only [Controller.endedPoll, Map.get_set, if_true] at hp
    cases hp
    have := passed_votes (hb.ctl.fair id q hq).2.1.1 hs
    exact this

theorem supported_cases {c : Cfg} : Cases c (fun w _ w' => Supported w → Supported w') := by
  refine ⟨fun _ _ h => h, ?_, ?_, fun _ _ _ _ _ _ h => h, ?_, ?_⟩
  · intro w w1 w2 w3 a m subs rest e hb b2 b3 m2 m3 hk room hr hh p2 p3 h
    exact p3 (p2 (hh.supported hb room hr h))
  · intro w w1 w2 w3 id subs rest e hb b2 b3 m2 m3 room hr hh p2 p3 h
    exact p3 (p2 (hh.supported hb room hr h))
  · intro w w1 w2 id t calls rest hb b1 b2 hc m1 m2 p1 p2 h
    exact p2 (p1 h)
  · intro w w1 w2 calls rest hb b1 b2 hc m1 m2 p1 p2 h
    exact p2 (p1 h)

theorem Reachable.supported {c : Cfg} (hw : c.Wf) (ht : c.Tame) {w : World} (h : Reachable c w) : Supported w := by
  induction h with
  | @init w h =>
    intro id p o n hp
    rw [h.gov] at hp
    cases hp
  | @tx w w1 a m h ha hx ih =>
    obtain ⟨_, _, hl⟩ := hx.induct hw ht supported_cases
      (fun i hi => by rw [List.mem_singleton.1 hi]; exact Or.inl ha) (h.base hw ht)
    exact hl ih
  | @block w b h hh htm ih => exact ih

/-- A tally that is not zero comes from a vote. -/
theorem voter_of_tally {g : Gov.State} (hi : Gov.Inv g) {id : Nat} {p : Gov.Poll} (hp : g.polls.get id = some p)
    {o : Gov.Outcome} (h : 0 < p.votesFor o) : ∃ u v, Gov.queryPollVoter g id u = some v ∧ v.outcome = o := by
  by_contra hno
  push Not at hno
  have hz : Gov.votedSum g id o = 0 := by
    unfold Gov.votedSum
    refine Eq.trans (Map.sum_congr (g := fun _ _ => 0) ?_) (Map.sum_zero _)
    intro k v hv
    rw [if_neg]
    rintro ⟨h1, h2⟩
    obtain ⟨hk, _⟩ := hi.vkeys k v hv
    rw [hk, h1] at hv
    exact hno v.voter v hv h2
  rw [hi.tally id p hp o, hz] at h
  simp at h

/-! ## C138 -/

/-- The choice of a user on a proposal is the last one in the messages that the user sent to vote on it, or the one from
before if the user sent none: nobody votes for anybody else, and nobody's vote is lost or turned. -/
theorem C138_choice {c : Cfg} (hw : c.Wf) (ht : c.Tame) {w w' : World} {t : List Entry} (hr : Reachable c w)
    (h : History c w w' t) (id : Nat) (u : Addr) :
    choice w' id u = (votesCast t id u).getLast?.or (choice w id u) := (h.recorded hw ht hr id u).choice

/-- Each vote on record was cast while voting was open, by a user who was not restricted and who had weight in the body
that decides on the proposal: among the members, or in the council. -/
theorem C138_able {c : Cfg} (hw : c.Wf) (ht : c.Tame) {w w' : World} {t : List Entry} (hr : Reachable c w)
    (h : History c w w' t) {x : Entry} (hx : x ∈ t) {id : Nat} {u : Addr} {o : Gov.Outcome} (hv : x.vote id u = some o) :
    ∃ i, w'.ctl.infos.get id = some i ∧ Able x id u i.type := (h.recorded hw ht hr id u).able x hx o hv

/-- A vote counts with what its voter weighed in that body when a vote was cast, or with what they weighed among the members
after a message to the membership contract. (For council proposals the latter is the violation of C55.) -/
theorem C138_amount {c : Cfg} (hw : c.Wf) (ht : c.Tame) {w w' : World} {t : List Entry} (hg : Genesis c w)
    (h : History c w w' t) {id : Nat} {u : Addr} {v : Gov.Vote} (hv : Gov.queryPollVoter w'.gov id u = some v) :
    ∃ i, w'.ctl.infos.get id = some i ∧ Counted c t id u i.type v.amount := by
  rcases (h.recorded hw ht (.init hg) id u).amount v hv with hc | ⟨v0, h0, _⟩
  · exact hc
  · unfold Gov.queryPollVoter at h0
    rw [hg.gov] at h0
    cases h0

/-- A proposal passes only if somebody voted for it who had weight in the body that decides, a council proposal only if
somebody in the council did. -/
theorem C138_passed {c : Cfg} (hw : c.Wf) (ht : c.Tame) {w w' : World} {t : List Entry} (hg : Genesis c w)
    (h : History c w w' t) {id : Nat} {o n : Nat} (hs : outcome w' id = some (.passed o n)) :
    ∃ x ∈ t, ∃ u i, x.vote id u = some .yes ∧ choice w' id u = some .yes ∧ w'.ctl.infos.get id = some i ∧
      Able x id u i.type := by
  have hr' := h.later.reachable (.init hg)
  obtain ⟨i, p, hi, hp, hx, hst⟩ := outcome_some hs
  have hpos := hr'.supported hw ht id p o n hp hst
  obtain ⟨u, v, hv, hvo⟩ := voter_of_tally (hr'.base hw ht).ctl.inv hp hpos
  have hch : choice w' id u = some .yes := by
    unfold choice
    rw [hv, ← hvo]; rfl
  have hrec := h.recorded hw ht (.init hg) id u
  have h0 : choice w id u = none := by
    unfold choice Gov.queryPollVoter
    rw [hg.gov]; rfl
  have hl := hrec.choice
  rw [hch, h0, Option.or_none] at hl
  have hmem := List.mem_of_getLast? hl.symm
  unfold votesCast at hmem
  obtain ⟨x, hxt, hxv⟩ := List.mem_filterMap.1 hmem
  obtain ⟨j, hj, hab⟩ := hrec.able x hxt _ hxv
  exact ⟨x, hxt, u, j, hxv, hch, hj, hab⟩

/-! ### Examples -/

theorem sample_history (l : List Step) (h : (runAll sampleCfg sampleGenesis l).isSome = true) :
    ∃ t, History sampleCfg sampleGenesis (sampleRun l) t := by
  cases hx : runAll sampleCfg sampleGenesis l with
  | none => rw [hx] at h; cases h
  | some w' =>
    have : sampleRun l = w' := by unfold sampleRun; rw [hx]; rfl
    rw [this]
    exact (runAll_later _ .refl hx).history

/-- A council proposal that passed: one of the council voted for it. -/
example : ∃ t, History sampleCfg sampleGenesis (sampleRun (sampleCouncilVote ++ [stake 40 100, execute 13 1])) t ∧
    (∃ x ∈ t, ∃ u, x.vote 1 u = some .yes ∧ Able x 1 u .council) ∧
    (votesCast t 1 41).getLast? = some .no ∧ votesCast t 1 10 = [] := by
  obtain ⟨t, h⟩ := sample_history (sampleCouncilVote ++ [stake 40 100, execute 13 1]) (by decide +kernel)
  have hs : outcome (sampleRun (sampleCouncilVote ++ [stake 40 100, execute 13 1])) 1 = some (.passed 0 100) := by
    decide +kernel
  obtain ⟨x, hx, u, i, k1, _, k2, k3⟩ := C138_passed sampleCfg_wf sampleCfg_tame sample_genesis h hs
  have hty : ((sampleRun (sampleCouncilVote ++ [stake 40 100, execute 13 1])).ctl.infos.get 1).map (·.type) = some .council := by
    decide +kernel
  rw [k2] at hty
  simp only [Option.map_some, Option.some.injEq] at hty
  rw [hty] at k3
  have hg : Genesis sampleCfg sampleGenesis := sample_genesis
  have none0 : ∀ u, choice sampleGenesis 1 u = none := fun u => rfl
  have h41 := C138_choice sampleCfg_wf sampleCfg_tame (.init hg) h 1 41
  have h10 := C138_choice sampleCfg_wf sampleCfg_tame (.init hg) h 1 10
  rw [none0, Option.or_none] at h41 h10
  refine ⟨t, h, ⟨x, hx, u, k1, k3⟩, h41.symm.trans (by decide +kernel), ?_⟩
  exact List.getLast?_eq_none_iff.1 (h10.symm.trans (by decide +kernel))

end Verif.Dao
