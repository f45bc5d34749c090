import Verif.Dao.Props20
import Verif.Dao.SimTrace
import Verif.Nft.Props
import Verif.Staking.Props

/-!
# The contracts of a DAO together: what is left to a user who is restricted (C141)
-/

set_option linter.unusedSimpArgs false

namespace Verif.Dao
open Verif
open Verif.Controller (Info Sub PType)

/-! ### Specification -/

/-- Messages that take part in governance: to create a proposal, to vote, to execute a proposal. -/
inductive TakesPart : Msg → Prop
  | propose (p : Controller.Proposal) (f : List (Nat × Nat)) : TakesPart (.ctl (.createProposal p f))
  | proposeNft (p : Controller.Proposal) (l : List Nat) : TakesPart (.ctl (.createWithNft p l))
  | proposeCouncil (p : Controller.Proposal) : TakesPart (.ctl (.createCouncil p))
  | vote (id : Nat) (o : Gov.Outcome) : TakesPart (.ctl (.castVote id o))
  | voteCouncil (id : Nat) (o : Gov.Outcome) : TakesPart (.ctl (.castCouncilVote id o))
  | execute (id : Nat) : TakesPart (.ctl (.execute id))

/-- The user is restricted, as far as the contracts ask during this history. -/
def Throughout (t : List Entry) (u : Addr) : Prop := ∀ x ∈ t, x.ext.restricted u = true

/-- What a user has not done and not gained between two states. -/
structure Idle (u : Addr) (w w' : World) (t : List Entry) : Prop where
  /-- no proposal, vote or execution of theirs -/
  silent : ∀ x ∈ t, x.sender = u → ¬ TakesPart x.msg
  /-- no proposal is theirs that was not before, also not one that came with a deposit of tokens -/
  proposals : ∀ id p, Gov.queryPoll w'.gov id = .ok p → p.proposer = u → ∃ q, Gov.queryPoll w.gov id = .ok q
  /-- no rewards were claimed for them -/
  unpaid : ∀ x ∈ t, ∀ ds ts, x.msg ≠ .dist (.claim u ds ts)
  /-- what they chose on each proposal is as before -/
  choices : ∀ id, choice w' id u = choice w id u
  /-- unless the members are set by proposals, they have not gained weight -/
  weight : w.mem.daoType ≠ .multisig → w'.mem.weight u ≤ w.mem.weight u
  /-- nor has a vote of theirs, beyond the weight that they had -/
  votes : w.mem.daoType ≠ .multisig → ∀ id v, Gov.queryPollVoter w'.gov id u = some v →
    ∃ v0, Gov.queryPollVoter w.gov id u = some v0 ∧ v.amount ≤ max v0.amount (w.mem.weight u)

/-! ### One message -/

/-- A message to the membership contract gives no weight to a restricted user. -/
theorem Member.restricted_gain {x : Member} (hg : x.Good) (ht : x.daoType ≠ .multisig) {e : Nft.NEnv} {m : MemberMsg}
    {r : Member × List Out} (h : x.exec e m = .ok r) {u : Addr} (hu : e.env.restricted u = true) :
    r.1.weight u ≤ x.weight u := by
  cases x with
  | staking k s =>
    cases m with
    | staking m =>
      simp only [Member.exec, bind_ok_iff, pure_ok_iff] at h
      obtain ⟨y, h1, rfl⟩ := h
      exact Staking.restricted_gain hg h1 hu
    | nft m => cases h
    | multisig m => cases h
  | nft s =>
    cases m with
    | staking m => cases h
    | nft m =>
      simp only [Member.exec, bind_ok_iff, pure_ok_iff] at h
      obtain ⟨y, h1, rfl⟩ := h
      by_contra hlt
      have := (Nft.weight_step hg h1 u (Nat.lt_of_not_le hlt)).2.1
      rw [hu] at this; cases this
    | multisig m => cases h
  | multisig s => exact absurd rfl ht

/-- Who proposes is not restricted. -/
theorem create_proposer {e : Controller.Env} {a : Addr} {s : Controller.State} {g : Gov.State} {m : Controller.Msg}
    (hm : m.isCreate = true) {r : Controller.State × Gov.State × List Sub} (h : Controller.exec e a s g m = .ok r) :
    ∃ cp, e.restricted cp.proposer = false ∧ Gov.createPoll g e.block.time cp = .ok r.2.1 := by
  have gen : ∀ {p : Controller.Proposal} {d : Option Controller.Deposit} {u : Addr} {r : Controller.State × Gov.State},
      Controller.createProposal e s g p d u = .ok r →
      ∃ cp, e.restricted cp.proposer = false ∧ Gov.createPoll g e.block.time cp = .ok r.2 := by
    intro p d u r h
    obtain ⟨h1, _, _, _, _, h2, _⟩ := Controller.createProposal_ok_iff.1 h
    exact ⟨_, h1, h2⟩
  cases m with
  | createProposal p f =>
    simp only [Controller.exec, bind_ok_iff, pure_ok_iff] at h
    obtain ⟨r1, h1, rfl⟩ := h
    exact gen (Controller.createWithFunds_ok h1)
  | createWithNft p l =>
    simp only [Controller.exec] at h
    obtain ⟨_, _, nft, _, _, h4⟩ := Controller.createWithNft_ok_iff.1 h
    exact gen h4
  | createCouncil p =>
    simp only [Controller.exec, bind_ok_iff, pure_ok_iff] at h
    obtain ⟨r1, h1, rfl⟩ := h
    obtain ⟨h1, _, _, _, _, _, _, _, h2, _⟩ := Controller.createCouncil_ok_iff.1 h1
    exact ⟨_, h1, h2⟩
  | receive f a p =>
    simp only [Controller.exec, bind_ok_iff, pure_ok_iff] at h
    obtain ⟨r1, h1, rfl⟩ := h
    obtain ⟨q, _, _, _, h2⟩ := Controller.receive_ok_iff.1 h1
    exact gen h2
  | castVote _ _ => cases hm
  | castCouncilVote _ _ => cases hm
  | execute _ => cases hm
  | weightsChanged _ => cases hm
  | executeActions _ => cases hm
  | deployInitial => cases hm

/-- Who takes part in governance is not restricted. -/
theorem takes_part {c : Cfg} {e : Ext} {w w1 : World} {a : Addr} {m : Msg} {subs : List Item}
    (hr : handle c e w a m = .ok (w1, subs)) (hm : TakesPart m) : e.restricted a = false := by
  have gen : ∀ {p : Controller.Proposal} {d : Option Controller.Deposit} {r : Controller.State × Gov.State},
      Controller.createProposal (c.env e w) w.ctl w.gov p d a = .ok r → e.restricted a = false :=
    fun h => (Controller.createProposal_ok_iff.1 h).1
  cases hm with
  | propose p f =>
    obtain ⟨r, hx⟩ := handle_ctl hr
    have h := hx.exec
    simp only [Controller.exec, bind_ok_iff, pure_ok_iff] at h
    obtain ⟨r1, h1, _⟩ := h
    exact gen (Controller.createWithFunds_ok h1)
  | proposeNft p l =>
    obtain ⟨r, hx⟩ := handle_ctl hr
    have h := hx.exec
    simp only [Controller.exec] at h
    obtain ⟨_, _, nft, _, _, h4⟩ := Controller.createWithNft_ok_iff.1 h
    exact gen h4
  | proposeCouncil p =>
    obtain ⟨r, hx⟩ := handle_ctl hr
    have h := hx.exec
    simp only [Controller.exec, bind_ok_iff, pure_ok_iff] at h
    obtain ⟨r1, h1, _⟩ := h
    exact (Controller.createCouncil_ok_iff.1 h1).1
  | vote id o =>
    obtain ⟨r, hx⟩ := handle_ctl hr
    have h := hx.exec
    simp only [Controller.exec, bind_ok_iff, pure_ok_iff] at h
    obtain ⟨r1, h1, _⟩ := h
    exact (Controller.castVote_ok_iff.1 h1).1
  | voteCouncil id o =>
    obtain ⟨r, hx⟩ := handle_ctl hr
    have h := hx.exec
    simp only [Controller.exec, bind_ok_iff, pure_ok_iff] at h
    obtain ⟨r1, h1, _⟩ := h
    exact (Controller.castCouncilVote_ok_iff.1 h1).1
  | execute id =>
    obtain ⟨r, hx⟩ := handle_ctl hr
    have h := hx.exec
    simp only [Controller.exec] at h
    exact (Controller.executeProposal_ok_iff.1 h).1

/-- A proposal that a message adds is one of a user who is not restricted. -/
theorem Handled.proposer {c : Cfg} (hw : c.Wf) {e : Ext} {w w1 : World} {a : Addr} {m : Msg} {subs : List Item}
    (hb : Base c w) (hk : Known c a m) (hr : handle c e w a m = .ok (w1, subs)) (hh : Handled c w a m w1 subs)
    {id : Nat} {p : Gov.Poll} (hp : w1.gov.polls.get id = some p) (hn : w.gov.polls.get id = none) :
    e.restricted p.proposer = false := by
  have hno : w.ctl.infos.get id = none := by
    cases hi : w.ctl.infos.get id with
    | none => rfl
    | some i =>
      have := hb.ctl.infos id
      rw [Map.has_iff.2 ⟨i, hi⟩] at this
      obtain ⟨q, hq⟩ := Map.has_iff.1 this.symm
      rw [hn] at hq; cases hq
  have hyes : ∃ i, w1.ctl.infos.get id = some i := by
    have := hh.base.ctl.infos id
    rw [Map.has_iff.2 ⟨p, hp⟩] at this
    exact Map.has_iff.1 this
  rcases hh.kind with ⟨_, m', _, rfl, _⟩ | ⟨_, hc, _⟩
  swap
  · obtain ⟨i, hi⟩ := hyes
    rw [hc, hno] at hi; cases hi
  obtain ⟨r, hx⟩ := handle_ctl hr
  have he := hx.exec
  have hworld := hx.world
  simp only at hworld
  have hgov : w1.gov = r.2.1 := by rw [hworld]
  rw [hgov] at hp
  have hcreate : m'.isCreate = true → e.restricted p.proposer = false := by
    intro hm
    obtain ⟨cp, h1, h2⟩ := create_proposer hm he
    obtain ⟨_, _, h3⟩ := Gov.createPoll_ok_iff.1 h2
    rw [h3] at hp
    simp only [Map.get_set] at hp
    split at hp
    · cases hp; exact h1
    · rw [hn] at hp; cases hp
  cases m' with
  | createProposal p f => exact hcreate rfl
  | createWithNft p l => exact hcreate rfl
  | createCouncil p => exact hcreate rfl
  | receive f a p => exact hcreate rfl
  | castVote j o =>
    simp only [Controller.exec, bind_ok_iff, pure_ok_iff] at he
    obtain ⟨r1, h1, rfl⟩ := he
    obtain ⟨_, _, i', q, q', hi', _, hq, _, hg, _⟩ := Controller.castVote_ok_iff.1 h1
    obtain ⟨_, _, p', hp', _, _, _, h2⟩ := Gov.castVote_ok_iff.1 hg
    simp only at hp
    rw [h2] at hp
    simp only [Map.get_set] at hp
    split at hp
    · rename_i hj; rw [hj, hn] at hp'; cases hp'
    · rw [hn] at hp; cases hp
  | castCouncilVote j o =>
    simp only [Controller.exec, bind_ok_iff, pure_ok_iff] at he
    obtain ⟨r1, h1, rfl⟩ := he
    obtain ⟨_, _, _, i', hi', _, _, hg, _⟩ := Controller.castCouncilVote_ok_iff.1 h1
    obtain ⟨_, _, p', hp', _, _, _, h2⟩ := Gov.castVote_ok_iff.1 hg
    simp only at hp
    rw [h2] at hp
    simp only [Map.get_set] at hp
    split at hp
    · rename_i hj; rw [hj, hn] at hp'; cases hp'
    · rw [hn] at hp; cases hp
  | execute j =>
    simp only [Controller.exec] at he
    obtain ⟨_, i', q, _, hq, _, _, _, _, _, rfl⟩ := Controller.executeProposal_ok_iff.1 he
    simp only [Controller.endedPoll, Map.get_set] at hp
    split at hp
    · rename_i hj; rw [hj, hn] at hq; cases hq
    · rw [hn] at hp; cases hp
  | weightsChanged l =>
    simp only [Controller.exec, bind_ok_iff, pure_ok_iff] at he
    obtain ⟨r1, h1, rfl⟩ := he
    rcases Controller.weightsChanged_ok_iff.1 h1 with ⟨_, h2⟩ | ⟨_, h2, _⟩
    · rw [h2, hn] at hp; cases hp
    · exfalso
      rcases hk with hk | ⟨hk, _⟩
      · exact hk.2.1 h2
      · exact hw.membership (h2.symm.trans hk)
  | executeActions j =>
    simp only [Controller.exec, bind_ok_iff, pure_ok_iff] at he
    obtain ⟨r1, _, rfl⟩ := he
    rw [hn] at hp; cases hp
  | deployInitial =>
    simp only [Controller.exec, bind_ok_iff, pure_ok_iff] at he
    obtain ⟨r1, _, rfl⟩ := he
    rw [hn] at hp; cases hp

/-- Weights after one message. -/
theorem Handled.no_gain {c : Cfg} (hw : c.Wf) {e : Ext} {w w1 : World} {a : Addr} {m : Msg} {subs : List Item}
    (hb : Base c w) (hk : Known c a m) (hr : handle c e w a m = .ok (w1, subs)) {u : Addr}
    (hu : e.restricted u = true) (ht : w.mem.daoType ≠ .multisig) : w1.mem.weight u ≤ w.mem.weight u := by
  cases m with
  | mem m =>
    have hs : a = c.self → m.tame = true := by
      intro hs
      rcases hk with hk | ⟨_, hk | ⟨_, hk⟩⟩
      · exact absurd hs hk.1
      · exact hk
      · cases hk
    have hd := hr
    simp only [handle, bind_ok_iff] at hd
    obtain ⟨x, h1, h2⟩ := hd
    have hg := Member.restricted_gain hb.mem.good ht h1 (u := u) hu
    have hm : w1.mem = x.1 := by
      have hrep := Member.exec_ok (e := ⟨c.menv e w a, e.proxy⟩) hb.mem rfl hs h1
      rcases hrep.report with ⟨l, ho, _, _⟩ | ⟨ho, _⟩
      · rw [ho] at h2
        unfold deliver at h2
        rw [if_pos rfl] at h2
        simp only [bind_ok_iff] at h2
        obtain ⟨y, _, d, _, h3⟩ := h2
        cases h3
        rfl
      · cases ho' : x.2 with
        | nil => rw [ho'] at h2; cases h2; rfl
        | cons o l =>
          rw [ho'] at h2 ho
          have := ho o List.mem_cons_self
          cases o with
          | notify h l => exact absurd rfl (this h l)
          | pay _ _ => cases h2; rfl
          | sendNft _ _ => cases h2; rfl
    rw [hm]
    exact hg
  | ctl m =>
    obtain ⟨r, hx⟩ := handle_ctl hr
    have := hx.world
    simp only at this
    rw [this]
  | gov m =>
    simp only [handle, bind_ok_iff, pure_ok_iff] at hr
    obtain ⟨g, _, hr⟩ := hr
    cases hr
    exact le_refl _
  | dist m =>
    simp only [handle, bind_ok_iff, pure_ok_iff] at hr
    obtain ⟨g, _, hr⟩ := hr
    cases hr
    exact le_refl _
  | council m =>
    have hm : a = c.self → (Msg.council m).tame = true := by
      intro hs
      rcases hk with hk | ⟨_, hk | ⟨_, hk⟩⟩
      · exact absurd hs hk.1
      · exact hk
      · cases hk
    have := (handle_council hb.council hm hr).2.1
    simp only at this
    rw [this]

/-! ### Histories -/

theorem Idle.refl {u : Addr} {w w' : World} (hg : w'.gov = w.gov) (hm : w'.mem = w.mem) : Idle u w w' [] := by
  refine ⟨fun x hx => (by cases hx), fun id p hp _ => ⟨p, by rw [← hg]; exact hp⟩, fun x hx => (by cases hx),
    fun id => by unfold choice; rw [hg], fun _ => by rw [hm], fun _ id v hv => ⟨v, by rw [← hg]; exact hv, le_max_left _ _⟩⟩

theorem Idle.trans {u : Addr} {w w1 w2 : World} {t t' : List Entry} (hty : w1.mem.daoType = w.mem.daoType)
    (hterms : ∀ id p q, Gov.queryPoll w.gov id = .ok p → Gov.queryPoll w1.gov id = .ok q → q.terms = p.terms)
    (hterms' : ∀ id p q, Gov.queryPoll w1.gov id = .ok p → Gov.queryPoll w2.gov id = .ok q → q.terms = p.terms)
    (h1 : Idle u w w1 t) (h2 : Idle u w1 w2 t') : Idle u w w2 (t ++ t') := by
  refine ⟨fun x hx => ?_, fun id p hp hpu => ?_, fun x hx => ?_, fun id => (h2.choices id).trans (h1.choices id),
    fun hm => le_trans (h2.weight (by rw [hty]; exact hm)) (h1.weight hm), fun hm id v hv => ?_⟩
  · rcases List.mem_append.1 hx with hx | hx
    · exact h1.silent x hx
    · exact h2.silent x hx
  · obtain ⟨q, hq⟩ := h2.proposals id p hp hpu
    refine h1.proposals id q hq ?_
    have := hterms' id q p hq hp
    have : p.proposer = q.proposer := congrArg Gov.Terms.proposer this
    exact this ▸ hpu
  · rcases List.mem_append.1 hx with hx | hx
    · exact h1.unpaid x hx
    · exact h2.unpaid x hx
  · obtain ⟨v1, k1, k2⟩ := h2.votes (by rw [hty]; exact hm) id v hv
    obtain ⟨v0, k3, k4⟩ := h1.votes hm id v1 k1
    refine ⟨v0, k3, le_trans k2 (max_le k4 ?_)⟩
    exact le_trans (h1.weight hm) (le_max_right _ _)

/-- `Idle` with what composes it. -/
structure IdleStep (u : Addr) (w w' : World) (t : List Entry) : Prop where
  idle : Idle u w w' t
  type : w'.mem.daoType = w.mem.daoType
  terms : ∀ id p, w.gov.polls.get id = some p → ∃ q, w'.gov.polls.get id = some q ∧ q.terms = p.terms

theorem IdleStep.trans {u : Addr} {w w1 w2 : World} {t t' : List Entry} (h1 : IdleStep u w w1 t)
    (h2 : IdleStep u w1 w2 t') : IdleStep u w w2 (t ++ t') := by
  refine ⟨h1.idle.trans h1.type ?_ ?_ h2.idle, h2.type.trans h1.type, fun id p hp => ?_⟩
  · intro id p q hp hq
    obtain ⟨q', k1, k2⟩ := h1.terms id p (Controller.queryPoll_ok_iff.1 hp)
    rw [Controller.queryPoll_ok_iff.1 hq] at k1
    cases k1; exact k2
  · intro id p q hp hq
    obtain ⟨q', k1, k2⟩ := h2.terms id p (Controller.queryPoll_ok_iff.1 hp)
    rw [Controller.queryPoll_ok_iff.1 hq] at k1
    cases k1; exact k2
  · obtain ⟨q, k1, k2⟩ := h1.terms id p hp
    obtain ⟨q', k3, k4⟩ := h2.terms id q k1
    exact ⟨q', k3, k4.trans k2⟩

theorem IdleStep.refl {u : Addr} {w w' : World} (hg : w'.gov = w.gov) (hm : w'.mem = w.mem) : IdleStep u w w' [] :=
  ⟨.refl hg hm, by rw [hm], fun id p hp => ⟨p, by rw [hg]; exact hp, rfl⟩⟩

theorem IdleStep.one {c : Cfg} (hw : c.Wf) {e : Ext} {w w1 : World} {a : Addr} {m : Msg} {subs : List Item}
    (hb : Base c w) (hk : Known c a m) (hr : handle c e w a m = .ok (w1, subs)) (hh : Handled c w a m w1 subs)
    {u : Addr} (hu : e.restricted u = true) : IdleStep u w w1 [⟨w, e, a, m⟩] := by
  have hvote := fun id => Handled.voted hw hb hk hr id u
  refine ⟨⟨?_, ?_, ?_, ?_, fun ht => Handled.no_gain hw hb hk hr hu ht, ?_⟩, hh.type, ?_⟩
  · intro x hx hxu hp
    rw [List.mem_singleton.1 hx] at hxu hp
    have := takes_part hr hp
    simp only at hxu
    rw [hxu, hu] at this; cases this
  · intro id p hp hpu
    cases hg : w.gov.polls.get id with
    | some q => exact ⟨q, Controller.queryPoll_ok_iff.2 hg⟩
    | none =>
      exfalso
      have := Handled.proposer hw hb hk hr hh (Controller.queryPoll_ok_iff.1 hp) hg
      rw [hpu, hu] at this; cases this
  · intro x hx ds ts hm
    rw [List.mem_singleton.1 hx] at hm
    simp only at hm
    subst hm
    simp only [handle, bind_ok_iff, pure_ok_iff] at hr
    obtain ⟨y, h1, _⟩ := hr
    have := (Distributor.claim_ok_iff.1 h1).1
    have hu' : (e.denv a).restricted u = true := hu
    rw [hu'] at this; cases this
  · intro id
    rcases hvote id with ⟨_, hv⟩ | ⟨o, k, _, hab, _⟩ | ⟨mm, rfl, hv⟩
    · unfold choice Gov.queryPollVoter
      rw [hv]
    · have := hab.allowed
      simp only at this
      rw [hu] at this; cases this
    · unfold choice Gov.queryPollVoter
      rw [hv]
      simp [Function.comp_def]
  · intro ht id v hv'
    rcases hvote id with ⟨_, hv⟩ | ⟨o, k, _, hab, _⟩ | ⟨mm, rfl, hv⟩
    · refine ⟨v, ?_, le_max_left _ _⟩
      unfold Gov.queryPollVoter at hv' ⊢
      rw [← hv]; exact hv'
    · have := hab.allowed
      simp only at this
      rw [hu] at this; cases this
    · unfold Gov.queryPollVoter at hv' ⊢
      rw [hv] at hv'
      obtain ⟨v0, hv0, rfl⟩ := Option.map_eq_some_iff.1 hv'
      exact ⟨v0, hv0, le_trans (Handled.no_gain hw hb hk hr hu ht) (le_max_right _ _)⟩
  · intro id p hp
    obtain ⟨q, k1, k2, _⟩ := hh.step.polls id p hp
    exact ⟨q, k1, k2⟩

/-- C141: as long as a user is restricted, nothing that happens in the DAO is a proposal, a vote or an execution of theirs; no
proposal is made in their name and no rewards are paid to them; their votes stay as they chose before; and unless the members
are set by proposals, neither their weight nor a vote of theirs grows. -/
theorem C141_idle {c : Cfg} (hw : c.Wf) (ht : c.Tame) {w w' : World} {t : List Entry} (hr : Reachable c w)
    (h : History c w w' t) {u : Addr} (hu : Throughout t u) : Idle u w w' t :=
  (h.induct hw ht (P := fun w w' t => Throughout t u → IdleStep u w w' t) (fun w _ => .refl rfl rfl)
    (fun w l _ => .refl rfl rfl) (fun w b _ => .refl rfl rfl)
    (fun _ _ _ _ _ h1 h2 hu => (h1 (fun x hx => hu x (List.mem_append_left _ hx))).trans
      (h2 (fun x hx => hu x (List.mem_append_right _ hx))))
    (fun _ _ _ _ _ _ hb hk hr hh hu => IdleStep.one hw hb hk hr hh (hu _ (List.mem_singleton_self _))) hr hu).idle

/-- The sample's other contracts, with user 10 restricted. -/
def barTen : Ext := { sampleExt with restricted := fun u => decide (u = 10) }

/-- A test for `Throughout`. -/
theorem throughout_of {t : List Entry} {u : Addr} (h : t.all (fun x => x.ext.restricted u) = true) : Throughout t u :=
  fun x hx => List.all_eq_true.1 h x hx

/-- A user who was restricted after voting still decides: the only vote on a proposal is theirs, it counts with what they have
left when they unstake a part, and the proposal passes when somebody else executes it. -/
theorem C141_votes_count : ∃ w w' t, Reachable sampleCfg w ∧ History sampleCfg w w' t ∧ Throughout t 10 ∧
    t.length = 4 ∧ choice w 1 10 = some .yes ∧ w.mem.weight 10 = 60 ∧ w'.mem.weight 10 = 40 ∧ outcome w 1 = none ∧
    (∀ u, u ≠ 10 → choice w' 1 u = none) ∧ outcome w' 1 = some (.passed 0 40) := by
  have hw := sampleRun_reachable [stake 10 60, stake 11 40, at_ 2, propose 12 [.updateGovConfig sampleChange], at_ 3,
    vote 10 1 .yes]
  have hs : ((traceAll sampleCfg (sampleRun [stake 10 60, stake 11 40, at_ 2, propose 12 [.updateGovConfig sampleChange],
      at_ 3, vote 10 1 .yes]) [at_ 4, .tx barTen 10 (.mem (.staking (.unstake 20))),
        .tx barTen 11 (.mem (.staking (.stakeDenom [⟨20, 1⟩] none))), at_ 102, .tx barTen 13 (.ctl (.execute 1))]).map
      (fun r => r.2.all (fun x => x.ext.restricted 10) && decide (r.2.length = 4 ∧ r.1.mem.weight 10 = 40 ∧
        r.1.gov.votes.keys = [Gov.vkey 10 1] ∧ outcome r.1 1 = some (.passed 0 40)))) = some true := by decide +kernel
  obtain ⟨⟨w', t⟩, h1, h2⟩ := Option.map_eq_some_iff.1 hs
  simp only [Bool.and_eq_true, decide_eq_true_eq] at h2
  obtain ⟨h2, h3, h4, h5, h6⟩ := h2
  refine ⟨_, w', t, hw, traceAll_history _ .start h1, throughout_of h2, h3, by decide +kernel, by decide +kernel, h4,
    by decide +kernel, fun u hu => ?_, h6⟩
  unfold choice Gov.queryPollVoter
  cases hv : w'.gov.votes.get (Gov.vkey u 1) with
  | none => rfl
  | some v =>
    exfalso
    have := Map.mem_keys.2 ⟨v, hv⟩
    rw [h5, List.mem_singleton] at this
    exact hu (Gov.vkey_inj.1 this).1

end Verif.Dao
