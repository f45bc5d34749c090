import Verif.Controller.Spec
import Verif.Gov.Lemmas

/-!
# Governance controller: effect of each message
-/

set_option linter.unusedSimpArgs false

namespace Verif.Controller
open Verif
open Verif.Staking (Duration At)

/-! ### Validation -/

theorem fraction_ok_iff {d : Nat} {u : Unit} : fraction d = .ok u ↔ Fraction d := by
  unfold fraction Fraction ONE
  by_cases h : 10 ^ 18 < d ∨ d = 0
  · rw [if_pos h]
    constructor
    · intro h; cases h
    · intro h1; omega
  · rw [if_neg h]
    constructor
    · intro _; omega
    · intro _; rfl

theorem validateVeto_ok_iff {v : Option Nat} {u : Unit} : validateVeto v = .ok u ↔ ∀ x, v = some x → Fraction x := by
  cases v with
  | none => exact ⟨fun _ x hx => (by cases hx), fun _ => rfl⟩
  | some y =>
    refine ⟨fun h x hx => ?_, fun h => fraction_ok_iff.2 (h y rfl)⟩
    cases hx
    exact fraction_ok_iff.1 h

theorem validateConfig_ok_iff {t : DaoType} {c : GovConfig} {u : Unit} :
    validateConfig t c = .ok u ↔ ValidConfig t c := by
  unfold validateConfig
  rw [ite_ok_iff]
  simp only [bind_ok_iff, fraction_ok_iff, validateVeto_ok_iff, ite_ok_iff]
  constructor
  · rintro ⟨h1, _, h2, _, h3, _, h4, h5, _⟩
    refine ⟨h2, h3, h4, by omega, fun ht => ?_⟩
    cases hd : c.minDeposit with
    | none => rfl
    | some x => exact absurd ⟨by rw [hd]; rfl, ht⟩ h5
  · rintro ⟨h1, h2, h3, h4, h5⟩
    refine ⟨by omega, (), h1, (), h2, (), h3, ?_, trivial⟩
    rintro ⟨h6, h7⟩
    rw [h5 h7] at h6
    cases h6

theorem isOf_iff {a : Action} {k : ActionType} : a.IsOf k ↔ a.type = k := by
  constructor
  · intro h; cases h <;> rfl
  · rintro rfl; cases a <;> constructor

theorem among_iff {a : Action} {l : List ActionType} : a.Among l ↔ a.type ∈ l := by
  unfold Action.Among
  simp only [isOf_iff, exists_eq_right']

theorem councilAllowed_iff (a : ActionType) : a.councilAllowed = true ↔ a ∈ harmless := by
  cases a <;> decide

theorem validateAllowed_ok_iff {l : Option (List ActionType)} {u : Unit} :
    validateAllowed l = .ok u ↔ ∀ x, l = some x → ∀ a ∈ x, a ∈ harmless := by
  cases l with
  | none => exact ⟨fun _ x hx => (by cases hx), fun _ => rfl⟩
  | some y =>
    unfold validateAllowed
    by_cases h : y.all ActionType.councilAllowed = true
    · simp only [h, if_true, true_iff]
      intro x hx a ha
      cases hx
      exact (councilAllowed_iff a).1 (List.all_eq_true.1 h a ha)
    · simp only [h, if_false]
      constructor
      · intro h; cases h
      · intro h1
        exact absurd (List.all_eq_true.2 (fun a ha => (councilAllowed_iff a).2 (h1 y rfl a ha))) h

/-- The council configuration stored for a council. -/
def CouncilSpec.config (c : CouncilSpec) : CouncilConfig := ⟨c.allowed.getD [.upgradeDao], c.quorum, c.threshold⟩

theorem validateCouncil_ok_iff {c : Option CouncilSpec} {r : Option CouncilConfig} :
    validateCouncil c = .ok r ↔
      (∀ x, c = some x → x.members.Nodup ∧ ValidCouncil x.config) ∧ r = c.map CouncilSpec.config := by
  cases c with
  | none =>
    constructor
    · intro h; cases h; exact ⟨fun x hx => (by cases hx), rfl⟩
    · rintro ⟨_, rfl⟩; rfl
  | some x =>
    unfold validateCouncil
    rw [ite_ok_iff]
    simp only [bind_ok_iff, fraction_ok_iff, validateAllowed_ok_iff, pure_ok_iff]
    constructor
    · rintro ⟨h1, _, h2, _, h3, _, h4, rfl⟩
      refine ⟨fun y hy => ?_, rfl⟩
      cases hy
      refine ⟨Classical.not_not.1 h1, h3, h4, ?_⟩
      intro a ha
      unfold CouncilSpec.config at ha
      cases hl : x.allowed with
      | none =>
        rw [hl] at ha
        simp only [Option.getD_none, List.mem_singleton] at ha
        rw [ha]; decide
      | some l =>
        rw [hl] at ha
        exact h2 l hl a ha
    · rintro ⟨h, rfl⟩
      obtain ⟨h1, h2⟩ := h x rfl
      refine ⟨fun hn => hn h1, (), ?_, (), h2.quorum, (), h2.threshold, rfl⟩
      intro l hl a ha
      apply h2.allowed
      unfold CouncilSpec.config
      rw [hl]
      exact ha

theorem validateEach_ok_iff {e : Env} {cfg : GovConfig} (l : List Action) {u : Unit} :
    validateEach e cfg l = .ok u ↔ ∀ a ∈ l, validateAction e cfg a = .ok () := by
  induction l with
  | nil => exact ⟨fun _ a ha => (by cases ha), fun _ => rfl⟩
  | cons b t ih =>
    unfold validateEach
    rw [bind_ok_iff]
    constructor
    · rintro ⟨_, h1, h2⟩ a ha
      rcases List.mem_cons.1 ha with rfl | ha
      · exact h1
      · exact ih.1 h2 a ha
    · intro h
      exact ⟨(), h b List.mem_cons_self, ih.2 (fun a ha => h a (List.mem_cons_of_mem _ ha))⟩

theorem validateActions_ok_iff {e : Env} {cfg : GovConfig} {l : List Action} {u : Unit} :
    validateActions e cfg l = .ok u ↔ l.length ≤ 10 ∧ ∀ a ∈ l, validateAction e cfg a = .ok () := by
  unfold validateActions
  rw [ite_ok_iff, validateEach_ok_iff]
  exact ⟨fun ⟨h1, h2⟩ => ⟨by omega, h2⟩, fun ⟨h1, h2⟩ => ⟨by omega, h2⟩⟩

theorem unrestricted_ok_iff {e : Env} {u : Addr} {x : Unit} : unrestricted e u = .ok x ↔ e.restricted u = false := by
  unfold unrestricted
  cases e.restricted u <;> simp

theorem sufficient_ok_iff {cfg : GovConfig} {d : Option Deposit} {w : Nat} {x : Unit} :
    sufficient cfg d w = .ok x ↔
      (cfg.minDeposit = none ∧ w ≠ 0) ∨ (∃ r, cfg.minDeposit = some r ∧ r ≤ (d.map Deposit.amount).getD 0) := by
  unfold sufficient
  cases cfg.minDeposit with
  | none => by_cases h : w = 0 <;> simp [h]
  | some r =>
    cases d with
    | none => by_cases h : r ≤ 0 <;> simp [h] <;> omega
    | some y => by_cases h : r ≤ y.amount <;> simp [h]

/-! ### Creation -/

/-- The terms under which a poll is created. -/
def terms (e : Env) (cfg : GovConfig) (p : Proposal) (proposer : Addr) : Gov.CreateParams :=
  { proposer, deposit := 0, label := p.title, description := p.description,
    endsAt := plusSeconds e.block.time cfg.voteDuration, quorum := cfg.quorum, threshold := cfg.threshold,
    vetoThreshold := cfg.veto }

/-- The state after the creation of a proposal. -/
def State.added (s : State) (id : Nat) (i : Info) : State := { s with creating := none, infos := s.infos.set id i }

theorem createPoll_ok_iff {e : Env} {s : State} {g : Gov.State} {cfg : GovConfig} {p : Proposal} {d : Option Deposit}
    {t : PType} {u : Addr} {r : State × Gov.State} :
    createPoll e s g cfg p d t u = .ok r ↔
      e.self = g.admin ∧ Gov.createPoll g e.block.time (terms e cfg p u) = .ok r.2 ∧
        r.1 = s.added r.2.pollCount ⟨t, none, none, d, p.actions⟩ := by
  unfold createPoll Gov.exec
  simp only [bind_ok_iff, pure_ok_iff, ite_ok_iff]
  constructor
  · rintro ⟨g1, ⟨h1, h2⟩, s2, h3, rfl⟩
    refine ⟨Classical.not_not.1 h1, h2, ?_⟩
    cases h3
    rfl
  · rintro ⟨h1, h2, h3⟩
    exact ⟨r.2, ⟨fun h => h h1, h2⟩, r.1, by rw [h3]; rfl, rfl⟩

theorem createProposal_ok_iff {e : Env} {s : State} {g : Gov.State} {p : Proposal} {d : Option Deposit}
    {u : Addr} {r : State × Gov.State} :
    createProposal e s g p d u = .ok r ↔
      e.restricted u = false ∧
      ((s.config.minDeposit = none ∧ e.weight u ≠ 0) ∨
        (∃ x, s.config.minDeposit = some x ∧ x ≤ (d.map Deposit.amount).getD 0)) ∧
      p.actions.length ≤ 10 ∧ (∀ a ∈ p.actions, validateAction e s.config a = .ok ()) ∧
      e.self = g.admin ∧ Gov.createPoll g e.block.time (terms e s.config p u) = .ok r.2 ∧
      r.1 = s.added r.2.pollCount ⟨.general, none, none, d, p.actions⟩ := by
  unfold createProposal
  simp only [bind_ok_iff, unrestricted_ok_iff, sufficient_ok_iff, validateActions_ok_iff, createPoll_ok_iff]
  constructor
  · rintro ⟨_, h1, _, h2, _, ⟨h3, h4⟩, h5⟩
    exact ⟨h1, h2, h3, h4, h5⟩
  · rintro ⟨h1, h2, h3, h4, h5⟩
    exact ⟨(), h1, (), h2, (), ⟨h3, h4⟩, h5⟩

theorem createCouncil_ok_iff {e : Env} {u : Addr} {s : State} {g : Gov.State} {p : Proposal} {r : State × Gov.State} :
    createCouncil e u s g p = .ok r ↔
      e.restricted u = false ∧ ∃ c, s.council = some c ∧
      p.actions.length ≤ 10 ∧ (∀ a ∈ p.actions, validateAction e s.config a = .ok ()) ∧
      e.councilWeight u ≠ 0 ∧ (∀ a ∈ p.actions, a.type ∈ c.allowed) ∧
      e.self = g.admin ∧
      Gov.createPoll g e.block.time
        (terms e { s.config with quorum := c.quorum, threshold := c.threshold } p u) = .ok r.2 ∧
      r.1 = s.added r.2.pollCount ⟨.council, none, none, none, p.actions⟩ := by
  unfold createCouncil
  rw [bind_ok_iff]
  simp only [unrestricted_ok_iff]
  cases hc : s.council with
  | none =>
    constructor
    · rintro ⟨_, _, h⟩; cases h
    · rintro ⟨_, c, h, _⟩; cases h
  | some c =>
    simp only [bind_ok_iff, validateActions_ok_iff, ite_ok_iff]
    have hall : (p.actions.all (fun a => decide (a.type ∈ c.allowed)) = true) ↔ ∀ a ∈ p.actions, a.type ∈ c.allowed := by
      rw [List.all_eq_true]
      simp
    constructor
    · rintro ⟨_, h1, _, ⟨h2, h3⟩, h4, h5⟩
      by_cases h6 : p.actions.all (fun a => decide (a.type ∈ c.allowed)) = true
      · rw [if_pos h6, createPoll_ok_iff] at h5
        exact ⟨h1, c, rfl, h2, h3, h4, hall.1 h6, h5⟩
      · rw [if_neg h6] at h5; cases h5
    · rintro ⟨h1, c', hc', h2, h3, h4, h5, h6⟩
      cases hc'
      refine ⟨(), h1, (), ⟨h2, h3⟩, h4, ?_⟩
      rw [if_pos (hall.2 h5), createPoll_ok_iff]
      exact h6

theorem takeNfts_ok {e : Env} {nft u : Addr} : ∀ (l : List Nat) {subs : List Sub}, takeNfts e nft u l = .ok subs →
    subs = l.map (.takeNft nft) ∧ ∀ t ∈ l, ∃ o sp, e.owner t = some (o, sp) ∧ (o = u ∨ u ∈ sp) := by
  intro l
  induction l with
  | nil => intro subs h; cases h; exact ⟨rfl, fun t ht => (by cases ht)⟩
  | cons t l ih =>
    intro subs h
    unfold takeNfts at h
    obtain ⟨b, h1, h2⟩ := bind_ok_iff.1 h
    by_cases hb : b = true
    · subst hb
      simp only [if_true, bind_ok_iff, pure_ok_iff] at h2
      obtain ⟨r, h3, rfl⟩ := h2
      obtain ⟨h4, h5⟩ := ih h3
      refine ⟨by rw [h4]; rfl, fun x hx => ?_⟩
      rcases List.mem_cons.1 hx with rfl | hx
      · unfold canDeposit at h1
        cases ho : e.owner x with
        | none => rw [ho] at h1; cases h1
        | some y =>
          rw [ho] at h1
          refine ⟨y.1, y.2, rfl, ?_⟩
          obtain ⟨a, sp⟩ := y
          simp only [Except.ok.injEq, Bool.or_eq_true, decide_eq_true_eq] at h1
          exact h1
      · exact h5 x hx
    · rw [if_neg hb] at h2; cases h2

theorem createWithNft_ok_iff {e : Env} {u : Addr} {s : State} {g : Gov.State} {p : Proposal} {l : List Nat}
    {r : State × Gov.State × List Sub} :
    createWithNft e u s g p l = .ok r ↔
      e.daoType = .nft ∧ l.Nodup ∧ ∃ nft, e.nft = some nft ∧ takeNfts e nft u l = .ok r.2.2 ∧
        createProposal e s g p (some ⟨p.owner.getD u, .cw721 nft l⟩) u = .ok (r.1, r.2.1) := by
  unfold createWithNft
  rw [ite_ok_iff, ite_ok_iff]
  cases hn : e.nft with
  | none =>
    constructor
    · rintro ⟨_, _, h⟩; cases h
    · rintro ⟨_, _, _, h, _⟩; cases h
  | some nft =>
    simp only [bind_ok_iff, pure_ok_iff]
    constructor
    · rintro ⟨h1, h2, subs, h3, x, h4, rfl⟩
      exact ⟨Classical.not_not.1 h1, Classical.not_not.1 h2, nft, rfl, h3, h4⟩
    · rintro ⟨h1, h2, nft', hn', h3, h4⟩
      cases hn'
      exact ⟨fun h => h h1, fun h => h h2, r.2.2, h3, _, h4, rfl⟩

theorem receive_ok_iff {e : Env} {u : Addr} {s : State} {g : Gov.State} {from_ : Addr} {a : Nat} {p : Option Proposal}
    {r : State × Gov.State} :
    receive e u s g from_ a p = .ok r ↔
      ∃ q, p = some q ∧ e.daoType = .token ∧ e.token = some u ∧
        createProposal e s g q (some ⟨q.owner.getD from_, .cw20 u a⟩) from_ = .ok r := by
  unfold receive
  cases p with
  | none =>
    constructor
    · intro h; cases h
    · rintro ⟨_, h, _⟩; cases h
  | some q =>
    cases ht : e.token with
    | none =>
      constructor
      · intro h; cases h
      · rintro ⟨_, _, _, h, _⟩; cases h
    | some t =>
      simp only [ite_ok_iff, not_or, Classical.not_not]
      constructor
      · rintro ⟨⟨h1, h2⟩, h3⟩
        subst h2
        exact ⟨q, rfl, h1, rfl, h3⟩
      · rintro ⟨q', hq, h1, h2, h3⟩
        cases hq; cases h2
        exact ⟨⟨h1, rfl⟩, h3⟩

/-- The deposit that goes along with `CreateProposal`. -/
def fundsDeposit (e : Env) (u : Addr) (f : List (Nat × Nat)) (p : Proposal) : Option Deposit :=
  match e.daoType, e.denom with
  | .denom, some d => (f.find? (fun c => decide (c.1 = d))).map (fun c => ⟨p.owner.getD u, .denom c.1 c.2⟩)
  | _, _ => none

theorem createWithFunds_ok {e : Env} {u : Addr} {f : List (Nat × Nat)} {s : State} {g : Gov.State} {p : Proposal}
    {r : State × Gov.State} (h : createWithFunds e u f s g p = .ok r) :
    createProposal e s g p (fundsDeposit e u f p) u = .ok r := by
  unfold createWithFunds at h
  unfold fundsDeposit
  cases ht : e.daoType with
  | denom =>
    rw [ht] at h
    cases hd : e.denom with
    | none => rw [hd] at h; cases h
    | some d => rw [hd] at h; exact h
  | token => rw [ht] at h; exact h
  | nft => rw [ht] at h; exact h
  | multisig => rw [ht] at h; exact h

/-- What any successful creation does. -/
structure Created (e : Env) (s : State) (g : Gov.State) (s' : State) (g' : Gov.State) (i : Info) (cp : Gov.CreateParams) :
    Prop where
  admin : e.self = g.admin
  poll : Gov.createPoll g e.block.time cp = .ok g'
  state : s' = s.added g'.pollCount i
  fresh : i.executedAt = none
  early : i.earliest = none
  ten : i.actions.length ≤ 10
  council : i.type = .council → i.deposit = none ∧ ∃ c, s.council = some c ∧ ∀ a ∈ i.actions, a.type ∈ c.allowed
  quorum : cp.quorum = s.config.quorum ∨ ∃ c, s.council = some c ∧ cp.quorum = c.quorum
  threshold : cp.threshold = s.config.threshold ∨ ∃ c, s.council = some c ∧ cp.threshold = c.threshold
  veto : cp.vetoThreshold = s.config.veto
  ends : cp.endsAt = plusSeconds e.block.time s.config.voteDuration

theorem created_general {e : Env} {s : State} {g : Gov.State} {p : Proposal} {d : Option Deposit}
    {u : Addr} {r : State × Gov.State} (h : createProposal e s g p d u = .ok r) :
    Created e s g r.1 r.2 ⟨.general, none, none, d, p.actions⟩ (terms e s.config p u) := by
  obtain ⟨_, _, h3, _, h5, h6, h7⟩ := createProposal_ok_iff.1 h
  exact ⟨h5, h6, h7, rfl, rfl, h3, fun h => (by cases h), Or.inl rfl, Or.inl rfl, rfl, rfl⟩

theorem created_council {e : Env} {u : Addr} {s : State} {g : Gov.State} {p : Proposal} {r : State × Gov.State}
    (h : createCouncil e u s g p = .ok r) :
    ∃ cp, Created e s g r.1 r.2 ⟨.council, none, none, none, p.actions⟩ cp := by
  obtain ⟨_, c, hc, h3, _, _, h4, h5, h6, h7⟩ := createCouncil_ok_iff.1 h
  exact ⟨_, h5, h6, h7, rfl, rfl, h3, fun _ => ⟨rfl, c, hc, h4⟩, Or.inr ⟨c, hc, rfl⟩, Or.inr ⟨c, hc, rfl⟩, rfl, rfl⟩

/-- Any message that creates proposals. -/
theorem created_exec {e : Env} {u : Addr} {s : State} {g : Gov.State} {m : Msg} (hm : m.isCreate = true)
    {r : State × Gov.State × List Sub} (h : exec e u s g m = .ok r) :
    ∃ i cp, Created e s g r.1 r.2.1 i cp ∧ ∀ x ∈ r.2.2, ∃ c t, x = .takeNft c t := by
  cases m with
  | createProposal p f =>
    simp only [exec, bind_ok_iff, pure_ok_iff] at h
    obtain ⟨r1, h1, rfl⟩ := h
    exact ⟨_, _, created_general (createWithFunds_ok h1), fun x hx => (by cases hx)⟩
  | createWithNft p l =>
    simp only [exec] at h
    obtain ⟨_, _, nft, _, h3, h4⟩ := createWithNft_ok_iff.1 h
    refine ⟨_, _, created_general h4, fun x hx => ?_⟩
    rw [(takeNfts_ok l h3).1] at hx
    obtain ⟨t, _, rfl⟩ := List.mem_map.1 hx
    exact ⟨nft, t, rfl⟩
  | createCouncil p =>
    simp only [exec, bind_ok_iff, pure_ok_iff] at h
    obtain ⟨r1, h1, rfl⟩ := h
    obtain ⟨cp, hc⟩ := created_council h1
    exact ⟨_, cp, hc, fun x hx => (by cases hx)⟩
  | receive f a p =>
    simp only [exec, bind_ok_iff, pure_ok_iff] at h
    obtain ⟨r1, h1, rfl⟩ := h
    obtain ⟨q, _, _, _, h2⟩ := receive_ok_iff.1 h1
    exact ⟨_, _, created_general h2, fun x hx => (by cases hx)⟩
  | castVote _ _ => cases hm
  | castCouncilVote _ _ => cases hm
  | execute _ => cases hm
  | weightsChanged _ => cases hm
  | executeActions _ => cases hm
  | deployInitial => cases hm

end Verif.Controller
