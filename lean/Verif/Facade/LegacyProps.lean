import Verif.Facade.Props
import Verif.Gov.Props
import Mathlib.Data.List.Forall2

set_option linter.unusedSimpArgs false

/-!
# Facades: DAOs from before the rewrite (C102, C103, C133)
-/

namespace Verif.Facade
open Verif
open Verif.Controller (Action Proposal PStatus PType)
open Verif.Versioning (Version ver)

/-! ### C102: proposals for legacy DAOs -/

/-- A legacy action that asks for the same as an action of today. An upgrade is to the code of a released version: a legacy
DAO becomes the treasury of version 1.0.0 when it is upgraded to that or any later version. -/
inductive Asks (registry : Version → Option Versioning.Info) : Action → LAction → Prop
  | metadata (m) : Asks registry (.updateMetadata m) (.updateMetadata m)
  | config (c) : Asks registry (.updateGovConfig c) (.updateGovConfig c)
  | council (c) : Asks registry (.updateCouncil c) (.updateCouncil c)
  | assets (a d) : Asks registry (.updateAssetWhitelist none a d) (.updateAssetWhitelist a d)
  | nfts (a d) : Asks registry (.updateNftWhitelist none a d) (.updateNftWhitelist a d)
  | funding (r l) : Asks registry (.requestFunding none r l) (.requestFunding r l)
  | rewrite {v i} (h : ver 1 0 0 ≤ v) (hi : registry (ver 1 0 0) = some i) :
      Asks registry (.upgradeDao v) (.upgradeDao i.treasury true)
  | upgrade {v i} (h : v < ver 1 0 0) (hi : registry v = some i) :
      Asks registry (.upgradeDao v) (.upgradeDao i.enterprise false)
  | msgs (l) : Asks registry (.executeMsgs l) (.executeMsgs l)
  | treasury (l) : Asks registry (.executeTreasuryMsgs none l) (.executeMsgs l)
  | enterprise (l) : Asks registry (.executeEnterpriseMsgs l) (.executeMsgs l)
  | multisig (l) : Asks registry (.modifyMultisig l) (.modifyMultisig l)
  | funds (l) : Asks registry (.distributeFunds l) (.distributeFunds l)
  | weight (w) : Asks registry (.updateMinWeight w) (.updateMinWeight w)

theorem toLegacy_asks {registry : Version → Option Versioning.Info} {a : Action} (ha : Local a) (l : LAction) :
    toLegacy registry a = .ok l ↔ Asks registry a l := by
  constructor
  · intro h
    cases a with
    | updateAssetWhitelist r a d => cases ha; cases h; exact .assets _ _
    | updateNftWhitelist r a d => cases ha; cases h; exact .nfts _ _
    | requestFunding r _ l => cases ha; cases h; exact .funding _ _
    | executeTreasuryMsgs r l => cases ha; cases h; exact .treasury _
    | deployTreasury n => cases ha
    | upgradeDao v =>
      change upgradeToLegacy registry v = .ok l at h
      unfold upgradeToLegacy at h
      by_cases hv : ver 1 0 0 ≤ v
      · rw [if_pos hv] at h
        cases hi : registry (ver 1 0 0) with
        | none => rw [hi] at h; cases h
        | some i => rw [hi] at h; cases h; exact .rewrite hv hi
      · rw [if_neg hv] at h
        cases hi : registry v with
        | none => rw [hi] at h; cases h
        | some i => rw [hi] at h; cases h; exact .upgrade (not_le.1 hv) hi
    | _ => cases h; constructor
  · intro h
    cases h with
    | rewrite h hi => simp only [toLegacy, upgradeToLegacy]; rw [if_pos h, hi]
    | upgrade h hi => simp only [toLegacy, upgradeToLegacy]; rw [if_neg (not_le.2 h), hi]
    | _ => rfl

theorem toLegacyAll_asks {registry : Version → Option Versioning.Info} : ∀ (l : List Action), (∀ a ∈ l, Local a) →
    ∀ k, toLegacyAll registry l = .ok k ↔ List.Forall₂ (Asks registry) l k := by
  intro l
  induction l with
  | nil =>
    intro _ k
    constructor
    · intro h; cases h; exact .nil
    · intro h; cases h; rfl
  | cons a t ih =>
    intro hl k
    simp only [toLegacyAll, bind_ok_iff, pure_ok_iff]
    constructor
    · rintro ⟨x, hx, y, hy, rfl⟩
      exact .cons ((toLegacy_asks (hl a List.mem_cons_self) x).1 hx)
        ((ih (fun b hb => hl b (List.mem_cons_of_mem _ hb)) y).1 hy)
    · intro h
      cases h with
      | cons h1 h2 =>
        exact ⟨_, (toLegacy_asks (hl a List.mem_cons_self) _).2 h1, _,
          (ih (fun b hb => hl b (List.mem_cons_of_mem _ hb)) _).2 h2, rfl⟩

/-- The versions released in the versioning contract at an address. -/
def released (c : Chain) (r : Addr) (v : Version) : Option Versioning.Info :=
  match c r with
  | some (.versioning s) => s.versions.get v
  | _ => none

theorem registryAt_eq (c : Chain) (r : Addr) : registryAt c r = released c r := by
  funext v
  unfold registryAt released Versioning.queryVersion
  cases hc : c r with
  | none => rfl
  | some x =>
    cases x with
    | versioning s => cases hv : s.versions.get v <;> simp [hv, Except.toOption]
    | _ => rfl

/-- C102: a proposal without actions for other chains, requested for a legacy DAO, is one message to it, with the same
texts and with actions that ask for the same, in the same order. It is refused exactly if it has an upgrade to a version
that was not released. -/
theorem C102_sent_partial (c : Chain) (r a : Addr) (p : Proposal) (hl : ∀ x ∈ p.actions, Local x) (l : List Adapted1) :
    (adaptCreate1 c r a p = .ok l ↔ ∃ k, l = [(a, .createProposal ⟨p.title, p.description, k⟩)] ∧
      List.Forall₂ (Asks (released c r)) p.actions k) ∧
    (adaptCouncil1 c r a p = .ok l ↔ ∃ k, l = [(a, .createCouncil ⟨p.title, p.description, k⟩)] ∧
      List.Forall₂ (Asks (released c r)) p.actions k) ∧
    ∀ d n, c a = some (.legacy d) → (adaptTokenDeposit1 c r a p n = .ok l ↔ d.info.daoType = .token ∧
      ∃ k, l = [(d.info.membership, .sendProposal a n ⟨p.title, p.description, k⟩)] ∧
        List.Forall₂ (Asks (released c r)) p.actions k) := by
  rw [← registryAt_eq]
  have hm : ∀ m, toLegacyMsg (registryAt c r) p = .ok m ↔
      ∃ k, m = ⟨p.title, p.description, k⟩ ∧ List.Forall₂ (Asks (registryAt c r)) p.actions k := by
    intro m
    unfold toLegacyMsg
    simp only [bind_ok_iff, pure_ok_iff, toLegacyAll_asks p.actions hl]
    constructor
    · rintro ⟨k, hk, rfl⟩; exact ⟨k, rfl, hk⟩
    · rintro ⟨k, rfl, hk⟩; exact ⟨k, hk, rfl⟩
  refine ⟨?_, ?_, fun d n hd => ?_⟩
  · unfold adaptCreate1
    simp only [bind_ok_iff, pure_ok_iff, hm]
    constructor
    · rintro ⟨m, ⟨k, rfl, hk⟩, rfl⟩; exact ⟨k, rfl, hk⟩
    · rintro ⟨k, rfl, hk⟩; exact ⟨_, ⟨k, rfl, hk⟩, rfl⟩
  · unfold adaptCouncil1
    simp only [bind_ok_iff, pure_ok_iff, hm]
    constructor
    · rintro ⟨m, ⟨k, rfl, hk⟩, rfl⟩; exact ⟨k, rfl, hk⟩
    · rintro ⟨k, rfl, hk⟩; exact ⟨_, ⟨k, rfl, hk⟩, rfl⟩
  · unfold adaptTokenDeposit1 legacyInfo
    rw [hd]
    simp only
    rw [ok_bind]
    cases ht : d.info.daoType with
    | token =>
      simp only [bind_ok_iff, pure_ok_iff, hm, true_and]
      constructor
      · rintro ⟨m, ⟨k, rfl, hk⟩, rfl⟩; exact ⟨k, rfl, hk⟩
      · rintro ⟨k, rfl, hk⟩; exact ⟨_, ⟨k, rfl, hk⟩, rfl⟩
    | _ =>
      constructor
      · intro h; cases h
      · rintro ⟨h, _⟩; cases h

/-- A chain with a legacy DAO at 80 and a versioning contract at 90. -/
def smpOld : Chain := fun a =>
  if a = 80 then some (.legacy smpLegacy)
  else if a = 90 then some (.versioning (Versioning.run (Versioning.init 1) []))
  else none

example : (∀ x ∈ ([.requestFunding none 10 [⟨.native 1, 5⟩], .executeMsgs [7]] : List Action), Local x) ∧
    (adaptCreate1 smpOld 90 80 ⟨1, 2, [.requestFunding none 10 [⟨.native 1, 5⟩], .executeMsgs [7]], none⟩).toOption
      = some [(80, .createProposal ⟨1, 2, [.requestFunding 10 [⟨.native 1, 5⟩], .executeMsgs [7]]⟩)] := by
  refine ⟨fun x hx => ?_, by decide +kernel⟩
  simp only [List.mem_cons, List.not_mem_nil, or_false] at hx
  rcases hx with rfl | rfl
  · rfl
  · trivial

/-- C96, for a legacy DAO: the description is what the DAO says of itself; the veto threshold, when it has none, is the
general one. -/
theorem C96_legacy {c : Chain} {a : Addr} {d : Legacy} (h : c a = some (.legacy d)) :
    ∃ r, daoInfo1 c a = .ok r ∧ r.created = d.info.created ∧ r.metadata = d.info.metadata ∧
      r.daoType = d.info.daoType ∧ r.membership = .contract d.info.membership ∧ r.council = d.info.council ∧
      r.factory = d.info.factory ∧ r.distributor = d.info.distributor ∧ r.code = d.info.code ∧
      r.config.quorum = d.info.config.quorum ∧ r.config.threshold = d.info.config.threshold ∧
      r.config.voteDuration = d.info.config.voteDuration ∧ r.config.unlocking = d.info.config.unlocking ∧
      r.config.minDeposit = d.info.config.minDeposit ∧ r.config.early = d.info.config.early ∧
      ∀ q : Gov.Poll, q.threshold = d.info.config.threshold → q.vetoThreshold = d.info.config.veto →
        q.thresholdFor .veto = r.config.veto := by
  refine ⟨_, by unfold daoInfo1 legacyInfo; rw [h]; rfl, rfl, rfl, rfl, rfl, rfl, rfl, rfl, rfl, rfl, rfl, rfl, rfl, rfl, rfl,
    fun q h1 h2 => ?_⟩
  show (if Gov.Outcome.veto = .veto then q.vetoThreshold.getD q.threshold else q.threshold)
    = d.info.config.veto.getD d.info.config.threshold
  rw [if_pos rfl, h1, h2]

example : smpOld 80 = some (.legacy smpLegacy) ∧ (daoInfo1 smpOld 80).toOption.map (·.daoType) = some .token :=
  ⟨rfl, by decide +kernel⟩

/-- C102: an action of a legacy DAO, when it is shown, asks for the same as the one that was proposed through the facade,
unless it is an upgrade or sends messages from the treasury or the enterprise contract, which are one in a legacy DAO. -/
theorem C102_shown_partial {registry : Version → Option Versioning.Info} {a : Action} (ha : Local a) {l : LAction}
    (h : toLegacy registry a = .ok l) :
    (¬ a.Among [.upgradeDao, .executeTreasuryMsgs, .executeEnterpriseMsgs] → fromLegacy l = a) ∧
    (∀ k, a = .executeTreasuryMsgs none k ∨ a = .executeEnterpriseMsgs k → fromLegacy l = .executeMsgs k) := by
  have h := (toLegacy_asks ha l).1 h
  refine ⟨fun h1 => ?_, fun k hk => ?_⟩
  · rw [Controller.among_iff] at h1
    cases h with
    | rewrite => exact absurd (by simp [Controller.Action.type]) h1
    | upgrade => exact absurd (by simp [Controller.Action.type]) h1
    | treasury => exact absurd (by simp [Controller.Action.type]) h1
    | enterprise => exact absurd (by simp [Controller.Action.type]) h1
    | _ => rfl
  · rcases hk with rfl | rfl <;> cases h <;> rfl

example : Local (.updateMinWeight 5) ∧ toLegacy (fun _ => none) (.updateMinWeight 5) = .ok (.updateMinWeight 5) :=
  ⟨trivial, rfl⟩

/-- C102: actions of treasuries on other chains are refused if they deploy one or send messages from one. -/
theorem C102_refused {registry : Version → Option Versioning.Info} (p : Proposal)
    (h : ∃ x ∈ p.actions, (∃ n, x = .deployTreasury n) ∨ ∃ r l, x = .executeTreasuryMsgs (some r) l) :
    ¬ ∃ m, toLegacyMsg registry p = .ok m := by
  rintro ⟨m, hm⟩
  unfold toLegacyMsg at hm
  simp only [bind_ok_iff, pure_ok_iff] at hm
  obtain ⟨k, hk, hm⟩ := hm
  clear hm
  obtain ⟨x, hx, hxx⟩ := h
  revert k hx
  generalize p.actions = acts
  induction acts with
  | nil => intro k _ hx; cases hx
  | cons a t ih =>
    intro k hk hx
    simp only [toLegacyAll, bind_ok_iff, pure_ok_iff] at hk
    obtain ⟨y, hy, z, hz, _⟩ := hk
    rcases List.mem_cons.1 hx with rfl | hx
    · rcases hxx with ⟨n, rfl⟩ | ⟨r, l, rfl⟩ <;> cases hy
    · exact ih z hz hx

example : ∃ x ∈ (⟨1, 2, [.executeMsgs [7], .deployTreasury 0], none⟩ : Proposal).actions,
    (∃ n, x = .deployTreasury n) ∨ ∃ r l, x = .executeTreasuryMsgs (some r) l :=
  ⟨.deployTreasury 0, by decide, .inl ⟨0, rfl⟩⟩

/-- C102, what fails: a proposal about a treasury on another chain is not refused if it changes whitelists or requests
funds. It becomes one about the DAO's own treasury. The owner of the deposit is forgotten. The version that an upgrade is
shown with is not the proposed one. -/
theorem C102_lost_witness :
    (∀ registry r u l, toLegacy registry (.requestFunding (some r) u l) = toLegacy registry (.requestFunding none u l)) ∧
    (∀ registry r a d, toLegacy registry (.updateAssetWhitelist (some r) a d)
      = toLegacy registry (.updateAssetWhitelist none a d)) ∧
    (∀ registry r a d, toLegacy registry (.updateNftWhitelist (some r) a d)
      = toLegacy registry (.updateNftWhitelist none a d)) ∧
    (∀ registry (p : Proposal) o, toLegacyMsg registry { p with owner := o } = toLegacyMsg registry p) ∧
    (∀ registry v l, toLegacy registry (.upgradeDao v) = .ok l → ver 1 0 0 ≤ v → fromLegacy l ≠ .upgradeDao v) := by
  refine ⟨fun _ _ _ _ => rfl, fun _ _ _ _ => rfl, fun _ _ _ _ => rfl, fun _ _ _ => rfl, fun registry v l h hv hl => ?_⟩
  change upgradeToLegacy registry v = .ok l at h
  unfold upgradeToLegacy at h
  rw [if_pos hv] at h
  split at h
  · cases h
    simp only [fromLegacy, Action.upgradeDao.injEq] at hl
    rw [← hl] at hv
    unfold ver at hv
    rw [Prod.Lex.toLex_le_toLex] at hv
    simp only at hv
    omega
  · cases h

/-- C102: a stake request for a legacy DAO sends the amount of tokens, or each of the NFTs, to the DAO. Whom the stake was
meant for is not passed on. -/
theorem C102_stake {c : Chain} {a : Addr} {d : Legacy} (h : c a = some (.legacy d)) :
    (∀ u n, adaptStake1 c a (.cw20 u n) = .ok [(d.info.membership, .sendStake a n)]) ∧
    (∀ u ts, adaptStake1 c a (.cw721 u ts) = .ok (ts.map (fun t => (d.info.membership, .sendNft a t)))) ∧
    (∀ u n, ¬ ∃ l, adaptStake1 c a (.denom u n) = .ok l) := by
  refine ⟨fun u n => ?_, fun u ts => ?_, fun u n => ?_⟩
  · simp only [adaptStake1, legacyInfo, h]; rfl
  · simp only [adaptStake1, legacyInfo, h]; rfl
  · rintro ⟨l, hl⟩; cases hl

example : smpOld 80 = some (.legacy smpLegacy) := rfl

/-- The requests of members of a legacy DAO other than proposals and stakes. -/
inductive Ask1
  | vote (council : Bool) (id : Nat) (o : Gov.Outcome)
  | execute (id : Nat)
  | unstake (q : UnstakeReq)
  | claim
  | denomDeposit
  | nftDeposit

/-- What the facade answers to them, facade_v1.rs 328-334, 364-370, 386-420, 472-495. -/
def adapt1 (a : Addr) : Ask1 → Except Err (List Adapted1)
  | .vote false id o => .ok (adaptVote1 a id o)
  | .vote true id o => .ok (adaptCouncilVote1 a id o)
  | .execute id => .ok (adaptExecute1 a id)
  | .unstake q => adaptUnstake1 a q
  | .claim => .ok (adaptClaim1 a)
  | .denomDeposit | .nftDeposit => adaptDeposit1

/-- What a legacy DAO is asked for by a message to it: `ExecuteV1Msg`, v1_structs.rs 356-380. -/
def Asked : Call1 → Ask1 → Prop
  | .castVote id o, q => q = .vote false id o
  | .castCouncilVote id o, q => q = .vote true id o
  | .execute id, q => q = .execute id
  | .unstakeCw20 n, q => q = .unstake (.cw20 n)
  | .unstakeCw721 l, q => q = .unstake (.cw721 l)
  | .claim, q => q = .claim
  | _, _ => False

/-- C102: a vote, an execution, an unstaking or a claim, requested for a legacy DAO, is one message to the DAO that asks
for that and nothing else, so that no two requests become the same message. Refused is exactly what such DAOs do not have:
stakes and deposits of coins, deposits of NFTs. -/
theorem C102_asked (a : Addr) (q : Ask1) :
    (∀ l, adapt1 a q = .ok l → ∃ m, l = [(a, m)] ∧ ∀ q', Asked m q' ↔ q' = q) ∧
    ((¬ ∃ l, adapt1 a q = .ok l) ↔ (∃ n, q = .unstake (.denom n)) ∨ q = .denomDeposit ∨ q = .nftDeposit) := by
  rcases q with ⟨_ | _, id, o⟩ | id | (n | l | n) | _ | _ | _
  all_goals
    constructor
    · intro l hl
      first
      | (cases hl; exact ⟨_, rfl, fun q' => Iff.rfl⟩)
      | cases hl
    · first
      | exact ⟨fun h => absurd ⟨_, rfl⟩ h, fun h => by rcases h with ⟨n, h⟩ | h | h <;> cases h⟩
      | exact ⟨fun _ => .inl ⟨_, rfl⟩, fun _ h => by obtain ⟨l, h⟩ := h; cases h⟩
      | exact ⟨fun _ => .inr (.inl rfl), fun _ h => by obtain ⟨l, h⟩ := h; cases h⟩
      | exact ⟨fun _ => .inr (.inr rfl), fun _ h => by obtain ⟨l, h⟩ := h; cases h⟩

example : adapt1 80 (.vote true 3 .no) = .ok [(80, .castCouncilVote 3 .no)] ∧
    ∃ q : Ask1, ¬ ∃ l, adapt1 80 q = .ok l := ⟨rfl, .nftDeposit, by rintro ⟨l, h⟩; cases h⟩

/-! ### C103: statuses of proposals of legacy DAOs -/

/-- The numbers of votes for, against, abstaining and vetoing. -/
structure Counts (r : Map Nat Nat) (y n a v : Nat) : Prop where
  known : ∀ k, r.has k = true → k < 4
  yes : (r.get 0).getD 0 = y
  no : (r.get 1).getD 0 = n
  abstain : (r.get 2).getD 0 = a
  veto : (r.get 3).getD 0 = v
  fits : y + n + a + v < 2 ^ 128

/-- The status that a proposal in progress is to be shown with, by the published rule. -/
def shown (now ends : Nat) (mayEndEarly : Bool) (rule : Gov.Status) : PStatus :=
  if ends ≤ now then
    match rule with
    | .passed _ _ => .passed
    | _ => .rejected
  else if mayEndEarly then
    match rule with
    | .passed _ _ => .canExecuteEarly
    | .rejected .isRejectingOutcome => .canExecuteEarly
    | .rejected .isVetoOutcome => .canExecuteEarly
    | _ => .inProgress
  else .inProgress

theorem rule_ends {y n a v q t m e : Nat} {k : Option Nat} : Gov.ruleStatus y n a v q t k m ≠ .inProgress e := by
  unfold Gov.ruleStatus
  simp only
  split_ifs <;> simp

theorem resolve_rule {r : FResponse} {k : FacadeConfig} {t y n a v : Nat} (ht : r.expires = .time t)
    (hc : Counts r.results y n a v) :
    resolveStatus r k = .ok (Gov.ruleStatus y n a v k.quorum k.threshold (some k.veto) r.totalVotes) := by
  unfold resolveStatus
  rw [ht]
  simp only
  congr 1
  refine Gov.finalStatus_eq_rule (p := ⟨r.id, r.proposer.getD 0, 0, r.title, r.description, .inProgress t, r.startedAt, t,
    k.quorum, k.threshold, some k.veto, r.results⟩) hc.yes hc.no hc.abstain hc.veto ?_ hc.fits
  rw [Gov.totalVotes_eq_mod, Gov.sum_four hc.known]
  simp only [hc.yes, hc.no, hc.abstain, hc.veto]
  exact Nat.mod_eq_of_lt hc.fits

/-- The status that a legacy DAO reports, in the words of the facade. -/
def told : LStatus → PStatus
  | .inProgress => .inProgress
  | .passed => .passed
  | .rejected => .rejected
  | .executed => .executed

theorem told_eq (x : LStatus) : told x = x.toStatus := by cases x <;> rfl

/-- C103: a legacy proposal is shown with the status that its DAO reports, unless that is "in progress". Then it is
shown by the published rule, from its votes, with the rules of the DAO. This is proved unless voting would end in a draw
now, and for the proposals that these rules are meant for, the general ones. -/
theorem C103_status_partial {c : Chain} {x : Addr} {d : Legacy} (hx : c x = some (.legacy d)) {id : Nat} {r : LResponse}
    (hr : d.proposal id = some r) {t y n a v : Nat} (ht : r.expires = .time t) (hc : Counts r.results y n a v) (b : Block) :
    (r.status ≠ .inProgress → proposalStatus1 b c x id = .ok (told r.status)) ∧
    (r.status = .inProgress → r.type = .general →
      let k := d.info.config
      let rule := Gov.ruleStatus y n a v k.quorum k.threshold k.veto r.totalVotes
      (b.time < t → ∀ p q m, rule ≠ .rejected (.outcomeDraw p q m)) →
      proposalStatus1 b c x id = .ok (shown b.time t k.early rule)) := by
  rw [told_eq]
  obtain ⟨i, hi, hic⟩ : ∃ i, daoInfo1 c x = .ok i ∧ i.config = d.info.config.facade := by
    unfold daoInfo1 legacyInfo
    rw [hx]
    exact ⟨_, rfl, rfl⟩
  have hq : proposalStatus1 b c x id = (legacyStatus b r.convert d.info.config.facade) := by
    unfold proposalStatus1 proposal1 legacyAt
    rw [hx]
    simp only
    rw [ok_bind, hr]
    simp only [orFail]
    rw [ok_bind, hi, ok_bind, hic]
    unfold fixResponse
    cases legacyStatus b r.convert d.info.config.facade <;> rfl
  have hrule : resolveStatus r.convert d.info.config.facade = .ok
      (Gov.ruleStatus y n a v d.info.config.quorum d.info.config.threshold d.info.config.veto r.totalVotes) := by
    rw [resolve_rule (r := r.convert) (t := t) ht hc]
    congr 1
  rw [hq]
  constructor
  · intro hs
    unfold legacyStatus
    cases hst : r.status with
    | inProgress => exact absurd hst hs
    | _ => simp only [LResponse.convert, hst, LStatus.toStatus]
  · intro hs hg
    simp only
    intro hdraw
    unfold legacyStatus
    have h1 : r.convert.status = .inProgress := by simp only [LResponse.convert, hs, LStatus.toStatus]
    have h2 : r.convert.expires.expired b = decide (t ≤ b.time) := by
      simp only [LResponse.convert, ht, Expiration.expired]
    have h3 : legacyAllowsEarly d.info.config.facade r.convert.type = d.info.config.early := by
      simp only [LResponse.convert, hg, legacyAllowsEarly, LegacyConfig.facade]
    rw [h1]
    simp only
    rw [h2, h3, hrule]
    simp only [ok_bind]
    unfold shown
    have hne := @rule_ends y n a v d.info.config.quorum d.info.config.threshold r.totalVotes
    generalize hst : Gov.ruleStatus y n a v d.info.config.quorum d.info.config.threshold d.info.config.veto r.totalVotes = st
      at hdraw
    by_cases hb : t ≤ b.time
    · rw [if_pos hb, if_pos (decide_eq_true hb)]
      cases st with
      | passed o n => rfl
      | rejected q => rfl
      | inProgress e => exact absurd hst hne
    · rw [if_neg hb, if_neg (by simpa using hb)]
      split
      · cases st with
        | passed o n => rfl
        | inProgress e => rfl
        | rejected q =>
          cases q with
          | outcomeDraw p q m => exact absurd rfl (hdraw (not_le.1 hb) p q m)
          | _ => rfl
      · rfl

/-- The status that a legacy proposal in progress is shown with: as by the published rule, except that a draw is shown as
ready to be executed while voting goes on. -/
def shownLegacy (now ends : Nat) (mayEndEarly : Bool) (rule : Gov.Status) : PStatus :=
  if ends ≤ now then
    match rule with
    | .passed _ _ => .passed
    | _ => .rejected
  else if mayEndEarly then
    match rule with
    | .rejected .quorumNotReached => .inProgress
    | .rejected .thresholdNotReached => .inProgress
    | _ => .canExecuteEarly
  else .inProgress

/-- C103, exactly what is shown: for proposals of both kinds, the rules for general proposals are applied to the votes, a
council proposal may always end early, and a draw counts as ready to be executed.
Missing from C103: draws before the end, and the council's own rules, see `C103_witness`. -/
theorem C103_exact_partial {c : Chain} {x : Addr} {d : Legacy} (hx : c x = some (.legacy d)) {id : Nat} {r : LResponse}
    (hr : d.proposal id = some r) {t y n a v : Nat} (ht : r.expires = .time t) (hc : Counts r.results y n a v) (b : Block) :
    proposalStatus1 b c x id = .ok (if r.status = .inProgress then
      let k := d.info.config
      shownLegacy b.time t (match r.type with | .general => k.early | .council => true)
        (Gov.ruleStatus y n a v k.quorum k.threshold k.veto r.totalVotes)
      else told r.status) := by
  rw [told_eq]
  obtain ⟨i, hi, hic⟩ : ∃ i, daoInfo1 c x = .ok i ∧ i.config = d.info.config.facade := by
    unfold daoInfo1 legacyInfo
    rw [hx]
    exact ⟨_, rfl, rfl⟩
  have hq : proposalStatus1 b c x id = (legacyStatus b r.convert d.info.config.facade) := by
    unfold proposalStatus1 proposal1 legacyAt
    rw [hx]
    simp only
    rw [ok_bind, hr]
    simp only [orFail]
    rw [ok_bind, hi, ok_bind, hic]
    unfold fixResponse
    cases legacyStatus b r.convert d.info.config.facade <;> rfl
  have hrule : resolveStatus r.convert d.info.config.facade = .ok
      (Gov.ruleStatus y n a v d.info.config.quorum d.info.config.threshold d.info.config.veto r.totalVotes) := by
    rw [resolve_rule (r := r.convert) (t := t) ht hc]
    congr 1
  rw [hq]
  by_cases hs : r.status = .inProgress
  · rw [if_pos hs]
    simp only
    unfold legacyStatus
    have h1 : r.convert.status = .inProgress := by simp only [LResponse.convert, hs, LStatus.toStatus]
    have h2 : r.convert.expires.expired b = decide (t ≤ b.time) := by
      simp only [LResponse.convert, ht, Expiration.expired]
    have h3 : legacyAllowsEarly d.info.config.facade r.convert.type =
        (match r.type with | .general => d.info.config.early | .council => true) := by
      cases hk : r.type <;> simp only [LResponse.convert, hk, legacyAllowsEarly, LegacyConfig.facade]
    rw [h1]
    simp only
    rw [h2, h3, hrule]
    simp only [ok_bind]
    unfold shownLegacy
    have hne := @rule_ends y n a v d.info.config.quorum d.info.config.threshold r.totalVotes
    generalize hst : Gov.ruleStatus y n a v d.info.config.quorum d.info.config.threshold d.info.config.veto r.totalVotes = st
    by_cases hb : t ≤ b.time
    · rw [if_pos hb, if_pos (decide_eq_true hb)]
      cases st with
      | passed o n => rfl
      | rejected q => rfl
      | inProgress e => exact absurd hst hne
    · rw [if_neg hb, if_neg (by simpa using hb)]
      split
      all_goals first
        | (cases st with
          | passed o n => rfl
          | inProgress e => exact absurd hst hne
          | rejected q => cases q <;> rfl)
        | (split
           · cases st with
             | passed o n => rfl
             | inProgress e => exact absurd hst hne
             | rejected q => cases q <;> rfl
           · rfl)
  · rw [if_neg hs]
    unfold legacyStatus
    cases hst : r.status with
    | inProgress => exact absurd hst hs
    | _ => simp only [LResponse.convert, hst, LStatus.toStatus]

/-- C103, proposals whose end is not a time: such a proposal in progress is shown as in progress if its height is not
reached and it cannot end early, else the query fails. -/
theorem C103_no_time {c : Chain} {x : Addr} {d : Legacy} (hx : c x = some (.legacy d)) {id : Nat} {r : LResponse}
    (hr : d.proposal id = some r) (ht : ∀ t, r.expires ≠ .time t) (hs : r.status = .inProgress) (b : Block) (st : PStatus) :
    proposalStatus1 b c x id = .ok st ↔ st = .inProgress ∧ (∀ h, r.expires = .height h → b.height < h) ∧
      r.type = .general ∧ d.info.config.early = false := by
  obtain ⟨i, hi, hic⟩ : ∃ i, daoInfo1 c x = .ok i ∧ i.config = d.info.config.facade := by
    unfold daoInfo1 legacyInfo
    rw [hx]
    exact ⟨_, rfl, rfl⟩
  have hq : proposalStatus1 b c x id = (legacyStatus b r.convert d.info.config.facade) := by
    unfold proposalStatus1 proposal1 legacyAt
    rw [hx]
    simp only
    rw [ok_bind, hr]
    simp only [orFail]
    rw [ok_bind, hi, ok_bind, hic]
    unfold fixResponse
    cases legacyStatus b r.convert d.info.config.facade <;> rfl
  have hno : ∃ e, resolveStatus r.convert d.info.config.facade = .error e := by
    unfold resolveStatus
    simp only [LResponse.convert]
    cases he : r.expires with
    | time t => exact absurd he (ht t)
    | _ => exact ⟨_, rfl⟩
  obtain ⟨e, hno⟩ := hno
  have h1 : r.convert.status = .inProgress := by simp only [LResponse.convert, hs, LStatus.toStatus]
  have h2 : r.convert.expires = r.expires := rfl
  have h3 : r.convert.type = r.type := rfl
  rw [hq]
  unfold legacyStatus
  rw [h1]
  simp only
  rw [hno, h2, h3]
  have hfail : ∀ {α : Type} (f : Gov.Status → Except Err α) (y : α), ((Except.error e : Except Err Gov.Status) >>= f) = .ok y ↔ False :=
    fun f y => ⟨fun h => (by cases h), False.elim⟩
  have hp : r.expires.expired b = false ↔ ∀ h, r.expires = .height h → b.height < h := by
    cases he : r.expires with
    | time t => exact absurd he (ht t)
    | height h => simp [Expiration.expired]
    | never => simp [Expiration.expired]
  have hk : legacyAllowsEarly d.info.config.facade r.type = false ↔ r.type = .general ∧ d.info.config.early = false := by
    cases r.type <;> simp [legacyAllowsEarly, LegacyConfig.facade]
  rw [← hp, ← hk]
  cases r.expires.expired b with
  | true => rw [if_pos rfl, hfail]; simp
  | false =>
    rw [if_neg (by decide)]
    cases legacyAllowsEarly d.info.config.facade r.type with
    | true => rw [if_pos rfl, hfail]; simp
    | false =>
      rw [if_neg (by decide), Except.ok.injEq]
      simp [eq_comm]

/-- A legacy proposal on which users vote until 100. -/
def smpVoted (y n : Nat) (t : PType) : LResponse :=
  { type := t, id := 1, proposer := some 10, title := 1, description := 2, status := .inProgress, startedAt := 0,
    expires := .time 100, actions := [], results := (Map.empty.set 0 y).set 1 n, totalVotes := 100 }

/-- The legacy DAO with that proposal, and with a council that needs 90 % of the votes. -/
def smpVotes (y n : Nat) (t : PType) : Legacy :=
  { smpLegacy with
    info := { smpLegacy.info with council := some ⟨[40, 41], [.upgradeDao], ONE / 10 * 9, ONE / 10 * 9⟩ }
    proposal := fun i => if i = 1 then some (smpVoted y n t) else none
    proposals := fun _ _ _ => some [smpVoted y n t] }

/-- The chain with it. -/
def smpVotesAt (y n : Nat) (t : PType) : Chain := fun a => if a = 80 then some (.legacy (smpVotes y n t)) else none

example : smpVotesAt 60 20 .general 80 = some (.legacy (smpVotes 60 20 .general)) ∧
    (smpVotes 60 20 .general).proposal 1 = some (smpVoted 60 20 .general) ∧
    Counts (smpVoted 60 20 .general).results 60 20 0 0 ∧
    proposalStatus1 ⟨5, 50⟩ (smpVotesAt 60 20 .general) 80 1 = .ok .canExecuteEarly ∧
    proposalStatus1 ⟨10, 100⟩ (smpVotesAt 60 20 .general) 80 1 = .ok .passed := by
  refine ⟨rfl, rfl, ⟨fun k hk => ?_, by decide +kernel, by decide +kernel, by decide +kernel, by decide +kernel,
    by decide⟩, by decide +kernel, by decide +kernel⟩
  obtain ⟨v, hv⟩ := Map.has_iff.1 hk
  simp only [smpVoted, Map.get_set, Map.get_empty] at hv
  split at hv
  · omega
  · split at hv
    · omega
    · cases hv

/-- A proposal that ends at height 9 is in progress at height 8; at height 9 the query fails. -/
example : let p : LResponse := { smpVoted 60 20 .general with expires := .height 9 }
    let c : Chain := fun a => if a = 80 then some (.legacy { smpVotes 60 20 .general with
      info := { (smpVotes 60 20 .general).info with config := { (smpVotes 60 20 .general).info.config with early := false } }
      proposal := fun i => if i = 1 then some p else none }) else none
    proposalStatus1 ⟨8, 50⟩ c 80 1 = .ok .inProgress ∧ (proposalStatus1 ⟨9, 50⟩ c 80 1).isOk = false := by
  decide +kernel

/-- C103, what fails: a draw is shown as ready to be executed although voting goes on, which the current contracts do not
do. A council proposal is shown as passed although the council's own quorum and threshold are not reached. -/
theorem C103_witness :
    (proposalStatus1 ⟨5, 50⟩ (smpVotesAt 50 50 .general) 80 1 = .ok .canExecuteEarly ∧
      shown 50 100 true (Gov.ruleStatus 50 50 0 0 (ONE / 10) (ONE / 2) none 100) = .inProgress) ∧
    (proposalStatus1 ⟨10, 100⟩ (smpVotesAt 60 20 .council) 80 1 = .ok .passed ∧
      shown 100 100 true (Gov.ruleStatus 60 20 0 0 (ONE / 10 * 9) (ONE / 10 * 9) none 100) = .rejected) := by
  refine ⟨⟨by decide +kernel, by decide +kernel⟩, by decide +kernel, by decide +kernel⟩

/-- C103: the list of proposals of a legacy DAO shows each proposal as the query for that proposal does, in the order in
which the DAO lists them. -/
theorem C103_list {c : Chain} {x : Addr} {d : Legacy} (hx : c x = some (.legacy d)) {b : Block}
    {filter : Option Gov.StatusFilter} {after limit : Option Nat} {l : List LResponse}
    (hl : d.proposals filter after limit = some l) (hd : ∀ r ∈ l, d.proposal r.id = some r) {k : List FResponse}
    (hk : proposals1 b c x filter after limit = .ok k) :
    k.map (·.id) = l.map (·.id) ∧ ∀ r ∈ k, proposal1 b c x r.id = .ok r := by
  unfold proposals1 legacyAt at hk
  rw [hx] at hk
  simp only at hk
  rw [ok_bind, hl] at hk
  simp only [orFail] at hk
  rw [ok_bind, bind_ok_iff] at hk
  obtain ⟨i, hi, hk⟩ := hk
  clear hl
  revert k
  induction l with
  | nil => intro k hk; cases hk; exact ⟨rfl, fun r hr => absurd hr List.not_mem_nil⟩
  | cons r t ih =>
    intro k hk
    simp only [fixAll, bind_ok_iff, pure_ok_iff] at hk
    obtain ⟨y, hy, z, hz, rfl⟩ := hk
    obtain ⟨h1, h2⟩ := ih (fun q hq => hd q (List.mem_cons_of_mem _ hq)) hz
    have hid : y.id = r.id := by
      unfold fixResponse at hy
      simp only [bind_ok_iff, pure_ok_iff] at hy
      obtain ⟨_, _, rfl⟩ := hy
      rfl
    refine ⟨by rw [List.map_cons, List.map_cons, h1, hid], fun q hq => ?_⟩
    rcases List.mem_cons.1 hq with rfl | hq
    · unfold proposal1 legacyAt
      rw [hx]
      simp only
      rw [ok_bind, hid, hd r List.mem_cons_self]
      simp only [orFail]
      rw [ok_bind, hi, ok_bind]
      exact hy
    · exact h2 q hq

example : (smpVotes 60 20 .general).proposals none none none = some [smpVoted 60 20 .general] ∧
    (∀ r ∈ [smpVoted 60 20 .general], (smpVotes 60 20 .general).proposal r.id = some r) ∧
    (proposals1 ⟨5, 50⟩ (smpVotesAt 60 20 .general) 80 none none none).toOption.map (·.map (·.status))
      = some [.canExecuteEarly] := by
  refine ⟨rfl, fun r hr => ?_, by decide +kernel⟩
  rw [List.mem_singleton.1 hr]
  rfl

/-! ### C133: what is shown of proposals of legacy DAOs -/

/-- The legacy action, as the facade is to show it: the same, in today's format. What a legacy DAO does, it does on its own
chain, and its versions are the numbers of its codes. -/
inductive ShownAs : LAction → Action → Prop
  | metadata (m) : ShownAs (.updateMetadata m) (.updateMetadata m)
  | config (c) : ShownAs (.updateGovConfig c) (.updateGovConfig c)
  | council (c) : ShownAs (.updateCouncil c) (.updateCouncil c)
  | assets (a d) : ShownAs (.updateAssetWhitelist a d) (.updateAssetWhitelist none a d)
  | nfts (a d) : ShownAs (.updateNftWhitelist a d) (.updateNftWhitelist none a d)
  | funding (r l) : ShownAs (.requestFunding r l) (.requestFunding none r l)
  | upgrade (n m) : ShownAs (.upgradeDao n m) (.upgradeDao (ver 0 n 0))
  | msgs (l) : ShownAs (.executeMsgs l) (.executeMsgs l)
  | multisig (l) : ShownAs (.modifyMultisig l) (.modifyMultisig l)
  | funds (l) : ShownAs (.distributeFunds l) (.distributeFunds l)
  | weight (w) : ShownAs (.updateMinWeight w) (.updateMinWeight w)

/-- Apart from its status, the proposal is shown as its DAO reports it. -/
structure SameContent (r : LResponse) (f : FResponse) : Prop where
  type : f.type = r.type
  id : f.id = r.id
  proposer : f.proposer = r.proposer
  title : f.title = r.title
  description : f.description = r.description
  started : f.startedAt = r.startedAt
  expires : f.expires = r.expires
  actions : List.Forall₂ ShownAs r.actions f.actions
  results : f.results = r.results
  total : f.totalVotes = r.totalVotes

theorem shown_as (l : List LAction) : List.Forall₂ ShownAs l (l.map fromLegacy) := by
  induction l with
  | nil => exact .nil
  | cons a t ih =>
    refine .cons ?_ ih
    cases a <;> constructor

theorem fix_same {b : Block} {r : LResponse} {k : FacadeConfig} {f : FResponse} (h : fixResponse b r.convert k = .ok f) :
    SameContent r f := by
  unfold fixResponse at h
  simp only [bind_ok_iff, pure_ok_iff] at h
  obtain ⟨_, _, rfl⟩ := h
  exact ⟨rfl, rfl, rfl, rfl, rfl, rfl, rfl, shown_as _, rfl, rfl⟩

theorem proposal1_eq {c : Chain} {x : Addr} {d : Legacy} (hx : c x = some (.legacy d)) {id : Nat} {r : LResponse}
    (hr : d.proposal id = some r) (b : Block) :
    proposal1 b c x id = fixResponse b r.convert d.info.config.facade := by
  unfold proposal1 legacyAt daoInfo1 legacyInfo
  rw [hx]
  simp only
  rw [ok_bind, hr]
  rfl

/-- C133: apart from its status, a legacy proposal is shown as its DAO reports it: texts, proposer, times, votes, and each
action, in the same order. -/
theorem C133_content {c : Chain} {x : Addr} {d : Legacy} (hx : c x = some (.legacy d)) {id : Nat} {r : LResponse}
    (hr : d.proposal id = some r) {b : Block} {f : FResponse} (h : proposal1 b c x id = .ok f) : SameContent r f := by
  rw [proposal1_eq hx hr] at h
  exact fix_same h

/-- C133: so are the proposals in a list. -/
theorem C133_listed {c : Chain} {x : Addr} {d : Legacy} (hx : c x = some (.legacy d)) {b : Block}
    {filter : Option Gov.StatusFilter} {after limit : Option Nat} {l : List LResponse}
    (hl : d.proposals filter after limit = some l) {k : List FResponse}
    (hk : proposals1 b c x filter after limit = .ok k) : List.Forall₂ SameContent l k := by
  unfold proposals1 legacyAt at hk
  rw [hx] at hk
  simp only at hk
  rw [ok_bind, hl] at hk
  simp only [orFail] at hk
  rw [ok_bind, bind_ok_iff] at hk
  obtain ⟨i, -, hk⟩ := hk
  clear hl
  revert k
  induction l with
  | nil => intro k hk; cases hk; exact .nil
  | cons r t ih =>
    intro k hk
    simp only [fixAll, bind_ok_iff, pure_ok_iff] at hk
    obtain ⟨y, hy, z, hz, rfl⟩ := hk
    exact .cons (fix_same hy) (ih hz)

/-- C133: a proposal is shown if the DAO knows it and its voting ends at a time, or the DAO reports that it has ended. What
the DAO does not know is not shown. -/
theorem C133_shown {c : Chain} {x : Addr} {d : Legacy} (hx : c x = some (.legacy d)) (b : Block) (id : Nat) :
    (∀ r, d.proposal id = some r → (r.status = .inProgress → ∃ t, r.expires = .time t) →
      ∃ f, proposal1 b c x id = .ok f) ∧
    (d.proposal id = none → ∀ f, proposal1 b c x id ≠ .ok f) := by
  refine ⟨fun r hr ht => ?_, fun hn f h => ?_⟩
  · rw [proposal1_eq hx hr]
    unfold fixResponse
    suffices h : ∃ st, legacyStatus b r.convert d.info.config.facade = .ok st by
      obtain ⟨st, h⟩ := h
      exact ⟨_, by rw [h]; rfl⟩
    unfold legacyStatus
    cases hs : r.status with
    | inProgress =>
      obtain ⟨t, ht⟩ := ht hs
      have hst : r.convert.status = .inProgress := by simp [LResponse.convert, hs, LStatus.toStatus]
      have he : r.convert.expires = .time t := ht
      rw [hst]
      simp only [resolveStatus, he, ok_bind]
      generalize hq : Gov.Poll.finalStatus _ _ = q
      split_ifs
      · cases q with
        | inProgress e => exact absurd hq (Gov.finalStatus_not_inProgress _ _ _)
        | passed o n => exact ⟨_, rfl⟩
        | rejected e => exact ⟨_, rfl⟩
      · exact ⟨_, rfl⟩
      · exact ⟨_, rfl⟩
    | _ =>
      have : r.convert.status = r.status.toStatus := rfl
      rw [this, hs]
      exact ⟨_, rfl⟩
  · unfold proposal1 legacyAt at h
    rw [hx] at h
    simp only at h
    rw [ok_bind, hn] at h
    cases h

/-- A legacy proposal with two actions, to be shown. -/
def smpShown : LResponse :=
  { smpVoted 60 20 .general with actions := [.requestFunding 7 [⟨.native 1, 5⟩], .upgradeDao 12 true] }

/-- The chain with its DAO. -/
def smpShownAt : Chain := fun a =>
  if a = 80 then some (.legacy { smpLegacy with proposal := fun i => if i = 1 then some smpShown else none }) else none

example : (∃ f, proposal1 ⟨5, 50⟩ smpShownAt 80 1 = .ok f ∧ f.title = 1 ∧ f.description = 2 ∧
    f.actions = [.requestFunding none 7 [⟨.native 1, 5⟩], .upgradeDao (ver 0 12 0)]) ∧
    ∀ f, proposal1 ⟨5, 50⟩ smpShownAt 80 2 ≠ .ok f :=
  ⟨⟨_, rfl, rfl, rfl, rfl⟩, (C133_shown (c := smpShownAt) (x := 80) rfl ⟨5, 50⟩ 2).2 rfl⟩

end Verif.Facade
