import Verif.Facade.Sample
import Verif.Dao.Props4
import Verif.Pages.Props

set_option linter.unusedSimpArgs false

/-!
# Facades: routing, the description of a DAO, voting power

C95-C98. The sample DAO of the examples is a denom DAO in which users 10 and 11 have staked 60 and 40 coins.
-/

namespace Verif.Facade
open Verif
open Verif.Dao (Member)
open Verif.Versioning (Version ver)

/-! ### Lemmas -/

theorem ok_bind {α β : Type} (a : α) (f : α → Except Err β) : (Except.ok a >>= f) = f a := rfl

theorem components_dao {c : Chain} {e : Addr} {p : Parts} (h : IsDao c e p) : components c e = .ok p.at_ := by
  unfold components enterpriseAt
  rw [h.main]
  simp only [bind, Except.bind]
  rw [h.comps]

theorem enterpriseAt_dao {c : Chain} {e : Addr} {p : Parts} (h : IsDao c e p) : enterpriseAt c e = .ok p.main := by
  unfold enterpriseAt
  rw [h.main]

theorem typeOf_dao {c : Chain} {e : Addr} {p : Parts} (h : IsDao c e p) : typeOf c e = .ok p.member.daoType := by
  unfold typeOf
  rw [enterpriseAt_dao h, ← h.kind]
  rfl

theorem memberAt_dao {c : Chain} {e : Addr} {p : Parts} (h : IsDao c e p) :
    memberAt c p.at_.membership = .ok (p.member, p.proxy) := by
  unfold memberAt
  rw [h.member]

theorem controllerAt_dao {c : Chain} {e : Addr} {p : Parts} (h : IsDao c e p) :
    controllerAt c p.at_.controller = .ok p.ctl := by
  unfold controllerAt
  rw [h.ctl]

/-- Users 10 and 11 of the sample DAO have staked. -/
def smpStaked : Dao.World := Dao.sampleRun [Dao.stake 10 60, Dao.stake 11 40, Dao.at_ 2]

theorem smpStaked_dao : IsDao (sampleChain (sampleSeen smpStaked)) 3 (sampleSeen smpStaked) :=
  sample_isDao _ (by decide +kernel)

/-! ### C95: which DAO is meant -/

/-- C95: an address is resolved exactly as described: legacy DAOs, treasuries whose admin belongs to a DAO, enterprise
contracts with known components, and nothing else. -/
theorem C95_routing (s : Config) (c : Chain) (a : Addr) (t : Target) : getFacade s c a = .ok t ↔ Leads s c a t := by
  constructor
  · intro h
    unfold getFacade legacyInfo at h
    cases hc : c a with
    | none =>
      rw [hc] at h
      simp only [fromTreasury, adminAt, fromEnterprise, components, enterpriseAt, hc, bind, Except.bind] at h
      cases h
    | some x =>
      rw [hc] at h
      cases x with
      | legacy d => simp only at h; cases h; exact .legacy hc
      | treasury tr m =>
        simp only [fromTreasury, adminAt, hc, bind, Except.bind, enterpriseOf] at h
        cases hk : c tr.admin with
        | none =>
          simp only [hk, fromEnterprise, components, enterpriseAt, hc, bind, Except.bind] at h
          cases h
        | some y =>
          cases y with
          | controller k => simp only [hk, pure, Except.pure] at h; cases h; exact .treasury hc hk
          | membership e mb p =>
            cases mb with
            | multisig z => simp only [hk, pure, Except.pure] at h; cases h; exact .multisig hc hk
            | staking k z =>
              simp only [hk, fromEnterprise, components, enterpriseAt, hc, bind, Except.bind] at h
              cases h
            | nft z =>
              simp only [hk, fromEnterprise, components, enterpriseAt, hc, bind, Except.bind] at h
              cases h
          | _ =>
            simp only [hk, fromEnterprise, components, enterpriseAt, hc, bind, Except.bind] at h
            cases h
      | enterprise x =>
        simp only [fromTreasury, adminAt, fromEnterprise, components, enterpriseAt, hc, bind, Except.bind] at h
        cases hk : x.comps with
        | none => rw [hk] at h; cases h
        | some k => rw [hk] at h; simp only [pure, Except.pure] at h; cases h; exact .enterprise hc hk
      | _ =>
        simp only [fromTreasury, adminAt, fromEnterprise, components, enterpriseAt, hc, bind, Except.bind] at h
        cases h
  · intro h
    cases h with
    | legacy h => simp only [getFacade, legacyInfo, h]
    | treasury h hk =>
      simp only [getFacade, legacyInfo, fromTreasury, adminAt, enterpriseOf, h, hk, bind, Except.bind, pure, Except.pure]
    | multisig h hk =>
      simp only [getFacade, legacyInfo, fromTreasury, adminAt, enterpriseOf, h, hk, bind, Except.bind, pure, Except.pure]
    | enterprise h hk =>
      simp only [getFacade, legacyInfo, fromTreasury, adminAt, fromEnterprise, components, enterpriseAt, h, hk, bind,
        Except.bind, pure, Except.pure]

/-- The treasury (4) and the enterprise contract (3) of the sample DAO lead to it, another address (50) leads nowhere. -/
example : Leads ⟨100, 101⟩ (sampleChain (sampleSeen smpStaked)) 4 ⟨101, 3⟩ ∧
    Leads ⟨100, 101⟩ (sampleChain (sampleSeen smpStaked)) 3 ⟨101, 3⟩ ∧
    ¬ ∃ t, getFacade ⟨100, 101⟩ (sampleChain (sampleSeen smpStaked)) 50 = .ok t := by
  refine ⟨.treasury (k := (sampleSeen smpStaked).ctl) rfl rfl, .enterprise rfl rfl, ?_⟩
  rintro ⟨t, ht⟩
  cases ht

/-- C95: every query gets the same answer whether the DAO is named by its treasury or by its enterprise contract, and it
is the answer of the current facade about that enterprise contract. -/
theorem C95_same_dao {c : Chain} {e : Addr} {p : Parts} (h : IsDao c e p) (s : Config) {α : Type}
    (ask : Addr → Addr → Except Err α) :
    forward s c ask p.at_.treasury = ask s.v2 e ∧ forward s c ask e = ask s.v2 e := by
  have h1 : getFacade s c p.at_.treasury = .ok ⟨s.v2, e⟩ := by
    rw [C95_routing, ← h.owner]
    exact .treasury h.treasury (by rw [h.admin]; exact h.ctl)
  have h2 : getFacade s c e = .ok ⟨s.v2, e⟩ := (C95_routing s c e _).2 (.enterprise h.main h.comps)
  unfold forward
  rw [h1, h2]
  exact ⟨rfl, rfl⟩

example : IsDao (sampleChain (sampleSeen smpStaked)) 3 (sampleSeen smpStaked) ∧
    (sampleSeen smpStaked).at_.treasury = 4 := ⟨smpStaked_dao, rfl⟩

/-- C95: a legacy DAO is always answered by the legacy facade. -/
theorem C95_legacy {c : Chain} {a : Addr} {d : Legacy} (h : c a = some (.legacy d)) (s : Config) {α : Type}
    (ask : Addr → Addr → Except Err α) : forward s c ask a = ask s.v1 a := by
  unfold forward
  rw [(C95_routing s c a _).2 (.legacy h)]
  rfl

/-- A legacy token DAO without proposals. -/
def smpLegacy : Legacy :=
  { info :=
      { created := 10 ^ 9, metadata := ⟨1, none, 0, none, none, none, none⟩,
        config := ⟨ONE / 10, ONE / 2, none, 100, .time 1000, some 30, true⟩, council := none, daoType := .token,
        membership := 20, factory := 70, distributor := 8, code := 5 },
    proposal := fun _ => none, proposals := fun _ _ _ => some [] }

example : (fun a => if a = 80 then some (.legacy smpLegacy) else none : Chain) 80 = some (.legacy smpLegacy) := rfl

/-- C95: no other part of a DAO stands for it: naming its controller, its membership or council contract, or its outposts
contract fails. -/
theorem C95_others {c : Chain} {e : Addr} {p : Parts} (h : IsDao c e p) (s : Config) {a : Addr}
    (ha : a ∈ [p.at_.controller, p.at_.membership, p.at_.council, p.at_.outposts]) (t : Target) :
    getFacade s c a ≠ .ok t := by
  rw [ne_eq, C95_routing]
  have hk : (∃ k, c a = some (.controller k)) ∨ (∃ x m q, c a = some (.membership x m q)) ∨
      ∃ o, c a = some (.outposts o) := by
    simp only [List.mem_cons, List.not_mem_nil, or_false] at ha
    rcases ha with rfl | rfl | rfl | rfl
    · exact .inl ⟨_, h.ctl⟩
    · exact .inr (.inl ⟨_, _, _, h.member⟩)
    · exact .inr (.inl ⟨_, _, _, h.council⟩)
    · exact .inr (.inr ⟨_, h.outposts⟩)
  intro hl
  rcases hk with ⟨_, hk⟩ | ⟨_, _, _, hk⟩ | ⟨_, hk⟩ <;> cases hl <;> simp_all

example : IsDao (sampleChain (sampleSeen smpStaked)) 3 (sampleSeen smpStaked) ∧
    6 ∈ [(sampleSeen smpStaked).at_.controller, (sampleSeen smpStaked).at_.membership, (sampleSeen smpStaked).at_.council,
      (sampleSeen smpStaked).at_.outposts] := ⟨smpStaked_dao, by decide⟩

/-- C95: a migration of the facade replaces the facades that it names and keeps the others: legacy DAOs are answered by
the new legacy facade, or the old one when none is given, current DAOs by the new current one, or the old one. -/
theorem C95_migrate (s : Config) (n1 n2 : Option Addr) (c : Chain) {α : Type} (ask : Addr → Addr → Except Err α) :
    (∀ a d, c a = some (.legacy d) → forward (migrate s n1 n2) c ask a = ask (n1.getD s.v1) a) ∧
    (∀ e p, IsDao c e p → forward (migrate s n1 n2) c ask e = ask (n2.getD s.v2) e) :=
  ⟨fun _ _ h => C95_legacy h _ _, fun _ _ h => (C95_same_dao h _ _).2⟩

example : IsDao (sampleChain (sampleSeen smpStaked)) 3 (sampleSeen smpStaked) ∧
    forward (migrate ⟨51, 52⟩ none (some 53)) (sampleChain (sampleSeen smpStaked)) (fun f d => .ok (f, d)) 4
      = .ok (53, 3) := ⟨smpStaked_dao, by decide +kernel⟩

/-- Who was named last in a list of changes that may leave it as it is; `x` if nobody was. -/
def lastNamed (x : Addr) (l : List (Option Addr)) : Addr := (l.filterMap id).getLast?.getD x

theorem lastNamed_cons (x : Addr) (o : Option Addr) (l : List (Option Addr)) :
    lastNamed x (o :: l) = lastNamed (o.getD x) l := by
  unfold lastNamed
  cases o with
  | none => rfl
  | some y => cases h : l.filterMap id <;> simp [h, List.getLast?_cons]

theorem migrated (ms : List (Option Addr × Option Addr)) : ∀ s : Config,
    ms.foldl (fun s m => migrate s m.1 m.2) s = ⟨lastNamed s.v1 (ms.map (·.1)), lastNamed s.v2 (ms.map (·.2))⟩ := by
  induction ms with
  | nil => intro s; rfl
  | cons m t ih =>
    intro s
    rw [List.foldl_cons, ih, List.map_cons, List.map_cons, lastNamed_cons, lastNamed_cons]
    rfl

/-- C95: after the instantiation of the facade and any migrations of it, legacy DAOs are answered by the legacy facade named last,
and current DAOs by the current facade named last. -/
theorem C95_history (v1 v2 : Addr) (ms : List (Option Addr × Option Addr)) (c : Chain) {α : Type}
    (ask : Addr → Addr → Except Err α) :
    (∀ a d, c a = some (.legacy d) →
      forward (ms.foldl (fun s m => migrate s m.1 m.2) (init v1 v2)) c ask a = ask (lastNamed v1 (ms.map (·.1))) a) ∧
    (∀ e p, IsDao c e p →
      forward (ms.foldl (fun s m => migrate s m.1 m.2) (init v1 v2)) c ask e = ask (lastNamed v2 (ms.map (·.2))) e) := by
  rw [migrated]
  exact ⟨fun a d h => C95_legacy h _ ask, fun e p h => (C95_same_dao h _ ask).2⟩

/-- Two migrations, the first of which names a legacy facade and the second a current one. -/
example : forward ([(some 61, none), (none, some 62)].foldl (fun s m => migrate s m.1 m.2) (init 51 52))
    (sampleChain (sampleSeen smpStaked)) (fun f d => .ok (f, d)) 4 = .ok (62, 3) := by decide +kernel

/-! ### C96: the description of a DAO -/

theorem cmul64_ok_iff {a b r : Nat} : cmul64 a b = .ok r ↔ a * b < 2 ^ 64 ∧ r = a * b := by
  unfold cmul64 M64
  constructor
  · intro h
    split at h
    · rename_i h1; cases h; exact ⟨h1, rfl⟩
    · cases h
  · rintro ⟨h, rfl⟩; rw [if_pos h]

theorem cadd64_ok_iff' {a b r : Nat} : cadd64 a b = .ok r ↔ a + b < 2 ^ 64 ∧ r = a + b := by
  unfold cadd64 M64
  constructor
  · intro h
    split at h
    · rename_i h1; cases h; exact ⟨h1, rfl⟩
    · cases h
  · rintro ⟨h, rfl⟩; rw [if_pos h]

/-- The version code of `major.minor.patch`. -/
theorem versionCode_ok_iff {major minor patch n : Nat} :
    versionCode (ver major minor patch) = .ok n ↔
      n = 10000 * major + 100 * minor + patch ∧ 10000 * major + 100 * minor + patch < 2 ^ 64 := by
  unfold versionCode ver
  simp only [bind_ok_iff, cmul64_ok_iff, cadd64_ok_iff', ofLex_toLex]
  constructor
  · rintro ⟨a, ⟨h1, rfl⟩, b, ⟨h2, rfl⟩, d, ⟨h3, rfl⟩, h4, rfl⟩
    omega
  · rintro ⟨rfl, h⟩
    exact ⟨_, ⟨by omega, rfl⟩, _, ⟨by omega, rfl⟩, _, ⟨by omega, rfl⟩, by omega, by omega⟩

theorem ver_eq (v : Version) : v = ver (ofLex v).1 (ofLex (ofLex v).2).1 (ofLex (ofLex v).2).2 := rfl

theorem orFail_ok_iff {α : Type} {o : Option α} {x : α} : orFail o = .ok x ↔ o = some x := by
  unfold orFail
  cases o with
  | none => constructor <;> intro h <;> cases h
  | some y =>
    constructor
    · intro h; cases h; rfl
    · intro h; cases h; rfl

/-- What `daoInfo` answers for a DAO. -/
theorem daoInfo_dao {c : Chain} {e : Addr} {p : Parts} (h : IsDao c e p) (d : DaoInfo) :
    daoInfo c e = .ok d ↔ ∃ u code, membershipUnit c e p.member.daoType p.main.version p.at_.membership = .ok u ∧
      versionCode p.main.version = .ok code ∧
      d = { created := p.main.created
            metadata := p.main.metadata
            config :=
              { quorum := p.ctl.s.config.quorum
                threshold := p.ctl.s.config.threshold
                veto := p.ctl.s.config.veto.getD p.ctl.s.config.threshold
                voteDuration := p.ctl.s.config.voteDuration
                unlocking := u.2
                minDeposit := p.ctl.s.config.minDeposit
                early := p.ctl.s.config.early }
            council := p.ctl.s.council.map (fun k =>
              ⟨(p.council.queryMembers none (some 1000)).map (·.1), k.allowed, k.quorum, k.threshold⟩)
            daoType := p.member.daoType
            membership := u.1
            factory := p.main.factory
            distributor := p.at_.distributor
            code := code
            version := p.main.version } := by
  have hc : memberAt c (govInfo p.ctl).councilMembership = .ok (.multisig p.council, none) := by
    unfold memberAt govInfo
    simp only
    rw [h.envCouncil, h.council]
  have hm : (govInfo p.ctl).membership = p.at_.membership := h.envMembership
  unfold daoInfo
  rw [enterpriseAt_dao h, ok_bind, components_dao h, ok_bind, controllerAt_dao h, ok_bind, hm, hc, h.kind]
  simp only [bind_ok_iff, pure_ok_iff]
  constructor
  · rintro ⟨u, hu, cm, hcm, code, hcode, rfl⟩
    cases hcm
    exact ⟨u, code, hu, hcode, rfl⟩
  · rintro ⟨u, code, hu, hcode, rfl⟩
    exact ⟨u, hu, _, rfl, code, hcode, rfl⟩

/-- What `membershipUnit` answers for the membership contract of a DAO. -/
theorem membershipUnit_dao {c : Chain} {e : Addr} {p : Parts} (h : IsDao c e p) (v : Version) :
    membershipUnit c e p.member.daoType v p.at_.membership =
      match p.member with
      | .staking .denom s => .ok (.denom s.asset, s.unlocking)
      | .staking .token s => .ok (.contract s.asset, s.unlocking)
      | .nft s => (nftUnit v (.nft s) p.proxy).map (fun u => (u, s.unlocking))
      | .multisig _ => .ok (.contract e, .time 0) := by
  have hm := memberAt_dao h
  unfold membershipUnit
  cases hp : p.member with
  | staking k s =>
    rw [hp] at hm
    cases k with
    | denom => simp only [Member.daoType, hm, ok_bind, Member.denom, orFail]; rfl
    | token => simp only [Member.daoType, hm, ok_bind, Member.token, orFail]; rfl
  | nft s =>
    rw [hp] at hm
    simp only [Member.daoType, hm, ok_bind]
    cases nftUnit v (.nft s) p.proxy <;> rfl
  | multisig s => rfl

/-- C96: dates, metadata, type, version, voting rules and addresses are those that the contracts of the DAO hold. The veto
threshold is the one that applies to the polls made under these rules. -/
theorem C96_rules {c : Chain} {e : Addr} {p : Parts} (h : IsDao c e p) {d : DaoInfo} (hd : daoInfo c e = .ok d) :
    d.created = p.main.created ∧ d.metadata = p.main.metadata ∧ d.version = p.main.version ∧
    d.daoType = p.member.daoType ∧ d.factory = p.main.factory ∧ d.distributor = p.at_.distributor ∧
    d.config.quorum = p.ctl.s.config.quorum ∧ d.config.threshold = p.ctl.s.config.threshold ∧
    d.config.voteDuration = p.ctl.s.config.voteDuration ∧ d.config.minDeposit = p.ctl.s.config.minDeposit ∧
    d.config.early = p.ctl.s.config.early ∧
    d.config.veto = p.ctl.s.config.veto.getD p.ctl.s.config.threshold ∧
    ∀ q : Gov.Poll, q.threshold = p.ctl.s.config.threshold → q.vetoThreshold = p.ctl.s.config.veto →
      q.thresholdFor .veto = d.config.veto ∧ q.thresholdFor .yes = d.config.threshold := by
  obtain ⟨u, code, _, _, rfl⟩ := (daoInfo_dao h d).1 hd
  refine ⟨rfl, rfl, rfl, rfl, rfl, rfl, rfl, rfl, rfl, rfl, rfl, ?_, fun q h1 h2 => ?_⟩
  · cases hv : p.ctl.s.config.veto <;> simp [hv]
  unfold Gov.Poll.thresholdFor
  simp [h1, h2]

/-- The sample DAO has a description: quorum 10 %, votes of 100 seconds, deposits of 30. -/
example : IsDao (sampleChain (sampleSeen smpStaked)) 3 (sampleSeen smpStaked) ∧
    ((daoInfo (sampleChain (sampleSeen smpStaked)) 3).toOption.map
      (fun d => (d.config.quorum, d.config.voteDuration, d.config.minDeposit))) = some (ONE / 10, 100, some 30) :=
  ⟨smpStaked_dao, by decide +kernel⟩

/-- C96: the governance unit and the unlocking period are those of the membership contract. -/
theorem C96_unit {c : Chain} {e : Addr} {p : Parts} (h : IsDao c e p) {d : DaoInfo} (hd : daoInfo c e = .ok d) :
    (∀ s, p.member = .staking .token s → d.membership = .contract s.asset ∧ d.config.unlocking = s.unlocking) ∧
    (∀ s, p.member = .staking .denom s → d.membership = .denom s.asset ∧ d.config.unlocking = s.unlocking) ∧
    (∀ s, p.member = .nft s → d.config.unlocking = s.unlocking ∧
      (∀ a, s.nft = .cw721 a → d.membership = .contract a) ∧
      (∀ q, s.nft = .ics721 q → (ver 1 2 0 ≤ p.main.version → d.membership = .ics721 q) ∧
        (p.main.version < ver 1 2 0 → ∃ a, p.proxy = some a ∧ d.membership = .contract a))) ∧
    (∀ s, p.member = .multisig s → d.membership = .contract e ∧ d.config.unlocking = .time 0) := by
  obtain ⟨u, code, hu, _, rfl⟩ := (daoInfo_dao h d).1 hd
  rw [membershipUnit_dao h] at hu
  refine ⟨fun s hs => ?_, fun s hs => ?_, fun s hs => ?_, fun s hs => ?_⟩
  · rw [hs] at hu; cases hu; exact ⟨rfl, rfl⟩
  · rw [hs] at hu; cases hu; exact ⟨rfl, rfl⟩
  · rw [hs] at hu
    simp only at hu
    cases hn : nftUnit p.main.version (.nft s) p.proxy with
    | error x => rw [hn] at hu; cases hu
    | ok y =>
      rw [hn] at hu
      cases hu
      refine ⟨rfl, fun a ha => ?_, fun q hq => ⟨fun hv => ?_, fun hv => ?_⟩⟩
      · unfold nftUnit Nft.nftContract at hn
        simp only [ha, orFail] at hn
        split at hn <;> cases hn <;> rfl
      · unfold nftUnit at hn
        simp only [hq, if_pos hv] at hn
        cases hn; rfl
      · unfold nftUnit Nft.nftContract at hn
        simp only [hq, if_neg (not_le.2 hv), bind_ok_iff, pure_ok_iff, orFail_ok_iff] at hn
        obtain ⟨a, ha, rfl⟩ := hn
        exact ⟨a, ha, rfl⟩
  · rw [hs] at hu; cases hu; exact ⟨rfl, rfl⟩

example : ((daoInfo (sampleChain (sampleSeen smpStaked)) 3).toOption.map
    (fun d => (d.membership, d.config.unlocking))) = some (.denom 20, .time 1000) := by decide +kernel

/-- C96: the description is available exactly when the version code fits 64 bits and, for an NFT DAO older than 1.2.0,
the NFT contract is known. -/
theorem C96_available {c : Chain} {e : Addr} {p : Parts} (h : IsDao c e p) {major minor patch : Nat}
    (hv : p.main.version = ver major minor patch) :
    (∃ d, daoInfo c e = .ok d) ↔ 10000 * major + 100 * minor + patch < 2 ^ 64 ∧
      ∀ s, p.member = .nft s → ver 1 2 0 ≤ p.main.version ∨ (∃ a, s.nft = .cw721 a) ∨ ∃ a, p.proxy = some a := by
  have hu : (∃ u, membershipUnit c e p.member.daoType p.main.version p.at_.membership = .ok u) ↔
      ∀ s, p.member = .nft s → ver 1 2 0 ≤ p.main.version ∨ (∃ a, s.nft = .cw721 a) ∨ ∃ a, p.proxy = some a := by
    rw [membershipUnit_dao h]
    cases hp : p.member with
    | staking k s => cases k <;> exact ⟨fun _ s hs => (by cases hs), fun _ => ⟨_, rfl⟩⟩
    | multisig s => exact ⟨fun _ s hs => (by cases hs), fun _ => ⟨_, rfl⟩⟩
    | nft s =>
      simp only [Member.nft.injEq, forall_eq']
      unfold nftUnit Nft.nftContract
      by_cases h1 : ver 1 2 0 ≤ p.main.version
      · simp only [if_pos h1, h1, true_or, iff_true]
        cases s.nft <;> exact ⟨_, rfl⟩
      · simp only [if_neg h1, h1, false_or]
        cases s.nft with
        | cw721 a => exact ⟨fun _ => .inl ⟨a, rfl⟩, fun _ => ⟨_, rfl⟩⟩
        | ics721 q =>
          cases p.proxy with
          | none =>
            constructor
            · rintro ⟨u, hu⟩; cases hu
            · rintro (⟨a, ha⟩ | ⟨a, ha⟩) <;> cases ha
          | some a => exact ⟨fun _ => .inr ⟨a, rfl⟩, fun _ => ⟨_, rfl⟩⟩
  rw [← hu]
  constructor
  · rintro ⟨d, hd⟩
    obtain ⟨u, code, h1, h2, _⟩ := (daoInfo_dao h d).1 hd
    rw [hv] at h2
    exact ⟨(versionCode_ok_iff.1 h2).2, u, h1⟩
  · rintro ⟨h1, u, h2⟩
    have h3 : versionCode p.main.version = .ok (10000 * major + 100 * minor + patch) := by
      rw [hv]; exact versionCode_ok_iff.2 ⟨rfl, h1⟩
    exact ⟨_, (daoInfo_dao h _).2 ⟨u, _, h2, h3, rfl⟩⟩

example : IsDao (sampleChain (sampleSeen smpStaked)) 3 (sampleSeen smpStaked) ∧
    (sampleSeen smpStaked).main.version = ver 1 0 2 ∧ 10000 * 1 + 100 * 0 + 2 < 2 ^ 64 := ⟨smpStaked_dao, rfl, by decide⟩

/-! ### C97: the council's members and the version code -/

theorem council_listed (m : Members) :
    (m.queryMembers none (some 1000)).map (·.1) = m.weights.keys.take 100 := by
  unfold Members.queryMembers
  rw [page_eq, afterL_none, List.map_map, List.map_take]
  rfl

/-- C97: of the council, the description names members only, each once, at most 100, and all of them when there are no
more than 100; with the council's own rules. -/
theorem C97_council_partial {c : Chain} {e : Addr} {p : Parts} (h : IsDao c e p) {d : DaoInfo}
    (hd : daoInfo c e = .ok d) :
    (d.council = none ↔ p.ctl.s.council = none) ∧
    ∀ k, p.ctl.s.council = some k → ∃ l, d.council = some ⟨l, k.allowed, k.quorum, k.threshold⟩ ∧ l.Nodup ∧
      (∀ u ∈ l, p.council.weights.has u = true) ∧ l.length = min 100 p.council.weights.keys.length ∧
      (p.council.weights.keys.length ≤ 100 → ∀ u, p.council.weights.has u = true → u ∈ l) := by
  obtain ⟨u, code, _, _, rfl⟩ := (daoInfo_dao h d).1 hd
  refine ⟨by simp, fun k hk => ?_⟩
  refine ⟨p.council.weights.keys.take 100, by simp only [hk, Option.map_some, council_listed],
    (List.take_sublist _ _).nodup (Map.nodup_keys _), fun u hu => ?_, List.length_take, fun hl u hu => ?_⟩
  · exact Map.has_iff.2 (Map.mem_keys.1 (List.mem_of_mem_take hu))
  · rw [List.take_of_length_le hl]
    exact Map.mem_keys.2 (Map.has_iff.1 hu)

example : ((daoInfo (sampleChain (sampleSeen smpStaked)) 3).toOption.bind (·.council)).map (·.members)
    = some [40, 41, 42] := by decide +kernel

/-- C97, what fails: of a council with more than 100 members, the description leaves some out, and does not tell. -/
theorem C97_council_cut {c : Chain} {e : Addr} {p : Parts} (h : IsDao c e p) {d : DaoInfo}
    (hd : daoInfo c e = .ok d) (hl : 100 < p.council.weights.keys.length) {k : Council} (hk : d.council = some k) :
    ∃ u, p.council.weights.has u = true ∧ u ∉ k.members := by
  obtain ⟨h1, h2⟩ := C97_council_partial h hd
  cases hc : p.ctl.s.council with
  | none => rw [h1.2 hc] at hk; cases hk
  | some x =>
    obtain ⟨l, h3, h4, h5, h6, _⟩ := h2 x hc
    rw [h3] at hk
    cases hk
    by_contra hn
    push Not at hn
    have hs : p.council.weights.keys ⊆ l := fun u hu => hn u (Map.has_iff.2 (Map.mem_keys.1 hu))
    have := (Map.nodup_keys p.council.weights).length_le_of_subset hs
    omega

/-- The sample DAO with a council of 101 members. -/
def smpLarge : Parts :=
  { sampleSeen smpStaked with
    council := (Multisig.init ⟨1, 10 ^ 9⟩ (some ((List.range 101).map (fun u => (u, 1)))) [1] [] []).toOption.getD
      Members.empty }

example : IsDao (sampleChain smpLarge) 3 smpLarge ∧ smpLarge.council.weights.keys.length = 101 ∧
    ((daoInfo (sampleChain smpLarge) 3).toOption.bind (·.council)).map (·.members.length) = some 100 :=
  ⟨{ smpStaked_dao with main := rfl, ctl := rfl, member := rfl, council := rfl, treasury := rfl, outposts := rfl },
    by decide +kernel, by decide +kernel⟩

/-- C97: the version code is that of the version, and compares like the version as long as minor and patch number are
below 100. -/
theorem C97_code_partial {c c' : Chain} {e e' : Addr} {p p' : Parts} (h : IsDao c e p) (h' : IsDao c' e' p')
    {d d' : DaoInfo} (hd : daoInfo c e = .ok d) (hd' : daoInfo c' e' = .ok d') {a b n a' b' n' : Nat}
    (hv : d.version = ver a b n) (hv' : d'.version = ver a' b' n') (hb : b < 100) (hn : n < 100) (hb' : b' < 100)
    (hn' : n' < 100) :
    d.code = 10000 * a + 100 * b + n ∧ (d.code < d'.code ↔ d.version < d'.version) ∧
    (d.code = d'.code ↔ d.version = d'.version) := by
  obtain ⟨u, code, _, hc, rfl⟩ := (daoInfo_dao h d).1 hd
  obtain ⟨u', code', _, hc', rfl⟩ := (daoInfo_dao h' d').1 hd'
  simp only at hv hv' ⊢
  rw [hv] at hc ⊢
  rw [hv'] at hc' ⊢
  obtain ⟨rfl, _⟩ := versionCode_ok_iff.1 hc
  obtain ⟨rfl, _⟩ := versionCode_ok_iff.1 hc'
  refine ⟨rfl, ?_, ?_⟩
  · unfold ver
    rw [Prod.Lex.toLex_lt_toLex, Prod.Lex.toLex_lt_toLex]
    simp only
    omega
  · unfold ver
    constructor
    · intro hh
      have h1 : a = a' := by omega
      have h2 : b = b' := by omega
      have h3 : n = n' := by omega
      rw [h1, h2, h3]
    · intro hh
      have hh := Prod.ext_iff.1 hh
      simp only [toLex, Equiv.coe_fn_mk] at hh
      have h1 : a = a' := hh.1
      have hh := Prod.ext_iff.1 hh.2
      have h2 : b = b' := hh.1
      have h3 : n = n' := hh.2
      rw [h1, h2, h3]

example : (daoInfo (sampleChain (sampleSeen smpStaked)) 3).toOption.map (fun d => (d.version, d.code))
    = some (ver 1 0 2, 10002) := by decide +kernel

/-- C97, what fails: for larger numbers the code does not tell versions apart, and a later version may have a smaller
code. -/
theorem C97_code_ambiguous :
    versionCode (ver 1 0 100) = versionCode (ver 1 1 0) ∧ ver 1 0 100 < ver 1 1 0 ∧
    (∃ x y, versionCode (ver 1 0 200) = .ok x ∧ versionCode (ver 1 1 0) = .ok y ∧ y < x ∧ ver 1 0 200 < ver 1 1 0) := by
  refine ⟨by decide +kernel, by decide +kernel, 10200, 10100, by decide +kernel, by decide +kernel,
    by decide +kernel, by decide +kernel⟩

/-! ### C98: voting power -/

theorem sum_contrib {V : Type} (f : Addr → V → Nat) : ∀ (l : List Addr) (m : Map Addr V), l.Nodup →
    (l.map (fun k => Map.contrib f k (m.get k))).sum ≤ m.sum f ∧
    ((∀ k v, m.get k = some v → k ∈ l) → (l.map (fun k => Map.contrib f k (m.get k))).sum = m.sum f) := by
  intro l
  induction l with
  | nil =>
    intro m _
    refine ⟨Nat.zero_le _, fun h => ?_⟩
    have : m = Map.empty := Map.ext_get (fun k => by
      cases hk : m.get k with
      | none => rfl
      | some v => exact absurd (h k v hk) List.not_mem_nil)
    rw [this]; rfl
  | cons k t ih =>
    intro m hn
    obtain ⟨hk, hn⟩ := List.nodup_cons.1 hn
    obtain ⟨h1, h2⟩ := ih (m.remove k) hn
    have he : t.map (fun j => Map.contrib f j ((m.remove k).get j)) = t.map (fun j => Map.contrib f j (m.get j)) :=
      List.map_congr_left (fun j hj => by
        rw [Map.get_remove, if_neg (fun hh => hk (by rw [hh]; exact hj))])
    rw [he] at h1 h2
    have hs := Map.sum_remove m f k
    refine ⟨by rw [List.map_cons, List.sum_cons]; omega, fun h => ?_⟩
    have := h2 (fun j v hj => by
      rw [Map.get_remove] at hj
      split at hj
      · cases hj
      · rename_i hne
        rcases List.mem_cons.1 (h j v hj) with rfl | hh
        · exact absurd rfl hne
        · exact hh)
    rw [List.map_cons, List.sum_cons]
    omega

theorem sum_weights (m : Members) {l : List Addr} (hl : l.Nodup) :
    (l.map m.weight).sum ≤ m.wsum ∧ ((∀ u, m.weight u ≠ 0 → u ∈ l) → (l.map m.weight).sum = m.wsum) := by
  have h : l.map m.weight = l.map (fun k => Map.contrib (fun _ w => w) k (m.weights.get k)) :=
    List.map_congr_left (fun u _ => (Members.weight_eq_contrib m u).symm)
  obtain ⟨h1, _⟩ := sum_contrib (fun _ w => w) l m.weights hl
  refine ⟨by rw [h]; exact h1, fun hall => ?_⟩
  have hk : (((m.weights.keys.filter (fun u => decide (u ∉ l))) ++ l).map m.weight).sum = m.wsum := by
    have hn : ((m.weights.keys.filter (fun u => decide (u ∉ l))) ++ l).Nodup := by
      refine List.nodup_append.2 ⟨(Map.nodup_keys _).filter _, hl, fun u h1 v h2 huv => ?_⟩
      subst huv
      have := (List.mem_filter.1 h1).2
      simp only [decide_eq_true_eq] at this
      exact this h2
    have h2 := (sum_contrib (fun _ w => w) _ m.weights hn).2 (fun k v hv => by
      by_cases hkl : k ∈ l
      · exact List.mem_append_right _ hkl
      · exact List.mem_append_left _ (List.mem_filter.2 ⟨Map.mem_keys.2 ⟨v, hv⟩, by simpa using hkl⟩))
    rw [show m.wsum = m.weights.sum (fun _ w => w) from rfl, ← h2]
    exact congrArg List.sum (List.map_congr_left (fun u _ => (Members.weight_eq_contrib m u).symm))
  have hz : ((m.weights.keys.filter (fun u => decide (u ∉ l))).map m.weight).sum = 0 := by
    have hr : (m.weights.keys.filter (fun u => decide (u ∉ l))).map m.weight
        = (m.weights.keys.filter (fun u => decide (u ∉ l))).map (fun _ => 0) := by
      refine List.map_congr_left (fun u hu => ?_)
      have := (List.mem_filter.1 hu).2
      simp only [decide_eq_true_eq] at this
      by_contra h0
      exact this (hall u h0)
    rw [hr]
    generalize m.weights.keys.filter (fun u => decide (u ∉ l)) = k
    induction k with
    | nil => rfl
    | cons a k ih => simp [ih]
  rw [List.map_append, List.sum_append] at hk
  omega

theorem div_sum (t d : Nat) (ht : 0 < t) : ∀ l : List Nat,
    t * (l.map (fun w => w * d / t)).sum ≤ l.sum * d ∧
    l.sum * d ≤ t * (l.map (fun w => w * d / t)).sum + (t - 1) * l.length := by
  intro l
  induction l with
  | nil => simp
  | cons w l ih =>
    obtain ⟨h1, h2⟩ := ih
    have h3 : t * (w * d / t) + w * d % t = w * d := Nat.div_add_mod (w * d) t
    have h4 : w * d % t < t := Nat.mod_lt _ ht
    simp only [List.map_cons, List.sum_cons, List.length_cons, Nat.mul_add, Nat.add_mul, Nat.mul_one]
    omega

/-- What the query for voting power answers, in every state the DAO can reach. -/
theorem memberInfo_dao {cfg : Dao.Cfg} (hw : cfg.Wf) (ht : cfg.Tame) {w : Dao.World} (hr : Dao.Reachable cfg w)
    {ext : Dao.Ext} {c : Chain} {e : Addr} {p : Parts} (h : IsDao c e p) (hp : p.Seen cfg ext w) (u : Addr) :
    memberInfo c e u = .ok (w.mem.mem.weight u * 10 ^ 18 / w.mem.mem.wsum) ∧
      w.mem.total .never = w.mem.mem.wsum ∧ w.mem.weight u = w.mem.mem.weight u := by
  have hm := (hr.base hw ht).mem
  have hwl := hm.weight_le u
  rw [hm.total, Member.weight_eq] at hwl
  refine ⟨?_, hm.total, Member.weight_eq _ _⟩
  unfold memberInfo
  rw [components_dao h, ok_bind, memberAt_dao h, ok_bind, hp.member]
  simp only [hm.total, Member.weight_eq]
  by_cases h0 : w.mem.mem.wsum = 0
  · rw [if_pos h0, h0, Nat.div_zero]; rfl
  · have hle : w.mem.mem.weight u * 10 ^ 18 / w.mem.mem.wsum ≤ 10 ^ 18 :=
      Nat.div_le_of_le_mul (Nat.mul_le_mul_right _ hwl)
    rw [if_neg h0]
    unfold checkedFromRatio ONE
    rw [if_neg h0]
    simp only
    rw [if_pos (lt_of_le_of_lt hle (by unfold M128; decide))]
    rfl

/-- C98: the voting power of a member is the member's share of the total weight, rounded down to 18 decimals, and zero
while there is no weight at all. The query always answers, in every state the DAO can reach. -/
theorem C98_share {cfg : Dao.Cfg} (hw : cfg.Wf) (ht : cfg.Tame) {w : Dao.World} (hr : Dao.Reachable cfg w)
    {ext : Dao.Ext} {c : Chain} {e : Addr} {p : Parts} (h : IsDao c e p) (hp : p.Seen cfg ext w) (u : Addr) :
    (w.mem.total .never = 0 → memberInfo c e u = .ok 0) ∧
    (w.mem.total .never ≠ 0 → ∃ x, memberInfo c e u = .ok x ∧ x ≤ 10 ^ 18 ∧
      x * w.mem.total .never ≤ w.mem.weight u * 10 ^ 18 ∧ w.mem.weight u * 10 ^ 18 < (x + 1) * w.mem.total .never) := by
  obtain ⟨h1, h2, h3⟩ := memberInfo_dao hw ht hr h hp u
  rw [h2, h3]
  refine ⟨fun h0 => by rw [h1, h0, Nat.div_zero], fun h0 => ⟨_, h1, ?_, ?_, ?_⟩⟩
  · exact Nat.div_le_of_le_mul (Nat.mul_le_mul_right _ (Members.weight_le_wsum _ _))
  · exact Nat.div_mul_le_self _ _
  · have := Nat.lt_mul_div_succ (w.mem.mem.weight u * 10 ^ 18) (Nat.pos_of_ne_zero h0)
    rwa [Nat.mul_comm (_ + 1)]

example : Dao.Reachable Dao.sampleCfg smpStaked ∧
    IsDao (sampleChain (sampleSeen smpStaked)) 3 (sampleSeen smpStaked) ∧
    (sampleSeen smpStaked).Seen Dao.sampleCfg Dao.sampleExt smpStaked ∧ smpStaked.mem.total .never = 100 ∧
    memberInfo (sampleChain (sampleSeen smpStaked)) 3 10 = .ok (6 * 10 ^ 17) :=
  ⟨Dao.sampleRun_reachable _, smpStaked_dao, sample_seen _, by decide +kernel, by decide +kernel⟩

/-- C98: the voting powers of different members add up to at most one; those of all members fall short of one by less
than one unit of the last decimal for each. -/
theorem C98_sum {cfg : Dao.Cfg} (hw : cfg.Wf) (ht : cfg.Tame) {w : Dao.World} (hr : Dao.Reachable cfg w)
    {ext : Dao.Ext} {c : Chain} {e : Addr} {p : Parts} (h : IsDao c e p) (hp : p.Seen cfg ext w)
    {l : List (Addr × Nat)} (hn : (l.map (·.1)).Nodup) (hl : ∀ q ∈ l, memberInfo c e q.1 = .ok q.2) :
    (l.map (·.2)).sum ≤ 10 ^ 18 ∧
    (w.mem.total .never ≠ 0 → (∀ u, w.mem.weight u ≠ 0 → u ∈ l.map (·.1)) →
      10 ^ 18 < (l.map (·.2)).sum + l.length) := by
  have hv : l.map (·.2) = ((l.map (·.1)).map w.mem.mem.weight).map (fun x => x * 10 ^ 18 / w.mem.mem.wsum) := by
    rw [List.map_map, List.map_map]
    refine List.map_congr_left (fun q hq => ?_)
    have := (memberInfo_dao hw ht hr h hp q.1).1
    rw [hl q hq] at this
    simp only [Except.ok.injEq] at this
    exact this
  obtain ⟨hs1, hs2⟩ := sum_weights w.mem.mem hn
  have ht := (memberInfo_dao hw ht hr h hp 0).2.1
  rw [hv, ht]
  by_cases h0 : w.mem.mem.wsum = 0
  · refine ⟨?_, fun hh => absurd h0 hh⟩
    rw [h0]
    simp only [Nat.div_zero]
    generalize (l.map (·.1)).map w.mem.mem.weight = k
    have : (k.map (fun _ => 0)).sum = 0 := by
      induction k with
      | nil => rfl
      | cons a k ih => simpa using ih
    omega
  · have hpos := Nat.pos_of_ne_zero h0
    obtain ⟨d1, d2⟩ := div_sum w.mem.mem.wsum (10 ^ 18) hpos ((l.map (·.1)).map w.mem.mem.weight)
    refine ⟨?_, fun _ hall => ?_⟩
    · refine Nat.le_of_mul_le_mul_left ?_ hpos
      exact d1.trans (Nat.mul_le_mul_right _ hs1)
    · have he := hs2 (fun u hu => hall u (by rw [Member.weight_eq]; exact hu))
      rw [he] at d2
      simp only [List.length_map] at d2
      have hlen : 0 < l.length := by
        rcases l with _ | ⟨q, t⟩
        · simp only [List.map_nil, List.sum_nil] at he; omega
        · simp
      refine Nat.lt_of_mul_lt_mul_left (a := w.mem.mem.wsum) ?_
      have h5 : (w.mem.mem.wsum - 1) * l.length < w.mem.mem.wsum * l.length :=
        Nat.mul_lt_mul_of_pos_right (by omega) hlen
      rw [Nat.mul_add]
      omega

example : (([(10, 6 * 10 ^ 17), (11, 4 * 10 ^ 17)] : List (Addr × Nat)).map (·.1)).Nodup ∧
    ∀ q ∈ ([(10, 6 * 10 ^ 17), (11, 4 * 10 ^ 17)] : List (Addr × Nat)),
      memberInfo (sampleChain (sampleSeen smpStaked)) 3 q.1 = .ok q.2 := by decide +kernel

end Verif.Facade
