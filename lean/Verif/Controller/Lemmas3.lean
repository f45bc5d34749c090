import Verif.Controller.Lemmas2
import Verif.Controller.Spec2

/-!
# Governance controller: lemmas on the creation of proposals and on their actions
-/

set_option linter.unusedSimpArgs false

namespace Verif.Controller
open Verif
open Verif.Staking (Duration At)

theorem changed_iff {old new : GovConfig} {c : GovChange} : Changed old c new ↔ new = applyChange old c := by
  have key : ∀ {A : Type} {x : Option A} {o n : A}, ((x = none ∧ n = o) ∨ x = some n) ↔ n = x.getD o := by
    intro A x o n
    cases x with
    | none => simp
    | some y => simp [eq_comm]
  constructor
  · rintro ⟨h1, h2, h3, h4, h5, h6⟩
    obtain ⟨q, t, v, d, m, e⟩ := new
    simp only [key] at h1 h2 h3 h4 h5 h6
    simp only [applyChange, GovConfig.mk.injEq]
    exact ⟨h1, h2, h3, h4, h5, h6⟩
  · rintro rfl
    exact ⟨key.2 rfl, key.2 rfl, key.2 rfl, key.2 rfl, key.2 rfl, key.2 rfl⟩

theorem validSpec_iff {x : CouncilSpec} : ValidSpec x ↔ x.members.Nodup ∧ ValidCouncil x.config := by
  constructor
  · rintro ⟨h1, h2, h3, h4⟩
    refine ⟨h1, h2, h3, fun a ha => ?_⟩
    unfold CouncilSpec.config at ha
    cases hl : x.allowed with
    | none =>
      rw [hl] at ha
      simp only [Option.getD_none, List.mem_singleton] at ha
      rw [ha]; decide
    | some l =>
      rw [hl] at ha
      exact h4 l hl a ha
  · rintro ⟨h1, h2⟩
    refine ⟨h1, h2.quorum, h2.threshold, fun l hl a ha => h2.allowed a ?_⟩
    unfold CouncilSpec.config
    rw [hl]
    exact ha

theorem kept_eq (x : CouncilSpec) : x.kept = x.config := by
  unfold CouncilSpec.kept CouncilSpec.config
  cases x.allowed <;> rfl

theorem any_mem_iff {A : Type} [DecidableEq A] (l m : List A) :
    l.any (fun a => decide (a ∈ m)) = true ↔ ¬ ∀ a ∈ l, a ∉ m := by
  rw [List.any_eq_true]
  simp

theorem isCw1155_iff (i : AssetInfo) : isCw1155 i = true ↔ ∃ c n, i = .cw1155 c n := by
  cases i <;> simp [isCw1155]

theorem noCw1155_iff (l : List Asset) : NoCw1155 l ↔ ¬ l.any (fun a => isCw1155 a.info) = true := by
  unfold NoCw1155
  rw [List.any_eq_true]
  constructor
  · rintro h ⟨a, ha, hi⟩
    obtain ⟨c, n, hc⟩ := (isCw1155_iff _).1 hi
    exact h a ha c n hc
  · intro h a ha c n hc
    exact h ⟨a, ha, (isCw1155_iff _).2 ⟨c, n, hc⟩⟩

theorem all_parses_iff (e : Env) (l : List Nat) : l.all e.parses = true ↔ ∀ m ∈ l, e.parses m = true := List.all_eq_true

theorem validateMultisig_ok_iff {e : Env} {l : List (Addr × Nat)} {u : Unit} :
    validateMultisig e l = .ok u ↔ e.daoType = .multisig ∧ (l.map (·.1)).Nodup := by
  unfold validateMultisig
  simp only [ite_ok_iff, ne_eq, Classical.not_not, and_true]

theorem validateUpgrade_ok_iff {e : Env} {v : Version} {u : Unit} : validateUpgrade e v = .ok u ↔ e.version < v := by
  unfold validateUpgrade
  simp only [ite_ok_iff, not_le, and_true]

theorem validateCustom_ok_iff {e : Env} {l : List Nat} {u : Unit} :
    validateCustom e l = .ok u ↔ ∀ m ∈ l, e.parses m = true := by
  unfold validateCustom
  rw [← all_parses_iff]
  by_cases h : l.all e.parses = true <;> simp [h]

theorem proposable_iff {e : Env} {cfg : GovConfig} {a : Action} {u : Unit} :
    validateAction e cfg a = .ok u ↔ Proposable e cfg a := by
  cases a with
  | updateMetadata m => exact ⟨fun _ => trivial, fun _ => rfl⟩
  | updateMinWeight m => exact ⟨fun _ => trivial, fun _ => rfl⟩
  | deployTreasury m => exact ⟨fun _ => trivial, fun _ => rfl⟩
  | updateGovConfig c =>
    simp only [validateAction, Proposable, validateConfig_ok_iff, changed_iff, exists_eq_left]
  | updateCouncil c =>
    simp only [validateAction, Proposable, bind_ok_iff, validateCouncil_ok_iff, pure_ok_iff, validSpec_iff]
    exact ⟨fun ⟨_, ⟨h, _⟩, _⟩ => h, fun h => ⟨_, ⟨h, rfl⟩, trivial⟩⟩
  | updateAssetWhitelist r a d =>
    simp only [validateAction, Proposable]
    unfold validateAssets
    cases r with
    | some n => simp
    | none =>
      simp only [Option.isSome_none, if_false, ite_ok_iff, any_mem_iff, Classical.not_not, and_true, Disjointed,
        forall_true_left, Bool.false_eq_true, true_implies]
  | updateNftWhitelist r a d =>
    simp only [validateAction, Proposable]
    unfold validateNfts
    simp only [ite_ok_iff, any_mem_iff, Classical.not_not, and_true, Disjointed]
  | requestFunding r t l =>
    simp only [validateAction, Proposable]
    unfold validateFunding
    rw [ite_ok_iff, noCw1155_iff]
    cases r <;> simp
  | upgradeDao v => exact validateUpgrade_ok_iff
  | executeMsgs l => exact validateCustom_ok_iff
  | executeTreasuryMsgs r l => exact validateCustom_ok_iff
  | executeEnterpriseMsgs l => exact validateCustom_ok_iff
  | modifyMultisig l => exact validateMultisig_ok_iff
  | distributeFunds l =>
    simp only [validateAction, Proposable]
    unfold validateDistribute
    rw [ite_ok_iff, noCw1155_iff]
    simp

theorem act_iff {e : Env} {s : State} {a : Action} {r : State × List Sub} : act e s a = .ok r ↔ Does e s a r.1 r.2 := by
  obtain ⟨s', subs⟩ := r
  cases a with
  | updateMetadata m =>
    simp only [act]
    constructor
    · intro h; cases h; exact .updateMetadata m
    · intro h; cases h; rfl
  | updateGovConfig c =>
    simp only [act, updateGovConfig_ok_iff]
    constructor
    · rintro ⟨h1, h2, h3⟩
      cases hu : c.unlocking with
      | none =>
        rw [hu] at h3
        cases h3
        exact .config (changed_iff.2 rfl) h1 hu
      | some d =>
        rw [hu] at h3
        cases h3
        by_cases ht : e.daoType = .multisig
        · simp only [ht, unlockingSubs]
          exact .configMultisig (changed_iff.2 rfl) h1 hu (fun n hn => h2 n (by rw [hu, hn])) ht
        · have : unlockingSubs e.daoType d = [.unlocking d] := by
            unfold unlockingSubs
            cases h : e.daoType <;> first | rfl | exact absurd h ht
          simp only [this]
          exact .configUnlocking (changed_iff.2 rfl) h1 hu (fun n hn => h2 n (by rw [hu, hn])) ht
    · intro h
      cases h with
      | config h hv hu =>
        rw [changed_iff] at h; subst h
        exact ⟨hv, fun n hn => (by rw [hu] at hn; cases hn), by rw [hu]⟩
      | configUnlocking h hv hu hd ht =>
        rw [changed_iff] at h; subst h
        refine ⟨hv, fun n hn => hd n (by rw [hu] at hn; cases hn; rfl), ?_⟩
        rw [hu]
        unfold unlockingSubs
        cases h : e.daoType <;> first | rfl | exact absurd h ht
      | configMultisig h hv hu hd ht =>
        rw [changed_iff] at h; subst h
        refine ⟨hv, fun n hn => hd n (by rw [hu] at hn; cases hn; rfl), ?_⟩
        rw [hu, ht]
        rfl
  | updateCouncil c =>
    simp only [act, updateCouncil_ok_iff, ← validSpec_iff]
    constructor
    · rintro ⟨h1, h2⟩
      cases c with
      | none => cases h2; exact .noCouncil
      | some x =>
        cases h2
        simp only [Option.map_some]
        rw [← kept_eq]
        exact .council (h1 x rfl)
    · intro h
      cases h with
      | noCouncil => exact ⟨fun x hx => (by cases hx), rfl⟩
      | council h =>
        refine ⟨fun x hx => (by cases hx; exact h), ?_⟩
        simp only [Option.map_some, kept_eq]
  | updateAssetWhitelist r a d =>
    simp only [act]
    constructor
    · intro h; cases h; exact .assets r a d
    · intro h; cases h; rfl
  | updateNftWhitelist r a d =>
    simp only [act]
    constructor
    · intro h; cases h; exact .nfts r a d
    · intro h; cases h; rfl
  | requestFunding r t l =>
    simp only [act]
    constructor
    · intro h; cases h; exact .funding r t l
    · intro h; cases h; rfl
  | upgradeDao v =>
    simp only [act, bind_ok_iff, pure_ok_iff, validateUpgrade_ok_iff]
    constructor
    · rintro ⟨_, h, h1⟩; cases h1; exact .upgrade h
    · intro h; cases h with | upgrade h => exact ⟨(), h, rfl⟩
  | executeMsgs l =>
    simp only [act, bind_ok_iff, pure_ok_iff]
    unfold customSubs
    constructor
    · rintro ⟨subs, h, h1⟩
      by_cases hp : l.all e.parses = true
      · rw [if_pos hp] at h; cases h; cases h1; exact .msgs ((all_parses_iff e l).1 hp)
      · rw [if_neg hp] at h; cases h
    · intro h
      cases h with | msgs h => exact ⟨_, by rw [if_pos ((all_parses_iff e l).2 h)], rfl⟩
  | executeTreasuryMsgs r l =>
    simp only [act]
    constructor
    · intro h; cases h; exact .treasuryMsgs r l
    · intro h; cases h; rfl
  | executeEnterpriseMsgs l =>
    simp only [act]
    constructor
    · intro h; cases h; exact .enterpriseMsgs l
    · intro h; cases h; rfl
  | modifyMultisig l =>
    simp only [act, bind_ok_iff, pure_ok_iff, validateMultisig_ok_iff]
    constructor
    · rintro ⟨_, ⟨h, h2⟩, h1⟩; cases h1; exact .multisig h h2
    · intro h; cases h with | multisig h h2 => exact ⟨(), ⟨h, h2⟩, rfl⟩
  | distributeFunds l =>
    simp only [act]
    constructor
    · intro h; cases h; exact .distribute l
    · intro h; cases h; rfl
  | updateMinWeight w =>
    simp only [act]
    constructor
    · intro h; cases h; exact .minWeight w
    · intro h; cases h; rfl
  | deployTreasury d =>
    simp only [act]
    constructor
    · intro h; cases h; exact .deploy d
    · intro h; cases h; rfl

theorem actAll_iff {e : Env} : ∀ (l : List Action) {s : State} {r : State × List Sub},
    actAll e s l = .ok r ↔ DoesAll e s l r.1 r.2 := by
  intro l
  induction l with
  | nil =>
    rintro s ⟨s', subs⟩
    constructor
    · intro h; cases h; exact .nil s
    · intro h; cases h; rfl
  | cons a t ih =>
    rintro s ⟨s', subs⟩
    simp only [actAll, bind_ok_iff, pure_ok_iff]
    constructor
    · rintro ⟨r1, h1, r2, h2, h3⟩
      cases h3
      exact .cons (act_iff.1 h1) (ih.1 h2)
    · intro h
      cases h with
      | cons h1 h2 => exact ⟨(_, _), act_iff.2 h1, (_, _), ih.2 h2, rfl⟩

/-! ### Creation -/

theorem takeNfts_ok_iff {e : Env} {nft u : Addr} (l : List Nat) {subs : List Sub} : takeNfts e nft u l = .ok subs ↔
    subs = l.map (.takeNft nft) ∧ ∀ t ∈ l, ∃ o sp, e.owner t = some (o, sp) ∧ (o = u ∨ u ∈ sp) := by
  refine ⟨takeNfts_ok l, ?_⟩
  induction l generalizing subs with
  | nil => rintro ⟨rfl, _⟩; rfl
  | cons t l ih =>
    rintro ⟨rfl, h⟩
    unfold takeNfts
    obtain ⟨o, sp, ho, hu⟩ := h t List.mem_cons_self
    have hc : canDeposit e u t = .ok true := by
      unfold canDeposit
      rw [ho]
      simp only [Except.ok.injEq, Bool.or_eq_true, decide_eq_true_eq]
      exact hu
    rw [bind_ok_iff]
    refine ⟨true, hc, ?_⟩
    simp only [if_true, bind_ok_iff, pure_ok_iff]
    exact ⟨_, ih ⟨rfl, fun x hx => h x (List.mem_cons_of_mem _ hx)⟩, rfl⟩

theorem createWithFunds_ok_iff {e : Env} {u : Addr} {f : List (Nat × Nat)} {s : State} {g : Gov.State} {p : Proposal}
    {r : State × Gov.State} :
    createWithFunds e u f s g p = .ok r ↔
      (e.daoType = .denom → e.denom ≠ none) ∧ createProposal e s g p (fundsDeposit e u f p) u = .ok r := by
  unfold createWithFunds fundsDeposit
  cases ht : e.daoType with
  | denom =>
    cases hd : e.denom with
    | none => simp
    | some d => simp
  | token => simp
  | nft => simp
  | multisig => simp

theorem fundsDeposit_eq (e : Env) (u : Addr) (f : List (Nat × Nat)) (p : Proposal) :
    fundsDeposit e u f p =
      (attachedAsset e u (.createProposal p f)).map (fun a => ⟨p.owner.getD u, a⟩) := by
  unfold fundsDeposit attachedAsset
  cases ht : e.daoType with
  | denom =>
    cases hd : e.denom with
    | none => simp
    | some d =>
      simp only [if_true, Option.map_map]
      cases hf : f.find? (fun c => decide (c.1 = d)) with
      | none => rfl
      | some c =>
        have := List.find?_some hf
        simp only [decide_eq_true_eq] at this
        simp only [Option.map_some, Function.comp, this]
  | token => simp
  | nft => simp
  | multisig => simp

/-- The deposit recorded with a general proposal. -/
def depositOf (e : Env) (u : Addr) (m : Msg) (p : Proposal) : Option Deposit :=
  (attachedAsset e u m).map (fun a => ⟨p.owner.getD (proposerOf u m), a⟩)

/-- All messages that create general proposals, in one form. -/
theorem general_ok_iff {e : Env} {u : Addr} {s : State} {g : Gov.State} {m : Msg} (hm : m.isGeneral = true)
    {r : State × Gov.State × List Sub} :
    exec e u s g m = .ok r ↔ ∃ p, proposalOf m = some p ∧ WellSent e u m ∧
      createProposal e s g p (depositOf e u m p) (proposerOf u m) = .ok (r.1, r.2.1) ∧
      r.2.2 = (match m with
        | .createWithNft _ l => match e.nft with | some c => l.map (.takeNft c) | none => []
        | _ => []) := by
  obtain ⟨s', g', subs⟩ := r
  cases m with
  | createProposal p f =>
    simp only [exec, bind_ok_iff, pure_ok_iff, createWithFunds_ok_iff, proposalOf, WellSent, Option.some.injEq,
      exists_eq_left', proposerOf, fundsDeposit_eq, depositOf]
    constructor
    · rintro ⟨a, ⟨h1, h2⟩, h3⟩; cases h3; exact ⟨h1, h2, rfl⟩
    · rintro ⟨h1, h2, rfl⟩; exact ⟨_, ⟨h1, h2⟩, rfl⟩
  | createWithNft p l =>
    simp only [exec, createWithNft_ok_iff, takeNfts_ok_iff, proposalOf, WellSent, Option.some.injEq,
      exists_eq_left', proposerOf, depositOf, attachedAsset]
    constructor
    · rintro ⟨h1, h2, nft, h3, ⟨h4, h5⟩, h6⟩
      rw [h3]
      exact ⟨⟨h1, by simp, h2, h5⟩, h6, h4⟩
    · rintro ⟨⟨h1, h2, h3, h4⟩, h5, h6⟩
      cases hn : e.nft with
      | none => exact absurd hn h2
      | some nft =>
        rw [hn] at h5 h6
        exact ⟨h1, h3, nft, rfl, ⟨h6, h4⟩, h5⟩
  | receive f a q =>
    simp only [exec, bind_ok_iff, pure_ok_iff, receive_ok_iff, proposalOf, WellSent, proposerOf, depositOf, attachedAsset]
    constructor
    · rintro ⟨x, ⟨p, rfl, h1, h2, h3⟩, h4⟩
      cases h4
      exact ⟨p, rfl, ⟨h1, h2, by simp⟩, h3, rfl⟩
    · rintro ⟨p, rfl, ⟨h1, h2, _⟩, h3, rfl⟩
      exact ⟨_, ⟨p, rfl, h1, h2, h3⟩, rfl⟩
  | createCouncil _ => cases hm
  | castVote _ _ => cases hm
  | castCouncilVote _ _ => cases hm
  | execute _ => cases hm
  | weightsChanged _ => cases hm
  | executeActions _ => cases hm
  | deployInitial => cases hm

theorem attached_eq {e : Env} {u : Addr} {m : Msg} (p : Proposal) (hm : m.isGeneral = true) (hw : WellSent e u m) :
    ((depositOf e u m p).map Deposit.amount).getD 0 = attached e m := by
  cases m with
  | createProposal q f =>
    unfold depositOf attachedAsset attached
    by_cases ht : e.daoType = .denom
    · simp only [ht, if_true]
      cases hd : e.denom with
      | none => exact absurd hd (hw ht)
      | some d =>
        simp only [Option.map_map, Option.some.injEq]
        rfl
    · simp only [ht, if_false, Option.map_none, Option.getD_none]
  | createWithNft q l =>
    unfold depositOf attachedAsset attached
    cases hn : e.nft with
    | none => exact absurd hn hw.2.1
    | some c => rfl
  | receive f a q => rfl
  | createCouncil _ => cases hm
  | castVote _ _ => cases hm
  | castCouncilVote _ _ => cases hm
  | execute _ => cases hm
  | weightsChanged _ => cases hm
  | executeActions _ => cases hm
  | deployInitial => cases hm

theorem plusSeconds_of_fit {now d : Nat} (h : now + d * 10 ^ 9 < 2 ^ 64) : plusSeconds now d = now + d * 10 ^ 9 := by
  unfold plusSeconds wadd64 M64
  rw [Nat.mod_eq_of_lt (a := d * 10 ^ 9) (by omega), Nat.mod_eq_of_lt h]

/-- The poll of a new proposal. -/
def newPoll (id now : Nat) (c : GovConfig) (p : Proposal) (u : Addr) : Gov.Poll :=
  { id, proposer := u, deposit := 0, label := p.title, description := p.description,
    status := .inProgress (now + c.voteDuration * 10 ^ 9), startedAt := now, endsAt := now + c.voteDuration * 10 ^ 9,
    quorum := c.quorum, threshold := c.threshold, vetoThreshold := c.veto, results := .empty }

theorem newPoll_ok_iff {e : Env} {g g' : Gov.State} {c : GovConfig} {p : Proposal} {u : Addr}
    (hfit : e.block.time + c.voteDuration * 10 ^ 9 < 2 ^ 64) :
    Gov.createPoll g e.block.time (terms e c p u) = .ok g' ↔ c.threshold ≤ 10 ^ 18 ∧ 0 < c.voteDuration ∧
      g' = { g with pollCount := wadd64 g.pollCount 1,
                    polls := g.polls.set (wadd64 g.pollCount 1) (newPoll (wadd64 g.pollCount 1) e.block.time c p u) } := by
  rw [Gov.createPoll_ok_iff]
  simp only [terms, plusSeconds_of_fit hfit, newPoll, ONE]
  constructor
  · rintro ⟨h1, h2, h3⟩; exact ⟨h1, by omega, h3⟩
  · rintro ⟨h1, h2, h3⟩; exact ⟨h1, by omega, h3⟩

/-! ### Initial treasuries -/

theorem exec_creation {e : Env} {u : Addr} {s : State} {g : Gov.State} {m : Msg} {r : State × Gov.State × List Sub}
    (h : exec e u s g m = .ok r) : r.1.created = s.created ∧ (m ≠ .deployInitial → r.1.treasuries = s.treasuries) := by
  cases m with
  | createProposal p f =>
    obtain ⟨i, cp, hc, _⟩ := created_exec rfl h
    rw [hc.state]; exact ⟨rfl, fun _ => rfl⟩
  | createWithNft p l =>
    obtain ⟨i, cp, hc, _⟩ := created_exec rfl h
    rw [hc.state]; exact ⟨rfl, fun _ => rfl⟩
  | createCouncil p =>
    obtain ⟨i, cp, hc, _⟩ := created_exec rfl h
    rw [hc.state]; exact ⟨rfl, fun _ => rfl⟩
  | receive f a p =>
    obtain ⟨i, cp, hc, _⟩ := created_exec rfl h
    rw [hc.state]; exact ⟨rfl, fun _ => rfl⟩
  | castVote id o =>
    simp only [exec, bind_ok_iff, pure_ok_iff] at h
    obtain ⟨r1, h1, rfl⟩ := h
    obtain ⟨_, _, i, p, q, _, _, _, _, _, _, h2⟩ := castVote_ok_iff.1 h1
    rw [h2]
    unfold voted
    split
    · unfold restartCooldown
      split <;> exact ⟨rfl, fun _ => rfl⟩
    · exact ⟨rfl, fun _ => rfl⟩
  | castCouncilVote id o =>
    simp only [exec, bind_ok_iff, pure_ok_iff] at h
    obtain ⟨r1, h1, rfl⟩ := h
    obtain ⟨_, _, _, i, _, _, _, _, h2⟩ := castCouncilVote_ok_iff.1 h1
    rw [h2]
    exact ⟨rfl, fun _ => rfl⟩
  | execute id =>
    simp only [exec] at h
    obtain ⟨_, i, p, _, _, _, _, _, _, _, rfl⟩ := executeProposal_ok_iff.1 h
    exact ⟨rfl, fun _ => rfl⟩
  | weightsChanged l =>
    simp only [exec, bind_ok_iff, pure_ok_iff] at h
    obtain ⟨r1, _, rfl⟩ := h
    exact ⟨rfl, fun _ => rfl⟩
  | executeActions id =>
    simp only [exec, bind_ok_iff, pure_ok_iff] at h
    obtain ⟨r1, h1, rfl⟩ := h
    obtain ⟨_, i, _, h2⟩ := executeActions_ok_iff.1 h1
    have := (actAll_ok i.actions h2).1.same
    exact ⟨(by rw [this]), fun _ => (by rw [this])⟩
  | deployInitial =>
    simp only [exec, bind_ok_iff, pure_ok_iff] at h
    obtain ⟨r1, h1, rfl⟩ := h
    obtain ⟨_, _, rfl⟩ := deployInitial_ok_iff.1 h1
    exact ⟨rfl, fun h => absurd rfl h⟩

end Verif.Controller
