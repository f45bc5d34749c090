import Verif.Facade.Requests
import Verif.Staking.Props2
import Verif.Nft.Props2

set_option linter.unusedSimpArgs false

/-!
# Facades: the other queries (C104)

What the facade answers is stated about the states of the contracts, not about their queries.
-/

namespace Verif.Facade
open Verif
open Verif.Dao (Member)
open Verif.Pages

theorem treasuryAt_dao {c : Chain} {e : Addr} {p : Parts} (h : IsDao c e p) :
    treasuryAt c p.at_.treasury = .ok (p.treasury, p.migration) := by
  unfold treasuryAt
  rw [h.treasury]

theorem outpostsAt_dao {c : Chain} {e : Addr} {p : Parts} (h : IsDao c e p) : outpostsAt c p.at_.outposts = .ok p.outposts := by
  unfold outpostsAt
  rw [h.outposts]

/-- C104: the lists of the facade. Whitelisted assets and NFT collections are those of the treasury, treasuries on other
chains those of the outposts contract. Members are listed for a multisig DAO, with their weights, and for no other. A
page is full unless it has all the rest. -/
theorem C104_lists {c : Chain} {e : Addr} {p : Parts} (h : IsDao c e p) (limit : Option Nat) :
    (∀ after, ∃ l, assetWhitelist c e after limit = .ok l ∧ Full l (min (limit.getD 30) 100)
      (fun a => p.treasury.assets.Has a ∧ ∀ b, after = some b → Later b a)) ∧
    (∀ after, ∃ l, nftWhitelist c e after limit = .ok l ∧ Full l (min (limit.getD 30) 100)
      (fun a => p.treasury.nfts.has a = true ∧ Past after a)) ∧
    (∀ after, ∃ l, treasuries c e after limit = .ok l ∧ Full l (min (limit.getD 50) 100)
      (fun x => p.outposts.treasuries.get x.1 = some x.2 ∧ Past after x.1)) ∧
    (∀ after m, p.member = .multisig m → ∃ l, multisigMembers c e after limit = .ok l ∧
      Full l (min (limit.getD 50) 100) (fun x => m.weights.get x.1 = some x.2 ∧ Past after x.1)) ∧
    (∀ after, (∃ l, multisigMembers c e after limit = .ok l) → ∃ m, p.member = .multisig m) := by
  have hk := h.kind
  refine ⟨fun after => ⟨_, ?_, C88_asset_whitelist p.treasury.assets after limit⟩,
    fun after => ⟨_, ?_, C88_nft_whitelist p.treasury after limit⟩,
    fun after => ⟨_, ?_, C88_treasuries p.outposts after limit⟩,
    fun after m hm => ⟨_, ?_, C88_members m after limit⟩, fun after hl => ?_⟩
  · unfold assetWhitelist
    rw [components_dao h, ok_bind, treasuryAt_dao h, ok_bind]; rfl
  · unfold nftWhitelist
    rw [components_dao h, ok_bind, treasuryAt_dao h, ok_bind]; rfl
  · unfold treasuries
    rw [components_dao h, ok_bind, outpostsAt_dao h, ok_bind]; rfl
  · unfold multisigMembers
    rw [enterpriseAt_dao h, ok_bind]
    rw [hm] at hk
    cases ht : p.main.daoType with
    | multisig =>
      simp only
      rw [components_dao h, ok_bind, memberAt_dao h, ok_bind, hm]; rfl
    | _ => rw [ht] at hk; cases hk
  · obtain ⟨l, hl⟩ := hl
    unfold multisigMembers at hl
    rw [enterpriseAt_dao h, ok_bind] at hl
    cases ht : p.main.daoType with
    | multisig =>
      rw [ht] at hk
      cases hm : p.member with
      | multisig m => exact ⟨m, rfl⟩
      | staking k s => rw [hm] at hk; cases k <;> cases hk
      | nft s => rw [hm] at hk; cases hk
    | _ => rw [ht] at hl; cases hl

example : IsDao (sampleChain (smpDao (.multisig Dao.sampleCouncil))) 3 (smpDao (.multisig Dao.sampleCouncil)) ∧
    (multisigMembers (sampleChain (smpDao (.multisig Dao.sampleCouncil))) 3 (some 40) none).toOption
      = some [(41, 1), (42, 1)] := ⟨smp_isDao _, by decide +kernel⟩

/-- The amount of a stake. -/
def Stake.amount : Stake → Nat
  | .denom n => n
  | .token n => n
  | .nft _ n => n
  | .none => 0

/-- C104: stakes. In every state that a DAO can reach the query for a user's stake answers with the weight of the user,
and the query for the total with the sum of the stakes of all users; both are zero for a multisig. -/
theorem C104_stakes {cfg : Dao.Cfg} (hw : cfg.Wf) (ht : cfg.Tame) {w : Dao.World} (hr : Dao.Reachable cfg w)
    {ext : Dao.Ext} {c : Chain} {e : Addr} {p : Parts} (h : IsDao c e p) (hp : p.Seen cfg ext w) (after limit : Option Nat) :
    (∀ u, ∃ x, userStake c e u after limit = .ok x ∧
      x.amount = if p.member.daoType = .multisig then 0 else w.mem.weight u) ∧
    (∃ n, totalStaked c e = .ok n ∧ ∀ l : List (Addr × Stake), (l.map (·.1)).Nodup →
      (∀ q ∈ l, userStake c e q.1 after limit = .ok q.2) →
      (l.map (·.2.amount)).sum ≤ n ∧
      ((∀ u, w.mem.weight u ≠ 0 → u ∈ l.map (·.1)) → (l.map (·.2.amount)).sum = n)) := by
  have hm := (hr.base hw ht).mem
  have hu : ∀ u, ∃ x, userStake c e u after limit = .ok x ∧
      x.amount = if p.member.daoType = .multisig then 0 else w.mem.weight u := by
    intro u
    unfold userStake
    rw [components_dao h, ok_bind, typeOf_dao h, ok_bind]
    have hmem := memberAt_dao h
    rw [hp.member] at hmem ⊢
    cases hx : w.mem with
    | staking k s =>
      rw [hx] at hmem
      cases k with
      | token => simp only [Member.daoType]; rw [hmem]; exact ⟨_, rfl, rfl⟩
      | denom => simp only [Member.daoType]; rw [hmem]; exact ⟨_, rfl, rfl⟩
    | nft s => rw [hx] at hmem; simp only [Member.daoType]; rw [hmem]; exact ⟨_, rfl, rfl⟩
    | multisig s => exact ⟨_, rfl, rfl⟩
  refine ⟨hu, if p.member.daoType = .multisig then 0 else w.mem.total .never, ?_, fun l hl hq => ?_⟩
  · unfold totalStaked
    rw [typeOf_dao h, ok_bind]
    have hmem := memberAt_dao h
    rw [hp.member] at hmem ⊢
    cases hx : w.mem with
    | staking k s =>
      rw [hx] at hmem
      cases k with
      | token => simp only [Member.daoType]; rw [components_dao h, ok_bind, hmem]; rfl
      | denom => simp only [Member.daoType]; rw [components_dao h, ok_bind, hmem]; rfl
    | nft s => rw [hx] at hmem; simp only [Member.daoType]; rw [components_dao h, ok_bind, hmem]; rfl
    | multisig s => rfl
  · have hmap : l.map (·.2.amount) = (l.map (·.1)).map
        (fun u => if p.member.daoType = .multisig then 0 else w.mem.mem.weight u) := by
      rw [List.map_map]
      refine List.map_congr_left (fun q hqq => ?_)
      obtain ⟨x, hx, ha⟩ := hu q.1
      rw [hq q hqq] at hx
      cases hx
      rw [ha, Member.weight_eq]
      rfl
    rw [hmap]
    by_cases hd : p.member.daoType = .multisig
    · simp only [hd, if_true]
      have : ((l.map (·.1)).map (fun _ => 0)).sum = 0 := by
        generalize l.map (·.1) = k
        induction k with
        | nil => rfl
        | cons a k ih => simpa using ih
      rw [this]
      exact ⟨le_refl _, fun _ => rfl⟩
    · simp only [hd, if_false]
      rw [hm.total]
      obtain ⟨h1, h2⟩ := sum_weights w.mem.mem hl
      exact ⟨h1, fun hall => h2 (fun u hu => hall u (by rw [Member.weight_eq]; exact hu))⟩

example : Dao.Reachable Dao.sampleCfg smpStaked ∧ (sampleSeen smpStaked).Seen Dao.sampleCfg Dao.sampleExt smpStaked ∧
    userStake (sampleChain (sampleSeen smpStaked)) 3 10 none none = .ok (.denom 60) ∧
    totalStaked (sampleChain (sampleSeen smpStaked)) 3 = .ok 100 :=
  ⟨Dao.sampleRun_reachable _, sample_seen _, by decide +kernel, by decide +kernel⟩

/-- C104: staked NFTs. The facade lists the staked tokens of an NFT DAO, and those of a user; of any other DAO none. -/
theorem C104_nfts {c : Chain} {e : Addr} {p : Parts} (h : IsDao c e p) (after limit : Option Nat) :
    (∀ s, p.member = .nft s →
      (∃ l, stakedNfts c e after limit = .ok l ∧
        Full l (min (limit.getD 50) 100) (fun t => (∃ u, s.stakes.get t = some u) ∧ Past after t)) ∧
      ∀ u, ∃ l n, userStake c e u after limit = .ok (.nft l n) ∧
        Full l (min (limit.getD 50) 100) (fun t => s.stakes.get t = some u ∧ Past after t)) ∧
    (p.member.daoType ≠ .nft → stakedNfts c e after limit = .ok []) := by
  have hmem := memberAt_dao h
  refine ⟨fun s hs => ⟨⟨_, ?_, C88_staked_nfts s after limit⟩, fun u => ⟨_, s.mem.weight u, ?_,
    C88_user_nfts s u after limit⟩⟩, fun hd => ?_⟩
  · unfold stakedNfts
    rw [typeOf_dao h, ok_bind]
    rw [hs] at hmem ⊢
    simp only [Member.daoType]
    rw [components_dao h, ok_bind, hmem]
    rfl
  · unfold userStake
    rw [components_dao h, ok_bind, typeOf_dao h, ok_bind]
    rw [hs] at hmem ⊢
    simp only [Member.daoType]
    rw [hmem]
    rfl
  · unfold stakedNfts
    rw [typeOf_dao h, ok_bind]
    cases ht : p.member.daoType with
    | nft => exact absurd ht hd
    | _ => rfl

example : (smpDao (.nft smpNft.st)).member = .nft smpNft.st ∧
    stakedNfts (sampleChain (smpDao (.nft smpNft.st))) 3 none none = .ok [103] := ⟨rfl, by decide +kernel⟩

/-- An amount of the asset that a DAO of this kind stakes. -/
def amountIn : Staking.Kind → Nat → ClaimAsset
  | .denom, n => .denom n
  | .token, n => .cw20 n

/-- C104: claims of a token or denom DAO. The facade lists exactly the outstanding claims of a user, once each, or those
of them that are due, with the amounts, in the asset of the DAO, and the times of release. -/
theorem C104_claims {c : Chain} {e : Addr} {p : Parts} (h : IsDao c e p) {k : Staking.Kind} {s : Staking.State}
    (hs : p.member = .staking k s) (hr : Staking.Reachable k s) (u : Addr) (b : Block) :
    ∃ (l d : List Staking.Claim), claims none c e u = .ok (l.map (fun x => ⟨amountIn k x.amount, x.release⟩)) ∧
      claims (some b) c e u = .ok (d.map (fun x => ⟨amountIn k x.amount, x.release⟩)) ∧
      (l.map (·.id)).Nodup ∧ (∀ x, x ∈ l ↔ s.claims.get x.id = some x ∧ x.user = u) ∧
      (d.map (·.id)).Nodup ∧ (∀ x, x ∈ d ↔ s.claims.get x.id = some x ∧ Staking.Due u b x) := by
  obtain ⟨h1, h2, h3, h4, _⟩ := Staking.C81_claims hr u b
  have hmem := memberAt_dao h
  refine ⟨_, _, ?_, ?_, h1, h2, h3, h4⟩
  · unfold claims
    rw [typeOf_dao h, ok_bind]
    rw [hs] at hmem ⊢
    cases k <;> simp only [Member.daoType] <;> rw [components_dao h, ok_bind, hmem] <;> rfl
  · unfold claims
    rw [typeOf_dao h, ok_bind]
    rw [hs] at hmem ⊢
    cases k <;> simp only [Member.daoType] <;> rw [components_dao h, ok_bind, hmem] <;> rfl

/-- The token DAO in the middle of the sample history of its membership contract. -/
def smpClaims : Member := .staking .token (Staking.run .token Staking.smpInit (Staking.smpToken.take 4))

example : IsDao (sampleChain (smpDao smpClaims)) 3 (smpDao smpClaims) ∧
    Staking.Reachable .token (Staking.run .token Staking.smpInit (Staking.smpToken.take 4)) ∧
    (claims (some ⟨30, 30 * 10 ^ 9⟩) (sampleChain (smpDao smpClaims)) 3 1).toOption.map (·.map (·.asset)) = some [.cw20 3] :=
  ⟨smp_isDao _, Staking.smp_reachable, by decide +kernel⟩

/-- C104: claims of an NFT DAO, in the same way; a multisig has none. -/
theorem C104_nft_claims {c : Chain} {e : Addr} {p : Parts} (h : IsDao c e p) (u : Addr) (b : Block) :
    (∀ s, p.member = .nft s → Nft.Reachable s →
      ∃ (l d : List Nft.Claim), claims none c e u = .ok (l.map (fun x => ⟨.cw721 x.nfts, x.release⟩)) ∧
        claims (some b) c e u = .ok (d.map (fun x => ⟨.cw721 x.nfts, x.release⟩)) ∧
        (l.map (·.id)).Nodup ∧ (∀ x, x ∈ l ↔ s.claims.get x.id = some x ∧ x.user = u) ∧
        (d.map (·.id)).Nodup ∧ (∀ x, x ∈ d ↔ s.claims.get x.id = some x ∧ Nft.Due u b x)) ∧
    (∀ m, p.member = .multisig m → claims none c e u = .ok [] ∧ claims (some b) c e u = .ok []) := by
  have hmem := memberAt_dao h
  refine ⟨fun s hs hr => ?_, fun m hm => ?_⟩
  · obtain ⟨h1, h2, h3, h4, _⟩ := Nft.C81_nft_claims hr u b
    refine ⟨_, _, ?_, ?_, h1, h2, h3, h4⟩
    · unfold claims
      rw [typeOf_dao h, ok_bind]
      rw [hs] at hmem ⊢
      simp only [Member.daoType]
      rw [components_dao h, ok_bind, hmem]
      rfl
    · unfold claims
      rw [typeOf_dao h, ok_bind]
      rw [hs] at hmem ⊢
      simp only [Member.daoType]
      rw [components_dao h, ok_bind, hmem]
      rfl
  · unfold claims
    rw [typeOf_dao h, ok_bind, hm]
    exact ⟨rfl, rfl⟩

example : IsDao (sampleChain (smpDao (.nft (Nft.run Nft.smpInit (Nft.smp.take 8))))) 3
      (smpDao (.nft (Nft.run Nft.smpInit (Nft.smp.take 8)))) ∧ Nft.Reachable (Nft.run Nft.smpInit (Nft.smp.take 8)) ∧
    (claims none (sampleChain (smpDao (.nft (Nft.run Nft.smpInit (Nft.smp.take 8))))) 3 1).toOption.map (·.map (·.asset))
      = some [.cw721 [102]] := ⟨smp_isDao _, Nft.smp_reachable 8, by decide +kernel⟩

/-- C104: proposals. In every state that a DAO can reach, the facade knows exactly the proposals numbered from one, its
list shows each as the query for it alone does, and the query for the status agrees with both. A filtered list shows those
of them that the filter of the controller selects (see C94 for what that is). -/
theorem C104_proposals {cfg : Dao.Cfg} (hw : cfg.Wf) (ht : cfg.Tame) {w : Dao.World} (hr : Dao.Reachable cfg w)
    {ext : Dao.Ext} {c : Chain} {e : Addr} {p : Parts} (h : IsDao c e p) (hp : p.Seen cfg ext w) :
    (∀ id, (∃ x, proposal c e id = .ok x) ↔ 1 ≤ id ∧ id ≤ w.gov.pollCount) ∧
    (∀ id x, proposal c e id = .ok x → x.id = id ∧ proposalStatus c e id = .ok x.status) ∧
    (∀ after limit, ∃ l, proposals c e none after limit = .ok l ∧
      Full l (min (limit.getD 50) 100) (fun x => proposal c e x.id = .ok x ∧ Past after x.id)) ∧
    (∀ f after limit, ∃ l, proposals c e (some f) after limit = .ok l ∧
      Full l (min (limit.getD 50) 100) (fun x => proposal c e x.id = .ok x ∧ Past after x.id ∧ Dao.Selected w f x)) := by
  have hb := hr.base hw ht
  have hprop : ∀ id, proposal c e id = Controller.queryProposal (cfg.env ext w) w.ctl w.gov id := by
    intro id
    unfold proposal
    rw [components_dao h, ok_bind, controllerAt_dao h, ok_bind, hp.ctl]
  have hstat : ∀ id, proposalStatus c e id = Controller.queryStatus (cfg.env ext w) w.ctl w.gov id := by
    intro id
    unfold proposalStatus
    rw [components_dao h, ok_bind, controllerAt_dao h, ok_bind, hp.ctl]
  refine ⟨fun id => ?_, fun id x hx => ?_, fun after limit => ?_, fun f after limit => ?_⟩
  · rw [hprop, ← hb.ctl.inv.ids id]
    constructor
    · rintro ⟨x, hx⟩
      unfold Controller.queryProposal Gov.queryPoll at hx
      cases hq : w.gov.polls.get id with
      | none => rw [hq] at hx; cases hx
      | some q => exact ⟨q, rfl⟩
    · rintro ⟨q, hq⟩
      exact ⟨_, (Dao.answer_ok hb (cfg.env ext w) hq).2.2⟩
  · rw [hprop] at hx
    rw [hstat]
    cases hq : w.gov.polls.get id with
    | none =>
      unfold Controller.queryProposal Gov.queryPoll at hx
      rw [hq] at hx; cases hx
    | some q =>
      have hid := (hb.ctl.inv.pid id q hq).1
      have hpoll : Gov.queryPoll w.gov id = .ok q := by unfold Gov.queryPoll; rw [hq]
      unfold Controller.queryProposal at hx
      rw [hpoll] at hx
      change Controller.toResponse _ _ _ q = .ok x at hx
      unfold Controller.toResponse at hx
      unfold Controller.queryStatus
      rw [hpoll]
      change x.id = id ∧ (match w.ctl.infos.get id with
        | none => Except.error Err.notFound
        | some i => Controller.fixStatus (cfg.env ext w) w.ctl w.gov id q.status i) = _
      rw [hid] at hx
      cases hi : w.ctl.infos.get id with
      | none => rw [hi] at hx; cases hx
      | some i =>
        rw [hi] at hx
        simp only [bind_ok_iff, pure_ok_iff] at hx
        obtain ⟨st, hst, rfl⟩ := hx
        exact ⟨rfl, hst⟩
  · obtain ⟨l, h1, h2⟩ := Dao.C93_page hw ht hr ext after limit
    refine ⟨l, ?_, ?_⟩
    · unfold proposals
      rw [components_dao h, ok_bind, controllerAt_dao h, ok_bind, hp.ctl]
      exact h1
    · exact full_congr h2 (fun x => by rw [hprop])
  · obtain ⟨l, h1, h2⟩ := Dao.C94_filter_partial hw ht hr ext f after limit
    refine ⟨l, ?_, ?_⟩
    · unfold proposals
      rw [components_dao h, ok_bind, controllerAt_dao h, ok_bind, hp.ctl]
      exact h1
    · exact full_congr h2 (fun x => by rw [hprop])

example : Dao.Reachable Dao.sampleCfg (Dao.sampleRun Dao.sampleDone) ∧
    IsDao (sampleChain (sampleSeen (Dao.sampleRun Dao.sampleDone))) 3 (sampleSeen (Dao.sampleRun Dao.sampleDone)) ∧
    proposalStatus (sampleChain (sampleSeen (Dao.sampleRun Dao.sampleDone))) 3 1 = .ok .executed :=
  ⟨Dao.sampleRun_reachable _, sample_isDao _ (by decide +kernel), by decide +kernel⟩

/-- C104: votes. The facade shows the vote of a member on a proposal exactly as it was cast, and lists the votes on a
proposal, each as the query for its voter shows it. -/
theorem C104_votes {cfg : Dao.Cfg} (hw : cfg.Wf) (ht : cfg.Tame) {w : Dao.World} (hr : Dao.Reachable cfg w)
    {ext : Dao.Ext} {c : Chain} {e : Addr} {p : Parts} (h : IsDao c e p) (hp : p.Seen cfg ext w) (id : Nat) :
    (∀ u, memberVote c e u id = .ok (w.gov.votes.get (toLex (u, id)))) ∧
    ∀ after limit, ∃ l, proposalVotes c e id after limit = .ok l ∧
      Full l (min (limit.getD 50) 100) (fun v => memberVote c e v.voter id = .ok (some v) ∧ Past after v.voter) := by
  have hv : ∀ u, memberVote c e u id = .ok (Controller.queryMemberVote w.gov id u) := by
    intro u
    unfold memberVote
    rw [components_dao h, ok_bind, controllerAt_dao h, ok_bind, hp.ctl]
    rfl
  refine ⟨fun u => by rw [hv]; rfl, fun after limit => ⟨Controller.queryProposalVotes w.gov id after limit, ?_, ?_⟩⟩
  · unfold proposalVotes
    rw [components_dao h, ok_bind, controllerAt_dao h, ok_bind, hp.ctl]
    rfl
  · refine full_congr (Dao.C93_votes hw ht hr id after limit) (fun v => ?_)
    rw [hv, Except.ok.injEq]

example : (proposalVotes (sampleChain (sampleSeen (Dao.sampleRun Dao.sampleDone))) 3 1 none none).toOption.map
    (·.map (fun v => (v.voter, v.outcome, v.amount))) = some [(10, .yes, 60), (11, .no, 40)] := by decide +kernel

/-- C104: the treasury that the facade names is the one that the controller sends its messages and forfeited deposits to.
Only the controller can use it, and naming it leads back to the DAO. -/
theorem C104_treasury {c : Chain} {e : Addr} {p : Parts} (h : IsDao c e p) (s : Config) :
    ∃ a, treasuryAddress c e = .ok a ∧ a = p.ctl.env.comps.treasury ∧
      (∃ t m, c a = some (.treasury t m) ∧ t.admin = p.ctl.env.self) ∧ getFacade s c a = .ok ⟨s.v2, e⟩ := by
  refine ⟨p.at_.treasury, ?_, h.envTreasury.symm, ⟨_, _, h.treasury, by rw [h.admin, h.self]⟩, ?_⟩
  · unfold treasuryAddress
    rw [components_dao h, ok_bind]
    rfl
  · have := (C95_same_dao h s (fun f d => .ok (⟨f, d⟩ : Target))).1
    unfold forward at this
    obtain ⟨t, h1, h2⟩ := bind_ok_iff.1 this
    rw [h1]
    exact h2

example : IsDao (sampleChain (sampleSeen smpStaked)) 3 (sampleSeen smpStaked) ∧
    treasuryAddress (sampleChain (sampleSeen smpStaked)) 3 = .ok 4 := ⟨smpStaked_dao, by decide +kernel⟩

theorem isEmpty_iff_get {K V : Type} [LinearOrder K] (m : Map K V) : (!m.entries.isEmpty) = true ↔ ∃ k v, m.get k = some v := by
  constructor
  · intro h
    cases he : m.entries with
    | nil => rw [he] at h; cases h
    | cons x t =>
      have : x ∈ m.entries := by rw [he]; exact List.mem_cons_self
      exact ⟨x.1, x.2, Map.get_eq_some_iff.2 this⟩
  · rintro ⟨k, v, h⟩
    cases he : m.entries with
    | nil =>
      have := Map.get_eq_some_iff.1 h
      rw [he] at this
      cases this
    | cons x t => rfl

/-- C104: migration of the stakes of a DAO from before the rewrite. From version 1.0.2 on the facade tells whether the
treasury still holds any stake, NFT or claim that was not moved. The migration is reported as under way exactly while the
treasury says so. -/
theorem C104_migration {c : Chain} {e : Addr} {p : Parts} (h : IsDao c e p) {d : DaoInfo} (hd : daoInfo c e = .ok d) :
    (hasIncomplete c e = .ok true ↔ p.migration.stage = .inProgress) ∧
    (migrationStage c e = .ok .inProgress ↔ p.migration.stage = .inProgress) ∧
    (Versioning.ver 1 0 2 ≤ p.main.version → (hasUnmoved c e = .ok true ↔
      (∃ u n, p.migration.stakes.get u = some n) ∨ (∃ u n, p.migration.nftStakes.get u = some n) ∨
      ∃ u n, p.migration.claims.get u = some n)) := by
  have hi : hasIncomplete c e = .ok (Migration.hasIncomplete p.migration) := by
    unfold hasIncomplete
    rw [components_dao h, ok_bind, treasuryAt_dao h, ok_bind]; rfl
  refine ⟨?_, ?_, fun hv => ?_⟩
  · rw [hi]
    unfold Migration.hasIncomplete
    simp
  · unfold migrationStage
    rw [hi, ok_bind]
    unfold Migration.hasIncomplete
    by_cases hs : p.migration.stage = .inProgress
    · simp [hs]; rfl
    · simp only [hs, decide_false, iff_false]
      intro hh; cases hh
  · have hver : d.version = p.main.version := (C96_rules h hd).2.2.1
    unfold hasUnmoved
    rw [hd, ok_bind, hver, if_neg (not_lt.2 hv), components_dao h, ok_bind, treasuryAt_dao h, ok_bind]
    have : (pure (Migration.hasUnmoved p.migration) : Except Err Bool) = .ok true ↔
        Migration.hasUnmoved p.migration = true := by
      constructor
      · intro hh; exact Except.ok.inj hh
      · intro hh; rw [hh]; rfl
    rw [this]
    unfold Migration.hasUnmoved
    rw [Bool.or_eq_true, Bool.or_eq_true, isEmpty_iff_get, isEmpty_iff_get, isEmpty_iff_get, or_assoc]

example : (daoInfo (sampleChain (sampleSeen smpStaked)) 3).toOption.isSome = true ∧
    Versioning.ver 1 0 2 ≤ (sampleSeen smpStaked).main.version := by decide +kernel

end Verif.Facade
