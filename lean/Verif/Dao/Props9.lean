import Verif.Dao.Leave

/-!
# The contracts of a DAO together: members can leave and vote (C117, C118)
-/

set_option linter.unusedSimpArgs false

namespace Verif.Dao
open Verif

/-! ### Specification -/

/-- The rewards due of any asset, without rounding, are less than 2^128 units. (`owedOf` is in units of 10^-18. They are at
most what was distributed of the asset and not yet claimed, C34.) -/
def RewardsFit (w : World) : Prop := ∀ a, Distributor.owedOf w.dist a < 10 ^ 18 * 2 ^ 128

/-! ### Lemmas -/

/-- A message to the membership contract that notifies the controller of a lower weight of one user. -/
theorem lower_handled {c : Cfg} (hw : c.Wf) (ht : c.Tame) {w : World} (h : Reachable c w) (hk : w.mem.daoType ≠ .multisig)
    (hf : RewardsFit w) {e : Ext} {u : Addr} {m : MemberMsg} {x : Member} {n : Nat} (hn : n ≤ w.mem.weight u)
    (hx : w.mem.exec ⟨c.menv e w u, e.proxy⟩ m = .ok (x, w.mem.mem.report [⟨u, w.mem.weight u, n⟩])) :
    ∃ g d, handle c e w u (.mem m) = .ok ({ w with mem := x, gov := g, dist := d }, []) := by
  have hb := h.base hw ht
  obtain ⟨g, d, hdel, _⟩ := report_lower hw hb (h.dist hw ht) (h.led hw ht hk) hf e (x := x) hn
  refine ⟨g, d, ?_⟩
  simp only [handle]
  refine bind_ok_iff.2 ⟨_, hx, ?_⟩
  rw [report_single hb.mem.hooks]
  exact hdel

/-! ## C117 -/

/-- Nothing in a token or denom DAO can keep a member from unstaking: any part of the stake is accepted, by the staking
contract and by all contracts that it notifies, and it becomes a claim of the member. (The counter of claims has 64
bits.) -/
theorem C117_unstake {c : Cfg} (hw : c.Wf) (ht : c.Tame) {w : World} (h : Reachable c w) {k : Staking.Kind}
    {s : Staking.State} (hm : w.mem = .staking k s) (u : Addr) {n : Nat} (hn : n ≤ w.mem.weight u)
    (hid : s.nextClaim + 1 < 2 ^ 64) (hroom : w.gov.pollCount + 1 < 2 ^ 64) (hf : RewardsFit w) (e : Ext) :
    ∃ w1 s1, handle c e w u (.mem (.staking (.unstake n))) = .ok (w1, []) ∧
      Exec c w [.call u (.mem (.staking (.unstake n)))] w1 ∧
      w1.mem = .staking k s1 ∧ w1.mem.weight u = w.mem.weight u - n ∧
      (∀ v, v ≠ u → w1.mem.weight v = w.mem.weight v) ∧
      s1.claims.get s.nextClaim = some ⟨s.nextClaim, u, n, Staking.releaseAt s.unlocking w.block⟩ ∧
      (∀ i, i ≠ s.nextClaim → s1.claims.get i = s.claims.get i) := by
  have hb := h.base hw ht
  have hwt : ∀ v, w.mem.weight v = s.mem.weight v := fun v => by rw [hm]; rfl
  have hg : (Member.staking k s).Ok c.self := hm ▸ hb.mem
  have hi : Staking.Inv s := hg.good
  have hle : n ≤ s.mem.total := by
    have h1 := s.mem.weight_le_wsum u
    have h2 := hi.total
    rw [hwt] at hn
    omega
  obtain ⟨r, hr, hx⟩ : ∃ r, r = _ ∧ Staking.unstake s (c.menv e w u) n = .ok r :=
    ⟨_, rfl, Staking.unstake_ok_iff.2 ⟨by rw [hwt] at hn; exact hn, hle, hid, rfl⟩⟩
  have hr2 : r.2 = s.mem.report [⟨u, s.mem.weight u, s.mem.weight u - n⟩] := by rw [hr]; rfl
  have hex : w.mem.exec ⟨c.menv e w u, e.proxy⟩ (.staking (.unstake n)) =
      .ok (.staking k r.1, w.mem.mem.report [⟨u, w.mem.weight u, w.mem.weight u - n⟩]) := by
    rw [hwt u, hm]
    simp only [Member.exec]
    refine bind_ok_iff.2 ⟨r, ?_, ?_⟩
    · cases k <;> exact hx
    · rw [hr2]; rfl
  obtain ⟨g, d, hh⟩ := lower_handled hw ht h (by rw [hm]; cases k <;> simp [Member.daoType]) hf (by omega) hex
  refine ⟨_, r.1, hh, .call e hroom hh (.nil _) (.nil _), rfl, ?_, ?_, ?_, ?_⟩
  · show r.1.mem.weight u = _
    rw [hr, hwt]
    simp [Members.saveTotal_weight, Members.weight_setWeight, Cfg.menv]
  · intro v hv
    show r.1.mem.weight v = _
    rw [hr, hwt]
    simp [Members.saveTotal_weight, Members.weight_setWeight, Cfg.menv, hv]
  · rw [hr]
    simp only [Map.get_set_self]
    rfl
  · intro i hne
    rw [hr]
    simp only [Map.get_set]
    rw [if_neg (fun hh => hne hh.symm)]

/-- The same in an NFT DAO, for any of the member's NFTs. -/
theorem C117_unstake_nft {c : Cfg} (hw : c.Wf) (ht : c.Tame) {w : World} (h : Reachable c w) {s : Nft.State}
    (hm : w.mem = .nft s) (u : Addr) {l : List Nat} (hl : l.Nodup) (hn : ∀ t ∈ l, s.stakes.get t = some u)
    (hid : s.nextClaim + 1 < 2 ^ 64) (hroom : w.gov.pollCount + 1 < 2 ^ 64) (hf : RewardsFit w) (e : Ext) :
    ∃ w1 s1, handle c e w u (.mem (.nft (.unstake l))) = .ok (w1, []) ∧
      Exec c w [.call u (.mem (.nft (.unstake l)))] w1 ∧
      w1.mem = .nft s1 ∧ w1.mem.weight u = w.mem.weight u - l.length ∧
      (∀ v, v ≠ u → w1.mem.weight v = w.mem.weight v) ∧
      (∀ t, t ∈ l → s1.stakes.get t = none) ∧ (∀ t, t ∉ l → s1.stakes.get t = s.stakes.get t) ∧
      s1.claims.get s.nextClaim = some ⟨s.nextClaim, u, l, Staking.releaseAt s.unlocking w.block⟩ ∧
      (∀ i, i ≠ s.nextClaim → s1.claims.get i = s.claims.get i) := by
  have hb := h.base hw ht
  have hwt : ∀ v, w.mem.weight v = s.mem.weight v := fun v => by rw [hm]; rfl
  have hg : (Member.nft s).Ok c.self := hm ▸ hb.mem
  have hi : Nft.Inv s := hg.good
  have hsum := Nft.sum_removes (u := u) (fun _ w => if w = u then 1 else 0) l s.stakes hl hn
  simp only [if_true, Nft.sum_map_const, Nat.mul_one] at hsum
  have hwu := hi.weight u
  have hle : s.mem.weight u ≤ s.mem.wsum := Members.weight_le_wsum _ _
  have hws := hi.wsum
  have htot := hi.total
  obtain ⟨r, hr, hx⟩ : ∃ r, r = _ ∧ Nft.unstake s (c.menv e w u) l = .ok r :=
    ⟨_, rfl, Nft.unstake_ok_iff.2 ⟨hl, hn, by show l.length ≤ s.mem.weight u; omega, by omega, hid, rfl⟩⟩
  have hr2 : r.2 = s.mem.report [⟨u, s.mem.weight u, s.mem.weight u - l.length⟩] := by rw [hr]; rfl
  have hex : w.mem.exec ⟨c.menv e w u, e.proxy⟩ (.nft (.unstake l)) =
      .ok (.nft r.1, w.mem.mem.report [⟨u, w.mem.weight u, w.mem.weight u - l.length⟩]) := by
    rw [hwt u, hm]
    simp only [Member.exec]
    refine bind_ok_iff.2 ⟨r, hx, ?_⟩
    rw [hr2]; rfl
  obtain ⟨g, d, hh⟩ := lower_handled hw ht h (by rw [hm]; simp [Member.daoType]) hf (by omega) hex
  refine ⟨_, r.1, hh, .call e hroom hh (.nil _) (.nil _), rfl, ?_, ?_, ?_, ?_, ?_, ?_⟩
  · show r.1.mem.weight u = _
    rw [hr, hwt]
    simp [Members.saveTotal_weight, Members.weight_setWeight, Cfg.menv]
  · intro v hv
    show r.1.mem.weight v = _
    rw [hr, hwt]
    simp [Members.saveTotal_weight, Members.weight_setWeight, Cfg.menv, hv]
  · intro t ht; rw [hr]; simp only [Nft.get_removes, if_pos ht]
  · intro t ht; rw [hr]; simp only [Nft.get_removes, if_neg ht]
  · rw [hr]
    simp only [Map.get_set_self]
    rfl
  · intro i hne
    rw [hr]
    simp only [Map.get_set]
    rw [if_neg (fun hh => hne hh.symm)]

/-! ## C118 -/

theorem open_iff {c : Cfg} (hw : c.Wf) (ht : c.Tame) {w : World} (h : Reachable c w) {id : Nat} {i : Controller.Info}
    (hi : w.ctl.infos.get id = some i) {p : Gov.Poll} (hp : w.gov.polls.get id = some p) : outcome w id = none ↔ p.live := by
  rw [← (h.base hw ht).ctl.ended id i p hi hp]
  unfold outcome
  rw [hi, hp]
  cases hx : i.executedAt <;> simp [hx]

/-- A vote on a general proposal is accepted exactly if the proposal exists, is not executed, and voting has not ended, and
if the sender has weight and is not restricted: nothing else stands in the way of a member. -/
theorem C118_vote_accepted_iff {c : Cfg} (hw : c.Wf) (ht : c.Tame) {w : World} (h : Reachable c w) (e : Ext) (u : Addr)
    (id : Nat) (o : Gov.Outcome) :
    (∃ r, handle c e w u (.ctl (.castVote id o)) = .ok r) ↔
      e.restricted u = false ∧ 0 < w.mem.weight u ∧ ∃ i p, w.ctl.infos.get id = some i ∧ i.type = .general ∧
        Gov.queryPoll w.gov id = .ok p ∧ outcome w id = none ∧ w.block.time < p.endsAt := by
  have hb := h.base hw ht
  constructor
  · rintro ⟨r, hr⟩
    obtain ⟨x, hx⟩ := handle_ctl hr
    have he := hx.exec
    simp only [Controller.exec, bind_ok_iff, pure_ok_iff] at he
    obtain ⟨y, hy, _⟩ := he
    obtain ⟨h1, h2, i, p, q, h3, h4, h5, _, h6, _⟩ := Controller.castVote_ok_iff.1 hy
    obtain ⟨_, _, p', h7, h8, _, h9, _⟩ := Gov.castVote_ok_iff.1 h6
    rw [h5] at h7; cases h7
    exact ⟨h1, Nat.pos_of_ne_zero h2, i, p, h3, h4, Controller.queryPoll_ok_iff.2 h5, (open_iff hw ht h h3 h5).2 h8, h9⟩
  · rintro ⟨h1, h2, i, p, h3, h4, h5, h6, h7⟩
    have h5 := Controller.queryPoll_ok_iff.1 h5
    have hid := (hb.ctl.inv.ids id).1 ⟨p, h5⟩
    have hg : Gov.castVote w.gov w.block.time id o u (w.mem.weight u) = .ok _ :=
      Gov.castVote_ok_iff.2 ⟨by omega, by omega, p, h5, (open_iff hw ht h h3 h5).1 h6, hb.ctl.started id p h5, h7, rfl⟩
    have hc := (Controller.castVote_ok_iff (e := c.env e w) (u := u) (s := w.ctl) (g := w.gov) (id := id) (o := o)
      (r := (_, _))).2 ⟨h1, Nat.pos_iff_ne_zero.1 h2, i, p, _, h3, h4, h5, hb.ctl.gov.admin.symm, hg,
        Map.get_set_self _ _ _, rfl⟩
    exact ⟨_, bind_ok_iff.2 ⟨_, bind_ok_iff.2 ⟨_, hc, rfl⟩, rfl⟩⟩

/-- A vote on a council proposal is accepted exactly if the DAO has a council, the proposal exists, is not executed, and
voting has not ended, and if the sender has weight in the council and is not restricted. -/
theorem C118_council_vote_accepted_iff {c : Cfg} (hw : c.Wf) (ht : c.Tame) {w : World} (h : Reachable c w) (e : Ext)
    (u : Addr) (id : Nat) (o : Gov.Outcome) :
    (∃ r, handle c e w u (.ctl (.castCouncilVote id o)) = .ok r) ↔
      e.restricted u = false ∧ w.ctl.council ≠ none ∧ 0 < Multisig.queryWeight w.council u ∧
      ∃ i p, w.ctl.infos.get id = some i ∧ i.type = .council ∧
        Gov.queryPoll w.gov id = .ok p ∧ outcome w id = none ∧ w.block.time < p.endsAt := by
  have hb := h.base hw ht
  constructor
  · rintro ⟨r, hr⟩
    obtain ⟨x, hx⟩ := handle_ctl hr
    have he := hx.exec
    simp only [Controller.exec, bind_ok_iff, pure_ok_iff] at he
    obtain ⟨y, hy, _⟩ := he
    obtain ⟨h1, ⟨k, hk⟩, h2, i, h3, h4, _, h6, _⟩ := Controller.castCouncilVote_ok_iff.1 hy
    obtain ⟨_, _, p, h7, h8, _, h9, _⟩ := Gov.castVote_ok_iff.1 h6
    exact ⟨h1, by rw [hk]; simp, Nat.pos_of_ne_zero h2, i, p, h3, h4, Controller.queryPoll_ok_iff.2 h7,
      (open_iff hw ht h h3 h7).2 h8, h9⟩
  · rintro ⟨h1, hk, h2, i, p, h3, h4, h5, h6, h7⟩
    have h5 := Controller.queryPoll_ok_iff.1 h5
    have hid := (hb.ctl.inv.ids id).1 ⟨p, h5⟩
    have hg : Gov.castVote w.gov w.block.time id o u (Multisig.queryWeight w.council u) = .ok _ :=
      Gov.castVote_ok_iff.2 ⟨by omega, by omega, p, h5, (open_iff hw ht h h3 h5).1 h6, hb.ctl.started id p h5, h7, rfl⟩
    have hc := (Controller.castCouncilVote_ok_iff (e := c.env e w) (s := w.ctl) (r := (w.ctl, _))).2
      ⟨h1, Option.ne_none_iff_exists'.1 hk, Nat.pos_iff_ne_zero.1 h2, i, h3, h4, hb.ctl.gov.admin.symm, hg, rfl⟩
    exact ⟨_, bind_ok_iff.2 ⟨_, bind_ok_iff.2 ⟨_, hc, rfl⟩, rfl⟩⟩

/-- A vote that is accepted replaces the former vote of the sender on the proposal, counts with the weight of the sender, and
changes no other vote, weight or result. -/
theorem C118_vote_effect {c : Cfg} {w : World} {e : Ext} {u : Addr} {id : Nat} {o : Gov.Outcome}
    {r : World × List Item} (hr : handle c e w u (.ctl (.castVote id o)) = .ok r) :
    r.2 = [] ∧ Gov.queryPollVoter r.1.gov id u = some ⟨id, u, o, w.mem.weight u⟩ ∧
    (∀ j v, ¬ (j = id ∧ v = u) → Gov.queryPollVoter r.1.gov j v = Gov.queryPollVoter w.gov j v) ∧
    r.1.mem = w.mem ∧ r.1.council = w.council ∧ r.1.dist = w.dist ∧ ∀ j, outcome r.1 j = outcome w j := by
  obtain ⟨x, hx⟩ := handle_ctl hr
  have he := hx.exec
  simp only [Controller.exec, bind_ok_iff, pure_ok_iff] at he
  obtain ⟨y, hy, rfl⟩ := he
  obtain ⟨h1, h2, i, p, q, h3, h4, h5, _, h6, h7, h8⟩ := Controller.castVote_ok_iff.1 hy
  obtain ⟨_, _, p', h9, hl, _, _, h10⟩ := Gov.castVote_ok_iff.1 h6
  rw [h5] at h9; cases h9
  have hw1 := hx.world
  simp only at hw1
  have hg : r.1.gov = y.2 := by rw [hw1]
  refine ⟨hx.subs, ?_, ?_, by rw [hw1], by rw [hw1], by rw [hw1], ?_⟩
  · unfold Gov.queryPollVoter
    rw [hg, h10]
    simp only [Map.get_set_self]
    rfl
  · intro j v hne
    unfold Gov.queryPollVoter
    rw [hg, h10]
    simp only [Map.get_set]
    rw [if_neg]
    intro hk
    obtain ⟨k1, k2⟩ := Prod.mk.injEq .. ▸ (toLex.injective hk)
    exact hne ⟨k2.symm, k1.symm⟩
  · intro j
    have hc : r.1.ctl = y.1 := by rw [hw1]
    have hinf : ∀ k, ∃ f : Option Nat, y.1.infos.get k = (w.ctl.infos.get k).map (fun i => { i with earliest := f }) ∨
        y.1.infos.get k = w.ctl.infos.get k := by
      intro k
      rw [h8]
      unfold Controller.voted Controller.restartCooldown
      split
      · split
        · by_cases hk : id = k
          · subst hk
            refine ⟨some (min (Controller.plusSeconds w.block.time (w.ctl.config.voteDuration / 10)) q.endsAt), Or.inl ?_⟩
            rw [h3]
            simp only [Map.get_set_self, Option.map_some]
            rfl
          · exact ⟨none, Or.inr (by simp only [Map.get_set]; rw [if_neg hk])⟩
        · exact ⟨none, Or.inr rfl⟩
      · exact ⟨none, Or.inr rfl⟩
    have hpoll : (y.2.polls.get j).map (·.status) = (w.gov.polls.get j).map (·.status) := by
      rw [h10]
      simp only [Map.get_set]
      by_cases hj : id = j
      · subst hj; rw [if_pos rfl, h5]; simp
      · rw [if_neg hj]
    unfold outcome
    rw [hc, hg]
    obtain ⟨f, hf | hf⟩ := hinf j <;> rw [hf] <;>
      cases w.ctl.infos.get j <;> cases hq : y.2.polls.get j <;> cases hq' : w.gov.polls.get j <;>
        rw [hq, hq'] at hpoll <;> simp_all

/-! ### Examples -/

/-- Users 10 and 11 have staked and voted. User 10 can unstake all 60 coins. -/
example : RewardsFit (sampleRun sampleVoted) ∧ (sampleRun sampleVoted).mem.weight 10 = 60 ∧
    ((handle sampleCfg sampleExt (sampleRun sampleVoted) 10 (.mem (.staking (.unstake 60)))).toOption.map
      (fun r => (r.1.mem.weight 10, (Gov.queryPollVoter r.1.gov 1 10).map (·.amount)))) = some (0, some 0) := by
  refine ⟨?_, ?_, ?_⟩
  · intro a
    rw [Distributor.owed_empty (by decide +kernel)]
    decide
  · decide +kernel
  · decide +kernel

/-- A new NFT DAO, whose NFTs belong to the contract 25. -/
def nftGenesis : World :=
  { sampleGenesis with
    ctl := (Controller.init ⟨1, 10 ^ 9⟩ sampleCfg.enterprise .nft sampleConfig
      (some ⟨[40, 41, 42], ONE / 2, ONE / 2, some [.upgradeDao, .updateMetadata]⟩) [] []).toOption.getD sampleCtl
    mem := .nft (Nft.init ⟨1, 10 ^ 9⟩ (.cw721 25) (.time 1000) [1] [] []) }

theorem nft_genesis : Genesis sampleCfg nftGenesis :=
  ⟨⟨sampleConfig, some ⟨[40, 41, 42], ONE / 2, ONE / 2, some [.upgradeDao, .updateMetadata]⟩, [], by decide +kernel⟩, rfl,
    ⟨none, [], by decide +kernel⟩, ⟨.cw721 25, .time 1000, rfl⟩, ⟨[(40, 1), (41, 1), (42, 1)], by decide +kernel⟩, rfl⟩

/-- User 10 stakes the NFTs 5, 6 and 7. -/
def nftStaked : List Step :=
  [.tx sampleExt 25 (.mem (.nft (.receiveNft 5 (.stake 10)))), .tx sampleExt 25 (.mem (.nft (.receiveNft 6 (.stake 10)))),
    .tx sampleExt 25 (.mem (.nft (.receiveNft 7 (.stake 10))))]

/-- User 10 can unstake two of them. -/
example : ∃ w s, runAll sampleCfg nftGenesis nftStaked = some w ∧ Reachable sampleCfg w ∧ w.mem = .nft s ∧
    (∀ t ∈ [7, 5], s.stakes.get t = some 10) ∧ RewardsFit w ∧ w.mem.weight 10 = 3 ∧
    ((handle sampleCfg sampleExt w 10 (.mem (.nft (.unstake [7, 5])))).toOption.map (fun r => r.1.mem.weight 10)) =
      some 1 := by
  obtain ⟨w, hw⟩ : ∃ w, runAll sampleCfg nftGenesis nftStaked = some w := by
    have : (runAll sampleCfg nftGenesis nftStaked).isSome = true := by decide +kernel
    exact Option.isSome_iff_exists.1 this
  have hw' : w = (runAll sampleCfg nftGenesis nftStaked).getD nftGenesis := by rw [hw]; rfl
  have hr := runAll_reachable nftStaked (.init nft_genesis) hw
  have hm : ∃ s, w.mem = .nft s ∧ ∀ t ∈ [7, 5], s.stakes.get t = some 10 := by
    rw [hw']
    exact ⟨_, rfl, by decide +kernel⟩
  obtain ⟨s, hm, hs⟩ := hm
  refine ⟨w, s, hw, hr, hm, hs, fun a => ?_, ?_, ?_⟩
  · rw [Distributor.owed_empty (by rw [hw']; decide +kernel)]
    decide
  · rw [hw']; decide +kernel
  · rw [hw']; decide +kernel

/-- User 12, without weight, cannot vote; user 11 can vote again until the end. -/
example : (handle sampleCfg sampleExt (sampleRun sampleVoted) 12 (.ctl (.castVote 1 .no))).isOk = false ∧
    (handle sampleCfg sampleExt (sampleRun (sampleVoted ++ [at_ 101])) 11 (.ctl (.castVote 1 .yes))).isOk = true ∧
    (handle sampleCfg sampleExt (sampleRun (sampleVoted ++ [at_ 102])) 11 (.ctl (.castVote 1 .yes))).isOk = false := by
  refine ⟨?_, ?_, ?_⟩ <;> decide +kernel

end Verif.Dao
