import Verif.Dao.Join
import Verif.Dao.Props9

/-!
# The contracts of a DAO together: anyone who is not restricted can join (C119)
-/

set_option linter.unusedSimpArgs false

namespace Verif.Dao
open Verif

/-! ### Specification -/

/-- The stakes and the weights for rewards still fit into 128 bits when `n` is added for a member. -/
structure Fits (w : World) (u : Addr) (n : Nat) : Prop where
  stakes : w.mem.total .never + n < 2 ^ 128
  rewards : w.dist.total + (w.mem.weight u + n) < 2 ^ 128

/-- The member has `n` more weight, the others what they had. -/
def Joined (w w1 : World) (u : Addr) (n : Nat) : Prop :=
  w1.mem.weight u = w.mem.weight u + n ∧ ∀ v, v ≠ u → w1.mem.weight v = w.mem.weight v

/-! ### Lemmas -/

theorem stake_handled {c : Cfg} (hw : c.Wf) (ht : c.Tame) {w : World} (h : Reachable c w) {k : Staking.Kind}
    {s : Staking.State} (hm : w.mem = .staking k s) {a u : Addr} {n : Nat} (hn : Fits w u n) (hf : RewardsFit w) {e : Ext}
    {m : Staking.Msg} (hx : ∀ r, Staking.exec k s (c.menv e w a) m = .ok r ↔ Staking.stakeFor s (c.menv e w a) u n = .ok r) :
    ((∃ r, handle c e w a (.mem (.staking m)) = .ok r) ↔ e.restricted u = false) ∧
    ∀ r, handle c e w a (.mem (.staking m)) = .ok r → r.2 = [] ∧ Joined w r.1 u n := by
  have hb := h.base hw ht
  have hwt : ∀ v, w.mem.weight v = s.mem.weight v := fun v => by rw [hm]; rfl
  have htt : w.mem.total .never = s.mem.total := by rw [hm]; rfl
  obtain ⟨f1, f2⟩ := hn
  rw [htt] at f1
  have hg : (Member.staking k s).Ok c.self := hm ▸ hb.mem
  have hi : Staking.Inv s := hg.good
  have h1 := s.mem.weight_le_wsum u
  have h2 := hi.total
  have key : e.restricted u = false → ∃ w1, handle c e w a (.mem (.staking m)) = .ok (w1, []) ∧ Joined w w1 u n := by
    intro hr0
    obtain ⟨r, hr, hs⟩ : ∃ r, r = _ ∧ Staking.stakeFor s (c.menv e w a) u n = .ok r :=
      ⟨_, rfl, Staking.stakeFor_ok_iff.2 ⟨hr0, by unfold M128; omega, by unfold M128; omega, rfl⟩⟩
    have hr2 : r.2 = s.mem.report [⟨u, s.mem.weight u, s.mem.weight u + n⟩] := by rw [hr]
    have hex : w.mem.exec ⟨c.menv e w a, e.proxy⟩ (.staking m) =
        .ok (.staking k r.1, w.mem.mem.report [⟨u, s.mem.weight u, s.mem.weight u + n⟩]) := by
      rw [hm]
      simp only [Member.exec]
      refine bind_ok_iff.2 ⟨r, (hx r).2 hs, ?_⟩
      rw [hr2]; rfl
    obtain ⟨g, d, hh⟩ := raise_handled hw ht h hf (by rw [← hwt]; unfold M128; exact f2) hex
    refine ⟨_, hh, ?_, ?_⟩
    · show r.1.mem.weight u = _
      rw [hr, hwt]
      simp [Members.saveTotal_weight, Members.weight_setWeight]
    · intro v hv
      show r.1.mem.weight v = _
      rw [hr, hwt]
      simp [Members.saveTotal_weight, Members.weight_setWeight, hv]
  have hres : ∀ r, handle c e w a (.mem (.staking m)) = .ok r → e.restricted u = false := by
    intro r hr
    simp only [handle] at hr
    obtain ⟨y, hy, _⟩ := bind_ok_iff.1 hr
    rw [hm] at hy
    simp only [Member.exec] at hy
    obtain ⟨z, hz, _⟩ := bind_ok_iff.1 hy
    exact (Staking.stakeFor_ok_iff.1 ((hx z).1 hz)).1
  refine ⟨⟨fun ⟨r, hr⟩ => hres r hr, fun h0 => ?_⟩, fun r hr => ?_⟩
  · obtain ⟨w1, h3, _⟩ := key h0
    exact ⟨_, h3⟩
  · obtain ⟨w1, h3, h4⟩ := key (hres r hr)
    rw [hr] at h3
    cases h3
    exact ⟨rfl, h4⟩

/-! ## C119 -/

/-- Tokens sent to the staking contract of a token DAO for a user are accepted, by it and by all contracts that it notifies,
exactly if the user is not restricted, and they become weight of the user. -/
theorem C119_stake_token {c : Cfg} (hw : c.Wf) (ht : c.Tame) {w : World} (h : Reachable c w) {s : Staking.State}
    (hm : w.mem = .staking .token s) (u : Addr) (n : Nat) (hn : Fits w u n) (hf : RewardsFit w) (e : Ext) :
    ((∃ r, handle c e w s.asset (.mem (.staking (.receive n (.stake u)))) = .ok r) ↔ e.restricted u = false) ∧
    ∀ r, handle c e w s.asset (.mem (.staking (.receive n (.stake u)))) = .ok r → r.2 = [] ∧ Joined w r.1 u n := by
  refine stake_handled hw ht h hm hn hf (fun r => ?_)
  simp [Staking.exec, Staking.receive, Cfg.menv]

/-- Coins sent to the staking contract of a denom DAO, for the sender or another user, are accepted exactly if this user is
not restricted. -/
theorem C119_stake_denom {c : Cfg} (hw : c.Wf) (ht : c.Tame) {w : World} (h : Reachable c w) {s : Staking.State}
    (hm : w.mem = .staking .denom s) (a : Addr) (v : Option Addr) (n : Nat) (hn : Fits w (v.getD a) n) (hf : RewardsFit w)
    (e : Ext) :
    ((∃ r, handle c e w a (.mem (.staking (.stakeDenom [⟨s.asset, n⟩] v))) = .ok r) ↔ e.restricted (v.getD a) = false) ∧
    ∀ r, handle c e w a (.mem (.staking (.stakeDenom [⟨s.asset, n⟩] v))) = .ok r → r.2 = [] ∧ Joined w r.1 (v.getD a) n := by
  refine stake_handled hw ht h hm hn hf (fun r => ?_)
  simp [Staking.exec, Staking.stakeDenom, Cfg.menv]

/-- An NFT sent to the staking contract of an NFT DAO for a user is accepted exactly if the user is not restricted and the
NFT is not staked already. -/
theorem C119_stake_nft {c : Cfg} (hw : c.Wf) (ht : c.Tame) {w : World} (h : Reachable c w) {s : Nft.State} {x : Addr}
    (hm : w.mem = .nft s) (hx : s.nft = .cw721 x) (u : Addr) (t : Nat) (hn : Fits w u 1) (hf : RewardsFit w) (e : Ext) :
    ((∃ r, handle c e w x (.mem (.nft (.receiveNft t (.stake u)))) = .ok r) ↔
      e.restricted u = false ∧ s.stakes.get t = none) ∧
    ∀ r, handle c e w x (.mem (.nft (.receiveNft t (.stake u)))) = .ok r → r.2 = [] ∧ Joined w r.1 u 1 ∧
      ∃ s1, r.1.mem = .nft s1 ∧ s1.stakes.get t = some u ∧ ∀ j, j ≠ t → s1.stakes.get j = s.stakes.get j := by
  have hb := h.base hw ht
  have hwt : ∀ v, w.mem.weight v = s.mem.weight v := fun v => by rw [hm]; rfl
  have htt : w.mem.total .never = s.mem.total := by rw [hm]; rfl
  obtain ⟨f1, f2⟩ := hn
  rw [htt] at f1
  have hg : (Member.nft s).Ok c.self := hm ▸ hb.mem
  have hi : Nft.Inv s := hg.good
  have h1 := s.mem.weight_le_wsum u
  have h2 := hi.total
  have h3 := hi.wsum
  have hss : { s with nft := .cw721 x } = s := by rw [← hx]
  have hnone : s.stakes.has t = false ↔ s.stakes.get t = none := by
    unfold Map.has
    cases s.stakes.get t <;> simp
  have hrec : ∀ r, Nft.receiveNft s ⟨c.menv e w x, e.proxy⟩ t (.stake u) = .ok r ↔ Nft.stakeNft s (c.menv e w x) t u = .ok r := by
    intro r
    rw [Nft.receiveNft_ok_iff]
    have h0 : Nft.nftContract s e.proxy = some x := by unfold Nft.nftContract; rw [hx]
    constructor
    · rintro ⟨_, ⟨u', hu, h5⟩ | ⟨u', d, hu, _⟩⟩
      · cases hu
        have h5 : Nft.stakeNft { s with nft := .cw721 x } (c.menv e w x) t u = .ok r := h5
        rwa [hss] at h5
      · cases hu
    · intro h5
      refine ⟨h0, Or.inl ⟨u, rfl, ?_⟩⟩
      show Nft.stakeNft { s with nft := .cw721 x } (c.menv e w x) t u = .ok r
      rw [hss]
      exact h5
  have key : e.restricted u = false → s.stakes.get t = none →
      ∃ w1 s1, handle c e w x (.mem (.nft (.receiveNft t (.stake u)))) = .ok (w1, []) ∧ Joined w w1 u 1 ∧
        w1.mem = .nft s1 ∧ s1.stakes.get t = some u ∧ ∀ j, j ≠ t → s1.stakes.get j = s.stakes.get j := by
    intro hr0 ht0
    obtain ⟨r, hr, hs⟩ : ∃ r, r = _ ∧ Nft.stakeNft s (c.menv e w x) t u = .ok r :=
      ⟨_, rfl, Nft.stakeNft_ok_iff.2 ⟨hr0, hnone.2 ht0, by unfold M128; omega, by unfold M128; omega, rfl⟩⟩
    have hr2 : r.2 = s.mem.report [⟨u, s.mem.weight u, s.mem.weight u + 1⟩] := by rw [hr]
    have hex : w.mem.exec ⟨c.menv e w x, e.proxy⟩ (.nft (.receiveNft t (.stake u))) =
        .ok (.nft r.1, w.mem.mem.report [⟨u, s.mem.weight u, s.mem.weight u + 1⟩]) := by
      rw [hm]
      simp only [Member.exec]
      refine bind_ok_iff.2 ⟨r, (hrec r).2 hs, ?_⟩
      rw [hr2]; rfl
    obtain ⟨g, d, hh⟩ := raise_handled hw ht h hf (by rw [← hwt]; unfold M128; exact f2) hex
    refine ⟨_, r.1, hh, ⟨?_, ?_⟩, rfl, ?_, ?_⟩
    · show r.1.mem.weight u = _
      rw [hr, hwt]
      simp [Members.saveTotal_weight, Members.weight_setWeight]
    · intro v hv
      show r.1.mem.weight v = _
      rw [hr, hwt]
      simp [Members.saveTotal_weight, Members.weight_setWeight, hv]
    · rw [hr]; exact Map.get_set_self _ _ _
    · intro j hj
      rw [hr]
      simp only [Map.get_set]
      rw [if_neg (fun hh => hj hh.symm)]
  have hres : ∀ r, handle c e w x (.mem (.nft (.receiveNft t (.stake u)))) = .ok r →
      e.restricted u = false ∧ s.stakes.get t = none := by
    intro r hr
    simp only [handle] at hr
    obtain ⟨y, hy, _⟩ := bind_ok_iff.1 hr
    rw [hm] at hy
    simp only [Member.exec] at hy
    obtain ⟨z, hz, _⟩ := bind_ok_iff.1 hy
    obtain ⟨h5, h6, _⟩ := Nft.stakeNft_ok_iff.1 ((hrec z).1 hz)
    exact ⟨h5, hnone.1 h6⟩
  refine ⟨⟨fun ⟨r, hr⟩ => hres r hr, fun h0 => ?_⟩, fun r hr => ?_⟩
  · obtain ⟨w1, _, h3, _⟩ := key h0.1 h0.2
    exact ⟨_, h3⟩
  · obtain ⟨w1, s1, h3, h4, h5⟩ := key (hres r hr).1 (hres r hr).2
    rw [hr] at h3
    cases h3
    exact ⟨rfl, h4, s1, h5⟩

/-! ### Examples -/

/-- User 12 can join the DAO of users 10 and 11. -/
example : RewardsFit (sampleRun sampleVoted) ∧ Fits (sampleRun sampleVoted) 12 25 ∧
    sampleExt.restricted 12 = false ∧ (sampleRun sampleVoted).mem.weight 12 = 0 ∧
    ((handle sampleCfg sampleExt (sampleRun sampleVoted) 12
      (.mem (.staking (.stakeDenom [⟨20, 25⟩] none)))).toOption.map (fun r => r.1.mem.weight 12)) = some 25 := by
  refine ⟨?_, ⟨?_, ?_⟩, ?_, ?_, ?_⟩
  · intro a
    rw [Distributor.owed_empty (by decide +kernel)]
    decide
  all_goals decide +kernel

/-- User 11 can join the DAO of user 10 with the NFT 8, not with the NFT 7 of user 10. -/
example : ∃ w s, runAll sampleCfg nftGenesis nftStaked = some w ∧ Reachable sampleCfg w ∧ w.mem = .nft s ∧ s.nft = .cw721 25 ∧
    Fits w 11 1 ∧ RewardsFit w ∧
    (handle sampleCfg sampleExt w 25 (.mem (.nft (.receiveNft 8 (.stake 11))))).isOk = true ∧
    (handle sampleCfg sampleExt w 25 (.mem (.nft (.receiveNft 7 (.stake 11))))).isOk = false := by
  obtain ⟨w, hw⟩ : ∃ w, runAll sampleCfg nftGenesis nftStaked = some w := by
    have : (runAll sampleCfg nftGenesis nftStaked).isSome = true := by decide +kernel
    exact Option.isSome_iff_exists.1 this
  have hw' : w = (runAll sampleCfg nftGenesis nftStaked).getD nftGenesis := by rw [hw]; rfl
  have hr := runAll_reachable nftStaked (.init nft_genesis) hw
  have hm : ∃ s, w.mem = .nft s ∧ s.nft = .cw721 25 := by
    rw [hw']
    exact ⟨_, rfl, by decide +kernel⟩
  obtain ⟨s, hm, hs⟩ := hm
  refine ⟨w, s, hw, hr, hm, hs, ⟨?_, ?_⟩, fun a => ?_, ?_, ?_⟩
  · rw [hw']; decide +kernel
  · rw [hw']; decide +kernel
  · rw [Distributor.owed_empty (by rw [hw']; decide +kernel)]
    decide
  · rw [hw']; decide +kernel
  · rw [hw']; decide +kernel

end Verif.Dao
