import Verif.Dao.Props26
import Verif.Migration.Props3

/-!
# The contracts of a DAO together: an old DAO whose stakes are being migrated (C154)

The treasury of the old DAO keeps the stakes that have not been moved; its messages reach the staking contract of the DAO as
messages of the token. The contracts of the new version are taken to be new, as for a DAO that the factory creates: the version
of the treasury that instantiates them, with the old proposals, is not in the repository.
-/

set_option linter.unusedSimpArgs false

namespace Verif.Dao
open Verif
open Verif.Controller (Action GovConfig CouncilConfig Info Proposable Changed ValidConfig Sub)

/-! ### Specification -/

/-- A message of the migration as it arrives: the token contract transfers the tokens and calls `Receive` of the staking
contract (migration.rs 200-210 and 280-290, token-staking-impl/src/execute.rs 26-40). -/
def inbound (token : Addr) : Migration.Out → Item
  | .addStakes n l => .call token (.mem (.staking (.receive n (.addStakes l))))
  | .addClaims n l => .call token (.mem (.staking (.receive n (.addClaims l))))
  | _ => .other

/-- A token DAO at the start of the migration of its stakes: nobody has weight yet, and the treasury has stakes, the first of
which, in the order of addresses, is that of `a`. -/
structure Starting (c : Cfg) (w : World) (s : Staking.State) (t : Migration.State) (a : Addr) : Prop where
  type : w.mem = .staking .token s
  nobody : w.mem.total .never = 0
  treasury : Migration.Migratable t
  membership : t.membership = some c.comps.membership
  stage : t.stage = .inProgress
  first : Migration.firstStakers t 1 = [a]
  staked : 0 < Migration.stakeOf t a

/-! ### Lemmas -/

theorem add_one {s : Staking.State} {e : Env} {u : Addr} {n : Nat} (hn : 0 < n) (r : Staking.State × List Out) :
    Staking.addStakes s e n [(u, n)] = .ok r ↔ Staking.stakeFor s e u n = .ok r := by
  have h0 : n ≠ 0 := by omega
  rw [Staking.stakeFor_ok_iff]
  unfold Staking.addStakes
  simp only [bind_ok_iff, foldlM_cons_ok_iff, foldlM_nil_ok_iff]
  constructor
  · rintro ⟨x, ⟨y, hy, rfl⟩, hx⟩
    unfold Staking.addStake at hy
    rw [if_neg h0] at hy
    split at hy
    · cases hy
    · rename_i hr
      obtain ⟨n1, hn1, hy⟩ := bind_ok_iff.1 hy
      obtain ⟨n2, hn2, hy⟩ := bind_ok_iff.1 hy
      cases hy
      obtain ⟨b1, rfl⟩ := cadd128_ok.1 hn1
      obtain ⟨b2, rfl⟩ := cadd128_ok.1 hn2
      simp only [Nat.zero_add, ne_eq, not_true_eq_false, if_false] at hx
      obtain ⟨m, hm, hx⟩ := bind_ok_iff.1 hx
      obtain ⟨b3, rfl⟩ := Members.incTotal_ok_iff.1 hm
      cases hx
      exact ⟨by simpa using hr, b1, b3, rfl⟩
  · rintro ⟨hr, b1, b3, rfl⟩
    refine ⟨(s.mem.setWeight u (s.mem.weight u + n), n, [⟨u, s.mem.weight u, s.mem.weight u + n⟩]), ⟨_, ?_, rfl⟩, ?_⟩
    · unfold Staking.addStake
      rw [if_neg h0, if_neg (by simp [hr])]
      refine bind_ok_iff.2 ⟨_, cadd128_ok.2 ⟨b1, rfl⟩, bind_ok_iff.2 ⟨_, cadd128_ok.2 ⟨?_, rfl⟩, ?_⟩⟩
      · show 0 + n < M128
        omega
      · simp only [Nat.zero_add]
        rfl
    · simp only [ne_eq, not_true_eq_false, if_false]
      exact bind_ok_iff.2 ⟨_, Members.incTotal_ok_iff.2 ⟨b3, rfl⟩, rfl⟩

theorem starting_step {c : Cfg} {w : World} {s : Staking.State} {t : Migration.State} {a : Addr} (h : Starting c w s t a) {gas : Nat}
    (hg : t.claims.entries.length < gas) :
    ∃ t', Migration.perform gas t (some 1) =
        .ok (t', [.addStakes (Migration.stakeOf t a) [(a, Migration.stakeOf t a)]]) ∧
      (∀ u, u ≠ a → Migration.stakeOf t' u = Migration.stakeOf t u) ∧ t'.stage = .inProgress := by
  obtain ⟨⟨t', outs⟩, hp⟩ := Migration.perform_exists h.treasury hg (some 1) h.stage
  have hps := (Migration.perform_safe hp).1
  obtain ⟨b1, b2⟩ := Migration.token_batch h.treasury.token hps
  obtain ⟨n, rest, hen⟩ : ∃ n rest, t.stakes.entries = (a, n) :: rest := by
    have hf := h.first
    unfold Migration.firstStakers at hf
    cases he : t.stakes.entries with
    | nil => rw [he] at hf; cases hf
    | cons x rest =>
      rw [he] at hf
      obtain ⟨x1, x2⟩ := x
      simp only [List.take_succ_cons, List.take_zero, List.map_cons, List.map_nil, List.cons.injEq, and_true] at hf
      subst hf
      exact ⟨x2, rest, rfl⟩
  have hn : Migration.stakeOf t a = n := by
    have : t.stakes.get a = some n := Map.get_eq_some_iff.2 (by rw [hen]; simp)
    unfold Migration.stakeOf
    rw [this]
    rfl
  have hpos := h.staked
  rw [hn] at hpos ⊢
  have hl : Migration.limitOf .token (some 1) = 1 := rfl
  rw [hl, hen] at b1
  simp only [List.drop_succ_cons, List.drop_zero] at b1
  refine ⟨t', ?_, fun u hu => ?_, b2 (by rw [hl, hen]; simp)⟩
  · have := Migration.token_full h.treasury.token (by rw [hl, hen]; simp) hps
    rw [hl, hen] at this
    rw [hp, this]
    simp [Migration.stakesMsg, Nat.pos_iff_ne_zero.1 hpos]
  · unfold Migration.stakeOf Map.get
    rw [b1, hen, lookupL, if_neg (fun hh => hu hh.symm)]

theorem starting_joined {c : Cfg} (hw : c.Wf) (ht : c.Tame) {w : World} (h : Reachable c w) {s : Staking.State}
    {t : Migration.State} {a : Addr} (hs : Starting c w s t a) (hin : Fits w a (Migration.stakeOf t a)) (hf : RewardsFit w)
    (e : Ext) (he : e.restricted a = false) (ho : c.outsider a) (htok : c.outsider s.asset)
    (room : w.gov.pollCount + 2 < 2 ^ 64) :
    ∃ w1, Exec c w [.call s.asset (.mem (.staking (.receive (Migration.stakeOf t a)
        (.addStakes [(a, Migration.stakeOf t a)]))))] w1 ∧ Reachable c w1 ∧ Leads c w1 [a] ∧ w1.ctl = w.ctl ∧
      w1.block = w.block ∧ w1.gov.pollCount = w.gov.pollCount ∧ w1.mem.daoType = .token := by
  have hn := hs.staked
  generalize Migration.stakeOf t a = n at hin hn ⊢
  obtain ⟨hacc, heff⟩ := stake_handled hw ht h hs.type hin hf (a := s.asset) (e := e)
    (m := .receive n (.addStakes [(a, n)])) (fun r => by
      rw [← add_one hn]
      simp [Staking.exec, Staking.receive, Cfg.menv])
  obtain ⟨⟨w1, subs⟩, hx⟩ := hacc.2 he
  obtain ⟨hsub, hj⟩ := heff _ hx
  simp only at hsub hj
  subst hsub
  have hbs := h.base hw ht
  have hzero := hs.nobody
  have hex : Exec c w [.call s.asset (.mem (.staking (.receive n (.addStakes [(a, n)]))))] w1 :=
    .call e (by omega) hx (.nil _) (.nil _)
  have hr1 := h.tx htok hex
  have hst := handle_mem hw hbs.mem (fun hs => absurd hs (fun hs => htok.1 hs)) hx
  simp only at hst
  have hctl : w1.ctl = w.ctl := (congrArg World.ctl hst.same :)
  have hblk : w1.block = w.block := (congrArg World.block hst.same :)
  have hcount : w1.gov.pollCount = w.gov.pollCount := by
    rcases hst.gov with ⟨l, e', _, _, hu, _⟩ | ⟨hg, _⟩
    · exact updateAll_count hu
    · rw [hg]
  have hw0 : ∀ u, w.mem.weight u = 0 := fun u => by
    have := hbs.mem.weight_le u
    omega
  refine ⟨w1, hex, hr1, ?_, hctl, hblk, hcount, by rw [hst.type, hs.type]; rfl⟩
  refine leads_all hw ht hr1 (fun u hu => ?_) (fun u hu => ?_) (by simp)
  · rw [List.mem_singleton.1 hu, hj.1]
    exact ⟨ho, by omega⟩
  · by_contra hne
    have hne : u ≠ a := fun he => hne (List.mem_singleton.2 he)
    rw [hj.2 u hne, hw0] at hu
    omega

/-! ## C154 -/

/-- Whoever is first in the order of addresses can send a migration step with batch size one, and is then the only one with
weight. As long as nobody has more moved, they can have any proposal passed that can be made, all alone, whatever the others
have staked. -/
theorem C154_first_decides {c : Cfg} (hw : c.Wf) (ht : c.Tame) {w : World} (h : Reachable c w) {s : Staking.State}
    {t : Migration.State} {a : Addr} (hs : Starting c w s t a) (ho : c.outsider a) (htok : c.outsider s.asset)
    (hin : Fits w a (Migration.stakeOf t a)) (hf : RewardsFit w) {gas : Nat} (hg : t.claims.entries.length < gas)
    (e : Ext) (he : e.restricted a = false) (hd : w.ctl.config.minDeposit = none)
    (hfit : w.block.time + w.ctl.config.voteDuration * 10 ^ 9 < 2 ^ 64) (room : w.gov.pollCount + 2 < 2 ^ 64)
    {l : List Action} (hten : l.length ≤ 10) (hl : ∀ x ∈ l, Proposable (c.env e w) w.ctl.config x) :
    ∃ t' outs w1 w' i o k, Migration.perform gas t (some 1) = .ok (t', outs) ∧
      (∀ u, u ≠ a → Migration.stakeOf t' u = Migration.stakeOf t u) ∧ Exec c w (outs.map (inbound s.asset)) w1 ∧
      Acting c [a] w1 w' ∧ w'.block.time = w.block.time + w.ctl.config.voteDuration * 10 ^ 9 ∧
      w'.ctl.infos.get (w.gov.pollCount + 1) = some i ∧ i.actions = l ∧
      outcome w' (w.gov.pollCount + 1) = some (.passed o k) ∧ sentCount w' (w.gov.pollCount + 1) = 1 := by
  obtain ⟨t', p1, p2, _⟩ := starting_step hs hg
  obtain ⟨w1, q1, q2, q3, q4, q5, q6, q7⟩ := starting_joined hw ht h hs hin hf e he ho htok room
  obtain ⟨w', i, o, k, k1, k2, k3, k4, k5, k6⟩ := C134_passes hw ht q2 q3 e
    (fun u hu => by rw [List.mem_singleton.1 hu]; exact he) (by rw [q4]; exact Or.inl hd)
    (by rw [q4, q5]; exact hfit) (by rw [q6]; exact room) hten (fun x hx => by
      have := hl x hx
      rw [q4]
      have hd : (c.env e w1).daoType = (c.env e w).daoType := by
        show w1.mem.daoType = w.mem.daoType
        rw [q7, hs.type]; rfl
      cases x <;> first | exact this | (simp only [Proposable, hd] at this ⊢; exact this))
  rw [q6] at k3 k5 k6
  rw [q4, q5] at k2
  exact ⟨t', _, w1, w', i, o, k, p1, p2, q1, k1, k2, k3, k4, k5, k6⟩

/-- Where execution may be early, it takes them only a tenth of the voting period. -/
theorem C154_first_decides_early {c : Cfg} (hw : c.Wf) (ht : c.Tame) {w : World} (h : Reachable c w) {s : Staking.State}
    {t : Migration.State} {a : Addr} (hs : Starting c w s t a) (hearly : w.ctl.config.early = true)
    (ho : c.outsider a) (htok : c.outsider s.asset)
    (hin : Fits w a (Migration.stakeOf t a)) (hf : RewardsFit w) {gas : Nat} (hg : t.claims.entries.length < gas)
    (e : Ext) (he : e.restricted a = false) (hd : w.ctl.config.minDeposit = none)
    (hfit : w.block.time + w.ctl.config.voteDuration * 10 ^ 9 < 2 ^ 64) (room : w.gov.pollCount + 2 < 2 ^ 64)
    {l : List Action} (hten : l.length ≤ 10) (hl : ∀ x ∈ l, Proposable (c.env e w) w.ctl.config x) :
    ∃ t' outs w1 w' i o k, Migration.perform gas t (some 1) = .ok (t', outs) ∧
      (∀ u, u ≠ a → Migration.stakeOf t' u = Migration.stakeOf t u) ∧ Exec c w (outs.map (inbound s.asset)) w1 ∧
      Acting c [a] w1 w' ∧ w'.block = ⟨w.block.height, w.block.time + w.ctl.config.voteDuration / 10 * 10 ^ 9⟩ ∧
      w'.ctl.infos.get (w.gov.pollCount + 1) = some i ∧ i.actions = l ∧
      outcome w' (w.gov.pollCount + 1) = some (.passed o k) ∧ sentCount w' (w.gov.pollCount + 1) = 1 := by
  obtain ⟨t', p1, p2, _⟩ := starting_step hs hg
  obtain ⟨w1, q1, q2, q3, q4, q5, q6, q7⟩ := starting_joined hw ht h hs hin hf e he ho htok room
  obtain ⟨w', i, o, k, k1, k2, k3, _, k4, k5, k6⟩ := C143_passes hw ht q2 (G := [a]) ⟨q3.members, by simp, q3.quorum⟩
    (by rw [q4]; exact hearly) e
    (fun u hu => by rw [List.mem_singleton.1 hu]; exact he) (by rw [q4]; exact Or.inl hd)
    (by rw [q4, q5]; exact hfit) (by rw [q6]; exact room) hten (fun x hx => by
      have := hl x hx
      rw [q4]
      have hd : (c.env e w1).daoType = (c.env e w).daoType := by
        show w1.mem.daoType = w.mem.daoType
        rw [q7, hs.type]; rfl
      cases x <;> first | exact this | (simp only [Proposable, hd] at this ⊢; exact this))
  rw [q6] at k3 k5 k6
  have hwait : wait w1 = w.ctl.config.voteDuration / 10 * 10 ^ 9 := by
    unfold wait
    rw [q7, q4]
    simp
  rw [hwait, q5] at k2
  exact ⟨t', _, w1, w', i, o, k, p1, p2, q1, k1, k2, k3, k4, k5, k6⟩

/-! ### Examples -/

/-- The treasury of an old DAO for the token 21: user 50 has staked 1 token, user 60 has staked 1000. -/
def oldTreasury : Migration.State :=
  { Migration.smpToken with stakes := (Map.empty.set 50 1).set 60 1000, membership := some sampleCfg.comps.membership }

theorem old_starting : Starting sampleCfg tokenGenesis (Staking.init ⟨1, 10 ^ 9⟩ 21 (.time 1000) [1] [] []) oldTreasury 50 :=
  ⟨rfl, by decide +kernel, ⟨rfl, by decide, Migration.smpToken_ready.1.claims, by decide +kernel, by decide +kernel⟩, rfl, rfl,
    by decide +kernel, by decide +kernel⟩

/-- User 50, with one of 1001 tokens staked, can have the treasury's coins sent to themselves. -/
example : ∃ t' outs w1 w' i o k, Migration.perform 9 oldTreasury (some 1) = .ok (t', outs) ∧ Migration.stakeOf t' 60 = 1000 ∧
    Exec sampleCfg tokenGenesis (outs.map (inbound 21)) w1 ∧ Acting sampleCfg [50] w1 w' ∧ w'.ctl.infos.get 1 = some i ∧
    i.actions = [.requestFunding none 50 [⟨.native 20, 500⟩]] ∧ outcome w' 1 = some (.passed o k) := by
  have hid : tokenGenesis.gov.pollCount + 1 = 1 := by decide +kernel
  obtain ⟨t', outs, w1, w', i, o, k, h1, h2, h3, h4, _, h5, h6, h7, _⟩ := C154_first_decides sampleCfg_wf sampleCfg_tame
    (.init token_genesis) old_starting (by decide +kernel) (by decide +kernel) ⟨by decide +kernel, by decide +kernel⟩
    (fun b => by rw [Distributor.owed_empty (by decide +kernel)]; decide +kernel) (gas := 9) (by decide +kernel) sampleExt
    (by decide) (by decide +kernel) (by decide +kernel)
    (by decide +kernel) (l := [.requestFunding none 50 [⟨.native 20, 500⟩]]) (by decide)
    (fun x hx => by
      rw [List.mem_singleton.1 hx]
      intro _ a ha
      rw [List.mem_singleton.1 ha]
      exact fun _ _ hn => by cases hn)
  rw [hid] at h5 h7
  exact ⟨t', outs, w1, w', i, o, k, h1, (h2 60 (by decide)).trans (by decide +kernel), h3, h4, h5, h6, h7⟩

/-- With early execution, which this DAO allows, it takes them 10 seconds of the voting period of 100. -/
example : ∃ t' outs w1 w' i o k, Migration.perform 9 oldTreasury (some 1) = .ok (t', outs) ∧ Migration.stakeOf t' 60 = 1000 ∧
    Exec sampleCfg tokenGenesis (outs.map (inbound 21)) w1 ∧ Acting sampleCfg [50] w1 w' ∧ w'.block.time = tokenGenesis.block.time + 10 * 10 ^ 9 ∧
    w'.ctl.infos.get 1 = some i ∧
    i.actions = [.requestFunding none 50 [⟨.native 20, 500⟩]] ∧ outcome w' 1 = some (.passed o k) := by
  have hid : tokenGenesis.gov.pollCount + 1 = 1 := by decide +kernel
  obtain ⟨t', outs, w1, w', i, o, k, h1, h2, h3, h4, hb, h5, h6, h7, _⟩ := C154_first_decides_early sampleCfg_wf sampleCfg_tame
    (.init token_genesis) old_starting (by decide +kernel) (by decide +kernel) (by decide +kernel) ⟨by decide +kernel, by decide +kernel⟩
    (fun b => by rw [Distributor.owed_empty (by decide +kernel)]; decide +kernel) (gas := 9) (by decide +kernel) sampleExt
    (by decide) (by decide +kernel) (by decide +kernel)
    (by decide +kernel) (l := [.requestFunding none 50 [⟨.native 20, 500⟩]]) (by decide)
    (fun x hx => by
      rw [List.mem_singleton.1 hx]
      intro _ a ha
      rw [List.mem_singleton.1 ha]
      exact fun _ _ hn => by cases hn)
  rw [hid] at h5 h7
  exact ⟨t', outs, w1, w', i, o, k, h1, (h2 60 (by decide)).trans (by decide +kernel), h3, h4,
    by rw [hb]; decide +kernel, h5, h6, h7⟩

end Verif.Dao
