import Verif.Dao.Props27
import Verif.Dao.Props13

/-!
# The contracts of a DAO together: a stake of one block takes its full part of a distribution (C148)
-/

set_option linter.unusedSimpArgs false

namespace Verif.Distributor

theorem updates_idx : ∀ (l : List (Addr × Nat)) {s s' : State}, Inv s → l.foldlM updateOne s = .ok s' →
    s'.native.idx = s.native.idx
  | [], s, s', hi, h => by
    rw [foldlM_nil_ok_iff] at h
    rw [h]
  | p :: l, s, s', hi, h => by
    obtain ⟨s1, h1, h2⟩ := foldlM_cons_ok_iff.1 h
    obtain ⟨i1, _⟩ := updateOne_ok hi h1
    rw [updates_idx l i1 h2]
    unfold updateOne at h1
    obtain ⟨x, h1, h⟩ := bind_ok_iff.1 h1
    obtain ⟨t1, h2, h⟩ := bind_ok_iff.1 h
    obtain ⟨t, h3, h⟩ := bind_ok_iff.1 h
    obtain ⟨f1, f2⟩ := refresh_ok hi.toCore h1
    rw [← pure_ok_iff.1 h]
    exact f1.idx

end Verif.Distributor

namespace Verif.Dao
open Verif
open Verif.Distributor (claimable owedOf)

/-! ### Specification -/

/-- The distribution of `A` coins `d` is captured by an account with a stake of `n`: nothing else is changed by it, no time
passed, the account can claim the part of `A` that its weight with that stake is of `T`, and the others can claim only what
their stakes are of `T`. -/
structure Captured (w w3 : World) (a : Addr) (n d A T : Nat) : Prop where
  block : w3.block = w.block
  weights : ∀ u, w3.mem.weight u = w.mem.weight u
  share : claimable w.dist a (.native d) + (w.mem.weight a + n) * (A * 10 ^ 18 / T) / 10 ^ 18 ≤ claimable w3.dist a (.native d)
  others : ∀ u, u ≠ a → claimable w3.dist u (.native d) ≤
    claimable w.dist u (.native d) + stakeOf w u * (A * 10 ^ 18 / T) / 10 ^ 18 + 1

/-! ### Lemmas -/

/-- A message to the membership contract changes nobody's rewards. -/
theorem mem_quiet {c : Cfg} (hw : c.Wf) (ht : c.Tame) {w : World} (h : Reachable c w) {a : Addr} {m : MemberMsg} {e : Ext}
    {r : World × List Item} (ha : a ≠ c.self) (hr : handle c e w a (.mem m) = .ok r) :
    Distributor.Quiet w.dist r.1.dist ∧ r.1.dist.native.idx = w.dist.native.idx ∧ r.1.block = w.block ∧
      r.1.gov.pollCount = w.gov.pollCount := by
  have hb := h.base hw ht
  have hd := h.dist hw ht
  have hs := handle_mem hw hb.mem (fun hh => absurd hh ha) hr
  have hbl : r.1.block = w.block := by rw [hs.same]
  rcases hs.gov with ⟨l, e', _, _, hg, d, hx, hde⟩ | ⟨hg, hde, _⟩
  · have hc : r.1.gov.pollCount = w.gov.pollCount := updateAll_count hg
    simp only [Distributor.exec] at hx
    obtain ⟨d', h1, h2⟩ := bind_ok_iff.1 hx
    cases pure_ok_iff.1 h2
    unfold Distributor.updateWeights at h1
    obtain ⟨_, h1⟩ := ite_ok_iff.1 h1
    obtain ⟨_, q, _⟩ := Distributor.updates_ok _ hd.inv h1
    have hi := Distributor.updates_idx _ hd.inv h1
    rw [hde]
    exact ⟨q, hi, hbl, hc⟩
  · rw [hde, hg]
    exact ⟨Distributor.Quiet.refl hd.inv.toCore, rfl, hbl, rfl⟩

/-- What the stakes of all are after one member staked more. -/
theorem joined_stakes {w w1 : World} {a : Addr} {n : Nat} (hj : Joined w w1 a n) (hmin : w1.dist.min = w.dist.min) :
    allStakes w1 + stakeOf w a = allStakes w + stakeOf w1 a := by
  have hn : (a :: (w.mem.mem.weights.keys ++ w1.mem.mem.weights.keys)).dedup.Nodup := List.nodup_dedup _
  generalize hL : (a :: (w.mem.mem.weights.keys ++ w1.mem.mem.weights.keys)).dedup = L at hn
  have hm : ∀ u, u ∈ L ↔ u = a ∨ u ∈ w.mem.mem.weights.keys ∨ u ∈ w1.mem.mem.weights.keys := by
    intro u
    rw [← hL]
    simp
  have hkey : ∀ (v : World) u, v.mem.weight u ≠ 0 → u ∈ v.mem.mem.weights.keys := by
    intro v u hu
    rw [v.mem.weight_eq u] at hu
    refine Map.mem_keys.2 ?_
    change (v.mem.mem.weights.get u).getD 0 ≠ 0 at hu
    cases hg : v.mem.mem.weights.get u with
    | none => rw [hg] at hu; exact absurd rfl hu
    | some x => exact ⟨x, rfl⟩
  rw [← stakes_list L hn (fun u hu => (hm u).2 (Or.inr (Or.inr (hkey w1 u hu)))),
    ← stakes_list L hn (fun u hu => (hm u).2 (Or.inr (Or.inl (hkey w u hu))))]
  have ha : a ∈ L := (hm a).2 (Or.inl rfl)
  have hoth : ∀ v, v ≠ a → stakeOf w1 v = stakeOf w v := by
    intro v hv
    unfold stakeOf
    rw [hj.2 v hv, hmin]
  clear hm hL hkey
  induction L with
  | nil => cases ha
  | cons b t ih =>
    rw [List.nodup_cons] at hn
    rw [List.map_cons, List.sum_cons, List.map_cons, List.sum_cons]
    by_cases hb : b = a
    · subst hb
      have : t.map (stakeOf w1) = t.map (stakeOf w) :=
        List.map_congr_left (fun v hv => hoth v (fun hh => hn.1 (hh ▸ hv)))
      rw [this]
      omega
    · rw [hoth b hb]
      have := ih hn.2 ((List.mem_cons.1 ha).resolve_left (Ne.symm hb))
      omega

theorem floor_add (a b k : Nat) : a / k + b / k ≤ (a + b) / k := by
  rcases Nat.eq_zero_or_pos k with h | h
  · subst h; simp
  · rw [Nat.le_div_iff_mul_le h, Nat.add_mul]
    exact Nat.add_le_add (Nat.div_mul_le_self _ _) (Nat.div_mul_le_self _ _)

theorem floor_add_le (a b k : Nat) : (a + b) / k ≤ a / k + b / k + 1 := by
  rcases Nat.eq_zero_or_pos k with h | h
  · subst h; simp
  · rw [Nat.add_div h]
    split <;> omega

/-- A distribution of one coin raises what a user can claim by the user's part of it. -/
theorem distribute_share {d : Distributor.State} (hi : Distributor.Inv d) {n : Distributor.Ledger} {k A : Nat}
    (hn : d.native.distributeOne d.total (k, A) = .ok n)
    (hfit : owedOf d (.native k) + ONE * A < ONE * M128) (u : Addr) :
    claimable d u (.native k) + Distributor.effective d u * (A * ONE / d.total) / ONE ≤
      claimable { d with native := n } u (.native k) ∧
    claimable { d with native := n } u (.native k) ≤
      claimable d u (.native k) + Distributor.effective d u * (A * ONE / d.total) / ONE + 1 := by
  obtain ⟨_, _, _, hdist, hg⟩ := Distributor.Ledger.distributeOne_ok hn
  have hok : n.Ok d.effective := Distributor.Ledger.distribute_Ok hn hi.toCore.native
  have hle := Distributor.Ledger.distribute_owed hn hi.toCore.native hi.total k
  rw [if_pos rfl] at hle
  obtain ⟨r0, h0⟩ := Distributor.amt_exists hi.toCore.native (u := u) (a := k)
    (lt_of_le_of_lt (Nat.le_add_right _ _) hfit)
  obtain ⟨r1, h1⟩ := Distributor.amt_exists hok (u := u) (a := k) (lt_of_le_of_lt hle hfit)
  rw [Distributor.claimable_native, Distributor.claimable_native]
  have e1 : Distributor.effective { d with native := n } u = (d.effective.get u).getD 0 := rfl
  have e0 : Distributor.effective d u = (d.effective.get u).getD 0 := rfl
  rw [e1, e0, h0]
  change r0 + _ ≤ Distributor.amount (n.amt u _ k) ∧ Distributor.amount (n.amt u _ k) ≤ r0 + _ + 1
  rw [h1]
  change r0 + _ ≤ r1 ∧ r1 ≤ r0 + _ + 1
  obtain ⟨a1, _, rfl⟩ := Distributor.Ledger.amt_ok_iff.1 h0
  obtain ⟨a2, _, rfl⟩ := Distributor.Ledger.amt_ok_iff.1 h1
  have hat : n.at_ u k = d.native.at_ u k := by unfold Distributor.Ledger.at_; rw [hdist]
  rw [hat, hg k, if_pos rfl]
  dsimp only
  generalize (d.native.at_ u k).index = i at *
  generalize d.native.global k = g at *
  generalize A * ONE / d.total = q at *
  generalize (d.effective.get u).getD 0 = x at *
  rw [show g + q - i = (g - i) + q from by omega, Nat.mul_add]
  have h3 := floor_add (x * (g - i)) (x * q) ONE
  have h4 := floor_add_le (x * (g - i)) (x * q) ONE
  omega

/-- The three messages. -/
theorem captured {c : Cfg} (hw : c.Wf) (ht : c.Tame) {w : World} (h : Reachable c w) {k : Staking.Kind} {s : Staking.State}
    (hm : w.mem = .staking k s) (hag : ∀ u, (w.dist.weights.get u).getD 0 = w.mem.weight u) {a x y : Addr}
    (ha : c.outsider a) (hx : c.outsider x) (hy : c.outsider y) {n : Nat} (hmin : w.dist.min ≤ w.mem.weight a + n) (hn : 0 < n)
    (hin : Fits w a n) (hf : RewardsFit w) (e : Ext) (he : e.restricted a = false) {m : Staking.Msg}
    (hmm : ∀ r, Staking.exec k s (c.menv e w y) m = .ok r ↔ Staking.stakeFor s (c.menv e w y) a n = .ok r) {d A : Nat}
    (hal : Distributor.Allowed (e.denv x) (.native d))
    (howed : owedOf w.dist (.native d) + 10 ^ 18 * A < 10 ^ 18 * 2 ^ 128)
    {T : Nat} (hT : T + stakeOf w a = allStakes w + (w.mem.weight a + n))
    (hidx : (w.dist.native.idx.get d).getD 0 + A * 10 ^ 18 / T < 2 ^ 128)
    (hid : s.nextClaim + 1 < 2 ^ 64) (room : w.gov.pollCount + 1 < 2 ^ 64) :
    ∃ w1 w2 w3, Exec c w [.call y (.mem (.staking m))] w1 ∧
      Exec c w1 [.call x (.dist (.distributeNative [(d, A)]))] w2 ∧
      Exec c w2 [.call a (.mem (.staking (.unstake n)))] w3 ∧ Captured w w3 a n d A T := by
  have hONE : ONE = 10 ^ 18 := rfl
  obtain ⟨r1, hr1⟩ := (stake_handled hw ht h hm hin hf hmm).1.2 he
  obtain ⟨hs1, hj⟩ := (stake_handled hw ht h hm hin hf hmm).2 r1 hr1
  obtain ⟨w1, subs⟩ := r1
  subst hs1
  change Joined w w1 a n at hj
  have hx1 : Exec c w [.call y (.mem (.staking m))] w1 :=
    .call e room hr1 (.nil _) (.nil _)
  have h1 : Reachable c w1 := .tx h hy hx1
  obtain ⟨q1, i1, b1, c1⟩ := mem_quiet hw ht h hy.1 hr1
  dsimp only at q1 i1 b1 c1
  have hd1 := h1.dist hw ht
  have hl1 : Later c w w1 := .tx .refl hy hx1
  have hag1 : ∀ u, Agree w1 u := fun u => hl1.dist hw ht h u (hag u)
  have htot : w1.dist.total = allStakes w1 := (C125_all_staked hw ht h hag hl1).1
  have hst : stakeOf w1 a = w.mem.weight a + n := by
    unfold stakeOf
    rw [hj.1, q1.min, if_neg (by omega)]
  have hjs := joined_stakes hj q1.min
  have hTT : w1.dist.total = T := by omega
  have heff : Distributor.effective w1.dist a = w.mem.weight a + n := by
    rw [effective_stake hd1.inv (hag1 a), hst]
  have hT0 : T ≠ 0 := by
    have h2 := hd1.inv.total
    have h3 : Distributor.effective w1.dist a ≤ w1.dist.effective.sum (fun _ y => y) := by
      unfold Distributor.effective
      cases hg : w1.dist.effective.get a with
      | none => exact Nat.zero_le _
      | some y => exact Map.le_sum (fun _ y => y) hg
    rw [← h2, heff, hTT] at h3
    omega
  -- the distribution
  have hglob : w1.dist.native.global d = (w.dist.native.idx.get d).getD 0 := by
    unfold Distributor.Ledger.global
    rw [i1]
  obtain ⟨L, hL⟩ := Distributor.Ledger.distributeOne_exists (L := w1.dist.native) (f := (d, A)) (t := w1.dist.total)
    (by rw [hTT]; exact hT0) (by rw [hTT]; show w1.dist.native.global d + A * ONE / T < M128; rw [hglob]; exact hidx)
  have howed1 : owedOf w1.dist (.native d) + ONE * A < ONE * M128 :=
    lt_of_le_of_lt (Nat.add_le_add_right (q1.owed _) _) howed
  have hr2 : handle c e w1 x (.dist (.distributeNative [(d, A)])) = .ok ({ w1 with dist := { w1.dist with native := L } }, []) := by
    simp only [handle]
    refine bind_ok_iff.2 ⟨({ w1.dist with native := L }, []), ?_, rfl⟩
    simp only [Distributor.exec]
    refine bind_ok_iff.2 ⟨{ w1.dist with native := L }, Distributor.distributeNative_ok_iff.2 ⟨?_, ?_, L, ?_, rfl⟩, rfl⟩
    · intro f hf'
      rw [List.mem_singleton.1 hf']
      exact hal
    · rw [hTT]; exact hT0
    · exact foldlM_cons_ok_iff.2 ⟨L, hL, rfl⟩
  have hx2 : Exec c w1 [.call x (.dist (.distributeNative [(d, A)]))] { w1 with dist := { w1.dist with native := L } } :=
    .call e (by rw [c1]; exact room) hr2 (.nil _) (.nil _)
  have h2 : Reachable c { w1 with dist := { w1.dist with native := L } } := .tx h1 hx hx2
  have hf2 : RewardsFit { w1 with dist := { w1.dist with native := L } } := by
    intro b
    have hle : ∀ k, L.owed w1.dist.effective k ≤ w1.dist.native.owed w1.dist.effective k + ONE * (if d = k then A else 0) :=
      fun k => Distributor.Ledger.distribute_owed hL hd1.inv.toCore.native hd1.inv.total k
    have hf1 : ∀ b, owedOf w1.dist b < 10 ^ 18 * 2 ^ 128 := fun b => lt_of_le_of_lt (q1.owed b) (hf b)
    cases b with
    | native k =>
      refine lt_of_le_of_lt (hle k) ?_
      by_cases hk : d = k
      · subst hk
        rw [if_pos rfl]
        exact howed1
      · rw [if_neg hk]
        exact hf1 (.native k)
    | cw20 t => exact hf1 (.cw20 t)
    | cw1155 y z => exact hf1 (.cw1155 y z)
  -- the stake is taken back
  obtain ⟨s1, hm1, hnext⟩ : ∃ s1, w1.mem = .staking k s1 ∧ s1.nextClaim = s.nextClaim := by
    simp only [handle] at hr1
    obtain ⟨v, hv, hdel⟩ := bind_ok_iff.1 hr1
    have hw1 : w1.mem = v.1 := deliver_mem _ hdel
    rw [hm] at hv
    simp only [Member.exec] at hv
    obtain ⟨z, hz, hzv⟩ := bind_ok_iff.1 hv
    obtain ⟨_, _, _, hz2⟩ := Staking.stakeFor_ok_iff.1 ((hmm z).1 hz)
    cases pure_ok_iff.1 hzv
    exact ⟨z.1, hw1, by rw [hz2]⟩
  obtain ⟨w3, s3, hr3, hx3, _, k1, k2, _⟩ := C117_unstake hw ht h2 (k := k) (s := s1) hm1 a (n := n)
    (by show n ≤ w1.mem.weight a; rw [hj.1]; omega) (by rw [hnext]; exact hid)
    (by show w1.gov.pollCount + 1 < _; rw [c1]; exact room) hf2 e
  obtain ⟨q3, _, b3, _⟩ := mem_quiet hw ht h2 ha.1 hr3
  refine ⟨w1, _, w3, hx1, hx2, hx3, b3.trans b1, fun u => ?_, ?_, fun u hu => ?_⟩
  · by_cases hu : u = a
    · subst hu
      rw [k1]
      show w1.mem.weight u - n = _
      rw [hj.1]
      omega
    · rw [k2 u hu]
      exact hj.2 u hu
  · rw [q3.claimable, ← q1.claimable, ← hONE]
    have := (distribute_share hd1.inv hL howed1 a).1
    rw [heff, hTT] at this
    exact this
  · rw [q3.claimable, ← q1.claimable, ← hONE]
    have := (distribute_share hd1.inv hL howed1 u).2
    rw [effective_stake hd1.inv (hag1 u), hTT] at this
    have hu' : stakeOf w1 u = stakeOf w u := by
      unfold stakeOf
      rw [hj.2 u hu, q1.min]
    rw [hu'] at this
    exact this

/-! ## C148 -/

/-- **A stake of one block takes its full part of a distribution.** In a denom DAO, an account that is not restricted stakes
`n` coins before a distribution, and unstakes them after it, in the same block. All three messages are accepted, and the
distribution is captured. (`T` are the stakes of all, with those coins. The last hypotheses are about sizes.) -/
theorem C148_denom {c : Cfg} (hw : c.Wf) (ht : c.Tame) {w : World} (h : Reachable c w) {s : Staking.State}
    (hm : w.mem = .staking .denom s) (hag : ∀ u, (w.dist.weights.get u).getD 0 = w.mem.weight u) {a x : Addr}
    (ha : c.outsider a) (hx : c.outsider x) {n : Nat} (hmin : w.dist.min ≤ w.mem.weight a + n) (hn : 0 < n)
    (hin : Fits w a n) (hf : RewardsFit w) (e : Ext) (he : e.restricted a = false) {d A : Nat}
    (hal : Distributor.Allowed (e.denv x) (.native d))
    (howed : owedOf w.dist (.native d) + 10 ^ 18 * A < 10 ^ 18 * 2 ^ 128)
    {T : Nat} (hT : T + stakeOf w a = allStakes w + (w.mem.weight a + n))
    (hidx : (w.dist.native.idx.get d).getD 0 + A * 10 ^ 18 / T < 2 ^ 128)
    (hid : s.nextClaim + 1 < 2 ^ 64) (room : w.gov.pollCount + 1 < 2 ^ 64) :
    ∃ w1 w2 w3, Exec c w [.call a (.mem (.staking (.stakeDenom [⟨s.asset, n⟩] none)))] w1 ∧
      Exec c w1 [.call x (.dist (.distributeNative [(d, A)]))] w2 ∧
      Exec c w2 [.call a (.mem (.staking (.unstake n)))] w3 ∧ Captured w w3 a n d A T :=
  captured hw ht h hm hag ha hx ha hmin hn hin hf e he
    (fun r => by simp [Staking.exec, Staking.stakeDenom, Cfg.menv]) hal howed hT hidx hid room

/-- The same in a token DAO. The tokens come from the token contract. -/
theorem C148_token {c : Cfg} (hw : c.Wf) (ht : c.Tame) {w : World} (h : Reachable c w) {s : Staking.State}
    (hm : w.mem = .staking .token s) (hag : ∀ u, (w.dist.weights.get u).getD 0 = w.mem.weight u) {a x : Addr}
    (ha : c.outsider a) (hx : c.outsider x) (hy : c.outsider s.asset) {n : Nat} (hmin : w.dist.min ≤ w.mem.weight a + n) (hn : 0 < n)
    (hin : Fits w a n) (hf : RewardsFit w) (e : Ext) (he : e.restricted a = false) {d A : Nat}
    (hal : Distributor.Allowed (e.denv x) (.native d))
    (howed : owedOf w.dist (.native d) + 10 ^ 18 * A < 10 ^ 18 * 2 ^ 128)
    {T : Nat} (hT : T + stakeOf w a = allStakes w + (w.mem.weight a + n))
    (hidx : (w.dist.native.idx.get d).getD 0 + A * 10 ^ 18 / T < 2 ^ 128)
    (hid : s.nextClaim + 1 < 2 ^ 64) (room : w.gov.pollCount + 1 < 2 ^ 64) :
    ∃ w1 w2 w3, Exec c w [.call s.asset (.mem (.staking (.receive n (.stake a))))] w1 ∧
      Exec c w1 [.call x (.dist (.distributeNative [(d, A)]))] w2 ∧
      Exec c w2 [.call a (.mem (.staking (.unstake n)))] w3 ∧ Captured w w3 a n d A T :=
  captured hw ht h hm hag ha hx hy hmin hn hin hf e he
    (fun r => by simp [Staking.exec, Staking.receive, Cfg.menv]) hal howed hT hidx hid room

/-- **With enough coins nearly all of it.** A member whose stake, times what is distributed, is less than those coins gets at
most one unit of it. -/
theorem C148_nothing_left {w w3 : World} {a : Addr} {n d A T : Nat} (hc : Captured w w3 a n d A T)
    (hT : n ≤ T) {u : Addr} (hu : u ≠ a) (hn : stakeOf w u * A < n) :
    claimable w3.dist u (.native d) ≤ claimable w.dist u (.native d) + 1 := by
  have h1 := hc.others u hu
  have h2 : stakeOf w u * (A * 10 ^ 18 / T) / 10 ^ 18 = 0 := by
    apply Nat.div_eq_of_lt
    have hT0 : 0 < T := by omega
    by_contra h3
    have h4 : 10 ^ 18 * T ≤ stakeOf w u * (A * 10 ^ 18 / T) * T := Nat.mul_le_mul_right _ (not_lt.1 h3)
    have h5 : stakeOf w u * (A * 10 ^ 18 / T) * T ≤ stakeOf w u * A * 10 ^ 18 := by
      rw [Nat.mul_assoc, Nat.mul_assoc]
      exact Nat.mul_le_mul_left _ (Nat.div_mul_le_self _ _)
    have h6 : stakeOf w u * A * 10 ^ 18 < T * 10 ^ 18 := Nat.mul_lt_mul_of_pos_right (by omega) (by norm_num)
    rw [Nat.mul_comm T] at h6
    exact absurd (le_trans h4 h5) (not_le.2 h6)
  omega

/-! ### Examples -/

theorem denom_state {w : World} (h : w.mem.daoType = .denom) {n : Nat}
    (hn : (match w.mem with | .staking _ s => decide (s.nextClaim + 1 < n) | _ => false) = true) :
    ∃ s, w.mem = .staking .denom s ∧ s.nextClaim + 1 < n := by
  cases hm : w.mem with
  | staking k s =>
    rw [hm] at h hn
    cases k with
    | token => cases h
    | denom => exact ⟨s, rfl, by simpa using hn⟩
  | nft s => rw [hm] at h; cases h
  | multisig s => rw [hm] at h; cases h

/-- Members 10 and 11 staked 60 and 40 coins. Account 77, not a member, stakes 900 coins before 1000 coins are distributed and
unstakes them in the same block: it can claim 900 of them. Members 10 and 11 get at most 61 and 41, instead of 600 and 400. -/
example : ∃ (s : Staking.State) (w1 w2 w3 : World), Exec sampleCfg (sampleRun [stake 10 60, stake 11 40])
      [.call 77 (.mem (.staking (.stakeDenom [⟨s.asset, 900⟩] none)))] w1 ∧
    Exec sampleCfg w1 [.call 12 (.dist (.distributeNative [(5, 1000)]))] w2 ∧
    Exec sampleCfg w2 [.call 77 (.mem (.staking (.unstake 900)))] w3 ∧
    w3.block = (sampleRun [stake 10 60, stake 11 40]).block ∧ w3.mem.weight 77 = 0 ∧ 900 ≤ claimable w3.dist 77 (.native 5) ∧
    claimable w3.dist 10 (.native 5) ≤ 61 ∧ claimable w3.dist 11 (.native 5) ≤ 41 := by
  obtain ⟨s, hs, hid⟩ := denom_state (w := sampleRun [stake 10 60, stake 11 40]) (n := 2 ^ 64) (by decide +kernel)
    (by decide +kernel)
  have hag : ∀ u, ((sampleRun [stake 10 60, stake 11 40]).dist.weights.get u).getD 0 =
      (sampleRun [stake 10 60, stake 11 40]).mem.weight u := by
    intro u
    have h1 : (sampleRun [stake 10 60, stake 11 40]).dist.weights = (sampleRun [stake 10 60, stake 11 40]).mem.mem.weights := by
      decide +kernel
    rw [h1, Member.weight_eq]
    rfl
  obtain ⟨w1, w2, w3, h1, h2, h3, h4⟩ := C148_denom sampleCfg_wf sampleCfg_tame (sampleRun_reachable _) hs hag (a := 77) (x := 12)
    (by decide +kernel) (by decide +kernel) (n := 900) (by decide +kernel) (by decide) ⟨by decide +kernel, by decide +kernel⟩
    (fun b => by rw [Distributor.owed_empty (by decide +kernel)]; decide) rewardExt (by decide) (d := 5) (A := 1000)
    (Or.inr (by decide)) (by rw [Distributor.owed_empty (by decide +kernel)]; decide) (T := 1000) (by decide +kernel)
    (by decide +kernel) hid (by decide +kernel)
  refine ⟨s, w1, w2, w3, h1, h2, h3, h4.block, ?_, ?_, ?_, ?_⟩
  · rw [h4.weights]; decide +kernel
  · exact le_trans (by decide +kernel) h4.share
  · exact le_trans (h4.others 10 (by decide)) (by decide +kernel)
  · exact le_trans (h4.others 11 (by decide)) (by decide +kernel)

/-- And with 100000 coins the members get at most one coin each of what is distributed, if it is 1000 coins. -/
example : stakeOf (sampleRun [stake 10 60, stake 11 40]) 10 * 1000 < 100000 := by decide +kernel

end Verif.Dao
