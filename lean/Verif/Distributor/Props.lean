import Verif.Distributor.Lemmas3

set_option linter.unusedSimpArgs false

/-!
# Funds distributor: properties C34–C43, C72
-/

namespace Verif.Distributor
open Verif

/-! ### A concrete history used to show that hypotheses are met -/

/-- Environment of a message from `u`, with two whitelisted assets and one restricted user. -/
def exEnv (u : Addr) : Env :=
  { sender := u, restricted := fun v => v == 66, treasury := ⟨Map.empty.set 5 (), Map.empty.set 900 (), Map.empty⟩,
    global := [.native 8] }

/-- Two users of weights 1 and 2, a third one below the minimum of 1. -/
def exInit : State :=
  match init 10 (some 1) [(1, 1), (2, 2), (3, 0)] with
  | .ok s => s
  | .error _ => ⟨0, 0, Map.empty, Map.empty, 0, Ledger.empty, Ledger.empty⟩

/-- A distribution of 10 units of denom 5, a claim, and a weight update. -/
def exHistory : List Call :=
  [⟨exEnv 77, .distributeNative [(5, 10)], true⟩, ⟨exEnv 1, .claim 1 [5, 5] [], true⟩,
   ⟨exEnv 10, .updateWeights [(1, 4), (7, 3), (1, 5)], true⟩, ⟨exEnv 900, .receiveCw20 true 100, true⟩]

theorem exInit_eq : init 10 (some 1) [(1, 1), (2, 2), (3, 0)] = .ok exInit := rfl

/-! ### C34 -/

/-- C34: the distributor is solvent. Over any history and for any distinct users, what they have been paid of an
asset and what they could claim now do not exceed what has been distributed of it. -/
theorem C34_solvent (ad : Addr) (mw : Option Nat) (ws : List (Addr × Nat)) (s0 : State) (h : List Call)
    (h0 : init ad mw ws = .ok s0) (us : List Addr) (hn : us.Nodup) (a : AssetInfo) :
    (us.map (fun u => claimed u a s0 h + claimable (run s0 h) u a)).sum ≤ distributed a s0 h := by
  obtain ⟨i0, _, _, o0⟩ := init_inv h0
  obtain ⟨i, _, o⟩ := run_inv h i0
  have h1 := o a
  rw [o0] at h1
  have h2 := claimed_le_all a us hn h s0
  have h3 := claimable_le_owed i.toCore us hn a
  have hsplit : ∀ l : List Addr, (l.map (fun u => claimed u a s0 h + claimable (run s0 h) u a)).sum =
      (l.map (fun u => claimed u a s0 h)).sum + (l.map (fun u => claimable (run s0 h) u a)).sum := by
    intro l
    induction l with
    | nil => rfl
    | cons u l ih => simp only [List.map_cons, List.sum_cons]; omega
  rw [hsplit]
  generalize (us.map (fun u => claimable (run s0 h) u a)).sum = y at *
  generalize (us.map (fun u => claimed u a s0 h)).sum = x at *
  have h4 : ONE * (x + y) ≤ ONE * distributed a s0 h := by
    rw [Nat.mul_add]
    have := Nat.mul_le_mul_left ONE h2
    omega
  exact Nat.le_of_mul_le_mul_left h4 (by decide)

/-- Hypotheses met: in the example user 1 has claimed 3 of 10 units, and the others can claim the rest but one. -/
example : distributed (.native 5) exInit exHistory = 10 ∧ claimed 1 (.native 5) exInit exHistory = 3 ∧
    claimable (run exInit exHistory) 2 (.native 5) = 6 ∧ claimable (run exInit exHistory) 1 (.native 5) = 0 ∧
    claimable (run exInit exHistory) 1 (.cw20 900) = 50 := by
  decide +kernel

theorem history_owed {ad : Addr} {mw : Option Nat} {ws : List (Addr × Nat)} {s0 : State} {h : List Call}
    (h0 : init ad mw ws = .ok s0) (a : AssetInfo) (hb : distributed a s0 h < 2 ^ 128) :
    owedOf (run s0 h) a < ONE * M128 := by
  obtain ⟨i0, _, _, o0⟩ := init_inv h0
  obtain ⟨_, _, o⟩ := run_inv h i0
  have h1 := o a
  rw [o0] at h1
  have h2 : ONE * distributed a s0 h < ONE * M128 := Nat.mul_lt_mul_of_pos_left hb (by decide)
  omega

/-- C34: while less than 2^128 units of each asset have been distributed, the reward query answers for every user and
every list of assets, so the claimable amounts above are what the contract reports. -/
theorem C34_reported (ad : Addr) (mw : Option Nat) (ws : List (Addr × Nat)) (s0 : State) (h : List Call)
    (h0 : init ad mw ws = .ok s0) (hb : ∀ a, distributed a s0 h < 2 ^ 128) (u : Addr) (ds ts : List Nat) :
    ∃ x, queryRewards (run s0 h) u ds ts = .ok x := by
  obtain ⟨i, _, _⟩ := run_inv h (init_inv h0).1
  obtain ⟨n, hn⟩ := Ledger.rewards_exists (L := (run s0 h).native) (u := u) (w := ((run s0 h).effective.get u).getD 0)
    ds [] (fun a _ => amt_exists i.native (history_owed h0 (.native a) (hb _)))
  obtain ⟨c, hc⟩ := Ledger.rewards_exists (L := (run s0 h).cw20) (u := u) (w := ((run s0 h).effective.get u).getD 0)
    ts [] (fun a _ => amt_exists i.cw20 (history_owed h0 (.cw20 a) (hb _)))
  exact ⟨(n, c), bind_ok_iff.2 ⟨n, hn, bind_ok_iff.2 ⟨c, hc, rfl⟩⟩⟩

/-- Amounts distributed by a history with no distribution are below the bound; a concrete distribution is. -/
example : distributed (.native 5) exInit exHistory < 2 ^ 128 ∧ distributed (.cw20 900) exInit exHistory < 2 ^ 128 ∧
    queryRewards (run exInit exHistory) 2 [5, 5, 6] [900] = .ok ([(5, 6), (6, 0)], [(900, 20)]) := by
  decide +kernel

/-! ### C35 -/

theorem accepted_exec {s : State} {c : Call} (h : accepted s c) :
    ∃ x, exec s c.env c.msg = .ok x ∧ step s c = x := by
  rcases step_cases s c with ⟨x, hx, _, he, _⟩ | ⟨_, hn⟩
  · exact ⟨x, hx, he⟩
  · exact absurd h hn

/-- Claimable amounts of a ledger with the same entry and index. -/
theorem amt_same {L L' : Ledger} {u a w : Nat} (hi : L'.idx = L.idx)
    (hd : L'.dist.get (toLex (u, a)) = L.dist.get (toLex (u, a))) : L'.amt u w a = L.amt u w a := by
  unfold Ledger.amt
  rw [Ledger.global_congr hi, hd]

theorem claim_assets {s : State} (hi : Inv s) {c : Call} {u : Addr} {ds ts : List Nat} (hm : c.msg = .claim u ds ts)
    (ha : accepted s c) (v : Addr) (a : AssetInfo) :
    (v = u → (∃ d ∈ ds, a = .native d) ∨ (∃ t ∈ ts, a = .cw20 t) →
      claimable (step s c).1 v a = 0 ∧ paid v a (step s c).2 = claimable s v a) ∧
    (¬ (v = u ∧ ((∃ d ∈ ds, a = .native d) ∨ (∃ t ∈ ts, a = .cw20 t))) →
      claimable (step s c).1 v a = claimable s v a ∧ paid v a (step s c).2 = 0) := by
  obtain ⟨x, hx, he⟩ := accepted_exec ha
  rw [hm] at hx
  obtain ⟨_, _, ef⟩ := claim_effect hi.toCore hx
  rw [he]
  obtain ⟨_, _, _, f4, _⟩ := ef.frame
  obtain ⟨pn, pc, ho, cn, cc⟩ := ef.pays
  have heff : ∀ v, effective x.1 v = effective s v := by intro v; unfold effective; rw [f4]
  rw [ho, paid_payMsgs]
  cases a with
  | native d =>
    rw [claimable_native, claimable_native, heff, paidAll_native]
    constructor
    · rintro rfl hl
      have hd : d ∈ ds := by
        rcases hl with ⟨d', hd', e⟩ | ⟨t, _, e⟩
        · cases e; exact hd'
        · cases e
      obtain ⟨h1, h2⟩ := cn.listed d hd
      rw [h1, h2, if_pos rfl]
      exact ⟨rfl, rfl⟩
    · intro hl
      have hd : ¬ (v = u ∧ d ∈ ds) := fun hx => hl ⟨hx.1, .inl ⟨d, hx.2, rfl⟩⟩
      rw [amt_same cn.idx (cn.others v d hd)]
      refine ⟨rfl, ?_⟩
      by_cases hv : v = u
      · rw [if_pos hv]
        exact cn.unlisted d (fun hx => hd ⟨hv, hx⟩)
      · rw [if_neg hv]
  | cw20 d =>
    rw [claimable_cw20, claimable_cw20, heff, paidAll_cw20]
    constructor
    · rintro rfl hl
      have hd : d ∈ ts := by
        rcases hl with ⟨t, _, e⟩ | ⟨d', hd', e⟩
        · cases e
        · cases e; exact hd'
      obtain ⟨h1, h2⟩ := cc.listed d hd
      rw [h1, h2, if_pos rfl]
      exact ⟨rfl, rfl⟩
    · intro hl
      have hd : ¬ (v = u ∧ d ∈ ts) := fun hx => hl ⟨hx.1, .inr ⟨d, hx.2, rfl⟩⟩
      rw [amt_same cc.idx (cc.others v d hd)]
      refine ⟨rfl, ?_⟩
      by_cases hv : v = u
      · rw [if_pos hv]
        exact cc.unlisted d (fun hx => hd ⟨hv, hx⟩)
      · rw [if_neg hv]
  | cw1155 x' i =>
    rw [paidAll_cw1155]
    constructor
    · rintro _ hl
      rcases hl with ⟨t, _, e⟩ | ⟨d', hd', e⟩ <;> cases e
    · intro _
      exact ⟨rfl, by split <;> rfl⟩

/-- C35: an accepted claim pays for each listed asset exactly the claimable amount, once however often the asset is
listed, and leaves nothing of it to claim; assets that are not listed are neither paid nor changed. -/
theorem C35_claim_pays_once (s : State) (hr : Reachable s) (c : Call) (u : Addr) (ds ts : List Nat)
    (hm : c.msg = .claim u ds ts) (ha : accepted s c) (a : AssetInfo) :
    let listed := (∃ d ∈ ds, a = .native d) ∨ (∃ t ∈ ts, a = .cw20 t)
    (listed → claimable (step s c).1 u a = 0 ∧ paid u a (step s c).2 = claimable s u a) ∧
    (¬ listed → claimable (step s c).1 u a = claimable s u a ∧ paid u a (step s c).2 = 0) := by
  obtain ⟨h1, h2⟩ := claim_assets hr.inv hm ha u a
  exact ⟨h1 rfl, fun hl => h2 (fun hx => hl hx.2)⟩

theorem le_listed {a n : Nat} : ∀ {l : List (Nat × Nat)}, (a, n) ∈ l → n ≤ Ledger.listed a l
  | [], h => by cases h
  | p :: l, h => by
    unfold Ledger.listed
    rw [List.map_cons, List.sum_cons]
    rcases List.mem_cons.1 h with h | h
    · subst h
      rw [if_pos rfl]
      exact Nat.le_add_right _ _
    · exact le_trans (le_listed h) (Nat.le_add_left _ _)

/-- C35: after a claim, claiming any of the same assets again pays nothing. -/
theorem C35_again (s : State) (hr : Reachable s) (c c' : Call) (u : Addr) (ds ts ds' ts' : List Nat)
    (hm : c.msg = .claim u ds ts) (ha : accepted s c) (hm' : c'.msg = .claim u ds' ts')
    (hd : ∀ d ∈ ds', d ∈ ds) (ht : ∀ t ∈ ts', t ∈ ts) : (step (step s c).1 c').2 = [] := by
  have hr' := hr.step c
  rcases step_cases (step s c).1 c' with ⟨x, hx, _, he, ha'⟩ | ⟨he, _⟩
  · rw [he]
    rw [hm'] at hx
    obtain ⟨_, _, ef⟩ := claim_effect hr'.inv.toCore hx
    obtain ⟨pn, pc, ho, cn, cc⟩ := ef.pays
    obtain ⟨y, hy, he1⟩ := accepted_exec ha
    rw [hm] at hy
    obtain ⟨_, _, ef1⟩ := claim_effect hr.inv.toCore hy
    obtain ⟨_, _, _, g4, _⟩ := ef1.frame
    obtain ⟨pn1, pc1, _, cn1, cc1⟩ := ef1.pays
    rw [he1] at cn cc
    have heff : effective y.1 u = effective s u := by unfold effective; rw [g4]
    rw [heff] at cn cc
    have hone : ∀ p ∈ pn, False := by
      intro p hp
      have hnz := cn.nonzero p hp
      have hge : p.2 ≤ Ledger.listed p.1 pn := le_listed hp
      by_cases hin : p.1 ∈ ds'
      · have h1 := (cn.listed p.1 hin).1
        rw [(cn1.listed p.1 (hd _ hin)).2] at h1
        have : Ledger.listed p.1 pn = 0 := by simpa using h1.symm
        omega
      · have := cn.unlisted p.1 hin
        omega
    have htwo : ∀ p ∈ pc, False := by
      intro p hp
      have hnz := cc.nonzero p hp
      have hge : p.2 ≤ Ledger.listed p.1 pc := le_listed hp
      by_cases hin : p.1 ∈ ts'
      · have h1 := (cc.listed p.1 hin).1
        rw [(cc1.listed p.1 (ht _ hin)).2] at h1
        have : Ledger.listed p.1 pc = 0 := by simpa using h1.symm
        omega
      · have := cc.unlisted p.1 hin
        omega
    rw [ho]
    cases pn with
    | cons p l => exact (hone p List.mem_cons_self).elim
    | nil =>
      cases pc with
      | cons p l => exact (htwo p List.mem_cons_self).elim
      | nil => rfl
  · rw [he]

/-- Hypotheses met: user 2 claims denom 5, listed twice, and is paid 6 once. -/
example : let s := run exInit exHistory
    let c : Call := ⟨exEnv 2, .claim 2 [5, 5] [900], true⟩
    accepted s c ∧ (step s c).2 = [⟨2, .native 5, 6⟩, ⟨2, .cw20 900, 20⟩] := by
  decide +kernel

/-! ### C36 -/

/-- C36: a weight update, of any list of users with repetitions, changes no answer of the reward query, for any user and
any assets; in particular no claimable amount. -/
theorem C36_update_keeps_rewards (s : State) (hr : Reachable s) (c : Call) (l : List (Addr × Nat))
    (hm : c.msg = .updateWeights l) (v : Addr) (ds ts : List Nat) (a : AssetInfo) :
    queryRewards (step s c).1 v ds ts = queryRewards s v ds ts ∧ claimable (step s c).1 v a = claimable s v a := by
  rcases step_cases s c with ⟨x, hx, _, he, _⟩ | ⟨he, _⟩
  · rw [he]
    rw [hm] at hx
    simp only [exec] at hx
    obtain ⟨s', h1, hx⟩ := bind_ok_iff.1 hx
    cases pure_ok_iff.1 hx
    unfold updateWeights at h1
    obtain ⟨_, h1⟩ := ite_ok_iff.1 h1
    obtain ⟨_, q, _⟩ := updates_ok l hr.inv h1
    exact ⟨q.query v ds ts, q.claimable v a⟩
  · rw [he]
    exact ⟨rfl, rfl⟩

/-- The last weight listed for a user, or the weight they had. -/
def lastListed (s : State) (u : Addr) : List (Addr × Nat) → Nat
  | [] => weight s u
  | l => match (l.filter (fun p => decide (p.1 = u))).getLast? with
    | some p => p.2
    | none => weight s u

theorem foldl_set_get (u : Addr) : ∀ (l : List (Addr × Nat)) (m : Map Addr Nat),
    (l.foldl (fun m p => m.set p.1 p.2) m).get u =
      match (l.filter (fun p => decide (p.1 = u))).getLast? with
      | some p => some p.2
      | none => m.get u
  | [], m => rfl
  | p :: l, m => by
    rw [List.foldl_cons, foldl_set_get u l]
    by_cases h : p.1 = u
    · rw [List.filter_cons_of_pos (by simpa using h), List.getLast?_cons, Map.get_set, if_pos h]
      cases (l.filter (fun p => decide (p.1 = u))).getLast? <;> rfl
    · rw [List.filter_cons_of_neg (by simpa using h), Map.get_set, if_neg h]

/-- C36: after an accepted update each user has the last weight listed for them, and the others keep theirs. -/
theorem C36_update_sets_weights (s : State) (hr : Reachable s) (c : Call) (l : List (Addr × Nat))
    (hm : c.msg = .updateWeights l) (ha : accepted s c) (u : Addr) :
    weight (step s c).1 u = lastListed s u l := by
  obtain ⟨x, hx, he⟩ := accepted_exec ha
  rw [he]
  rw [hm] at hx
  simp only [exec] at hx
  obtain ⟨s', h1, hx⟩ := bind_ok_iff.1 hx
  cases pure_ok_iff.1 hx
  unfold updateWeights at h1
  obtain ⟨_, h1⟩ := ite_ok_iff.1 h1
  obtain ⟨_, _, hw⟩ := updates_ok l hr.inv h1
  unfold weight lastListed
  rw [hw, foldl_set_get]
  cases l with
  | nil => rfl
  | cons p l =>
    show _ = match ((p :: l).filter (fun p => decide (p.1 = u))).getLast? with
      | some p => p.2
      | none => weight s u
    cases ((p :: l).filter (fun p => decide (p.1 = u))).getLast? <;> rfl

/-- Hypotheses met: the example's update lists user 1 twice and a new user. -/
example : let s := run exInit (exHistory.take 2)
    let c : Call := ⟨exEnv 10, .updateWeights [(1, 4), (7, 3), (1, 5)], true⟩
    accepted s c ∧ weight (step s c).1 1 = 5 ∧ claimable s 2 (.native 5) = 6 ∧
    claimable (step s c).1 2 (.native 5) = 6 := by
  decide +kernel

/-! ### C37 -/

/-- Number of coins of a denom. -/
def coins (d : Nat) (l : List (Nat × Nat)) : Nat := (l.filter (fun f => decide (f.1 = d))).length

/-- C37: a native distribution is shared pro rata. With `A` the amount of the denom, `w` the user's effective weight and
`T` the total: the claimable amount grows by less than `A*w/T + 1` and by more than `A*w/T - 1 - k*w/10^18`, `k` the
number of coins of the denom (at most one in a bank transfer). -/
theorem C37_native (s : State) (hr : Reachable s) (c : Call) (l : List (Nat × Nat)) (hm : c.msg = .distributeNative l)
    (ha : accepted s c) (u : Addr) (d after : Nat)
    (hq : queryRewards (step s c).1 u [d] [] = .ok ([(d, after)], [])) :
    ∃ before, queryRewards s u [d] [] = .ok ([(d, before)], []) ∧ before ≤ after ∧
      s.total * (after - before) < funds c (.native d) * effective s u + s.total ∧
      funds c (.native d) * effective s u * 10 ^ 18 <
        10 ^ 18 * s.total * (after - before) + 10 ^ 18 * s.total + coins d l * effective s u * s.total := by
  obtain ⟨x, hx, he⟩ := accepted_exec ha
  rw [he] at hq
  rw [hm] at hx
  simp only [exec] at hx
  obtain ⟨s', h1, hx⟩ := bind_ok_iff.1 hx
  cases pure_ok_iff.1 hx
  obtain ⟨_, ht, n, h2, rfl⟩ := distributeNative_ok_iff.1 h1
  obtain ⟨hd, hg⟩ := Ledger.distributes_global _ _ _ h2
  obtain ⟨inc, e1, e2, e3, _⟩ := hg d
  have hq' := query_native.1 hq
  obtain ⟨r, hr1, hr2, hr3, hr4⟩ := amt_growth hd (hr.inv.native.index_le u d) e1 e2 e3 (Nat.pos_of_ne_zero ht) hq'
  have hf : funds c (.native d) = Ledger.listed d l := by
    unfold funds
    rw [hm]
    exact sum_native l d
  refine ⟨r, query_native.2 hr1, hr2, ?_, ?_⟩
  · rw [hf]
    exact hr3
  · rw [hf]
    exact hr4

/-- C37: the same for cw20 tokens. -/
theorem C37_cw20 (s : State) (hr : Reachable s) (c : Call) (k : Bool) (amount : Nat)
    (hm : c.msg = .receiveCw20 k amount) (ha : accepted s c) (u : Addr) (after : Nat)
    (hq : queryRewards (step s c).1 u [] [c.env.sender] = .ok ([], [(c.env.sender, after)])) :
    ∃ before, queryRewards s u [] [c.env.sender] = .ok ([], [(c.env.sender, before)]) ∧ before ≤ after ∧
      s.total * (after - before) < amount * effective s u + s.total ∧
      amount * effective s u * 10 ^ 18 <
        10 ^ 18 * s.total * (after - before) + 10 ^ 18 * s.total + effective s u * s.total := by
  obtain ⟨x, hx, he⟩ := accepted_exec ha
  rw [he] at hq
  rw [hm] at hx
  simp only [exec] at hx
  obtain ⟨s', h1, hx⟩ := bind_ok_iff.1 hx
  cases pure_ok_iff.1 hx
  obtain ⟨_, _, ht, n, h2, rfl⟩ := receiveCw20_ok_iff.1 h1
  have h2' : [(c.env.sender, amount)].foldlM (Ledger.distributeOne s.total) s.cw20 = .ok n :=
    foldlM_cons_ok_iff.2 ⟨n, h2, rfl⟩
  obtain ⟨hd, hg⟩ := Ledger.distributes_global _ _ _ h2'
  obtain ⟨inc, e1, e2, e3, _⟩ := hg c.env.sender
  have hq' := query_cw20.1 hq
  obtain ⟨r, hr1, hr2, hr3, hr4⟩ :=
    amt_growth hd (hr.inv.cw20.index_le u c.env.sender) e1 e2 e3 (Nat.pos_of_ne_zero ht) hq'
  have hl : Ledger.listed c.env.sender [(c.env.sender, amount)] = amount := by simp [Ledger.listed]
  have hk : Ledger.count c.env.sender [(c.env.sender, amount)] = 1 := by simp [Ledger.count]
  rw [hl] at hr3 hr4
  rw [hk, Nat.one_mul] at hr4
  exact ⟨r, query_cw20.2 hr1, hr2, hr3, hr4⟩

/-- C37: other assets are not affected by a distribution. -/
theorem C37_others (s : State) (hr : Reachable s) (c : Call) (a : AssetInfo)
    (hm : (∃ l, c.msg = .distributeNative l ∧ ∀ f ∈ l, AssetInfo.native f.1 ≠ a) ∨
      (∃ k n, c.msg = .receiveCw20 k n ∧ AssetInfo.cw20 c.env.sender ≠ a)) (u : Addr) :
    claimable (step s c).1 u a = claimable s u a := by
  have _ := hr
  rcases step_cases s c with ⟨x, hx, _, he, _⟩ | ⟨he, _⟩
  · rw [he]
    rcases hm with ⟨l, hm, hl⟩ | ⟨k, n, hm, hl⟩
    · rw [hm] at hx
      simp only [exec] at hx
      obtain ⟨s', h1, hx⟩ := bind_ok_iff.1 hx
      cases pure_ok_iff.1 hx
      obtain ⟨_, ht, n, h2, rfl⟩ := distributeNative_ok_iff.1 h1
      cases a with
      | native d =>
        obtain ⟨hd, hg⟩ := Ledger.distributes_global _ _ _ h2
        obtain ⟨inc, e1, e2, _, _⟩ := hg d
        have hz : Ledger.listed d l = 0 := by
          unfold Ledger.listed
          apply sum_zero_of
          intro y hy
          obtain ⟨f, hf, rfl⟩ := List.mem_map.1 hy
          rw [if_neg (fun h => hl f hf (by rw [h]))]
        rw [hz, Nat.mul_zero, Nat.le_zero_eq, Nat.mul_eq_zero] at e2
        have hinc : inc = 0 := e2.resolve_left ht
        rw [claimable_native, claimable_native]
        have : n.amt u (effective s u) d = s.native.amt u (effective s u) d := by
          unfold Ledger.amt
          rw [hd, e1, hinc, Nat.add_zero]
        exact congrArg amount this
      | cw20 d => rw [claimable_cw20, claimable_cw20]; rfl
      | cw1155 _ _ => rfl
    · rw [hm] at hx
      simp only [exec] at hx
      obtain ⟨s', h1, hx⟩ := bind_ok_iff.1 hx
      cases pure_ok_iff.1 hx
      obtain ⟨_, _, ht, n', h2, rfl⟩ := receiveCw20_ok_iff.1 h1
      cases a with
      | native d => rw [claimable_native, claimable_native]; rfl
      | cw20 d =>
        obtain ⟨_, _, _, hd, hg⟩ := Ledger.distributeOne_ok h2
        have e1 := hg d
        rw [if_neg (fun h => hl (congrArg AssetInfo.cw20 h)), Nat.add_zero] at e1
        rw [claimable_cw20, claimable_cw20]
        have : n'.amt u (effective s u) d = s.cw20.amt u (effective s u) d := by
          unfold Ledger.amt
          rw [hd, e1]
        exact congrArg amount this
      | cw1155 _ _ => rfl
  · rw [he]

/-- C37, why the upper bound has a `+ 1`: fractions are carried over, so a distribution of 1 unit among two equal
weights can give a whole unit to each of them, if half a unit was left to each before. -/
theorem C37_carry_witness :
    ∃ s c u, Reachable s ∧ accepted s c ∧ c.msg = .distributeNative [(5, 1)] ∧ s.total = 2 ∧ effective s u = 1 ∧
      claimable s u (.native 5) = 0 ∧ claimable (step s c).1 u (.native 5) = 1 := by
  refine ⟨run (match init 10 none [(1, 1), (2, 1)] with
      | .ok s => s
      | .error _ => exInit) [⟨exEnv 7, .distributeNative [(5, 1)], true⟩],
    ⟨exEnv 7, .distributeNative [(5, 1)], true⟩, 1, ?_, ?_⟩
  · exact ⟨10, none, [(1, 1), (2, 1)], _, [⟨exEnv 7, .distributeNative [(5, 1)], true⟩], rfl, rfl⟩
  · decide +kernel

/-- Hypotheses met: a distribution of 10 units to a user holding 2 of 3. -/
example : let c : Call := ⟨exEnv 77, .distributeNative [(5, 10)], true⟩
    accepted exInit c ∧ queryRewards (step exInit c).1 2 [5] [] = .ok ([(5, 6)], []) ∧
    exInit.total = 3 ∧ effective exInit 2 = 2 := by
  decide +kernel

/-! ### C38 -/

/-- C38: the total weight used in distributions is the sum of the effective weights, and the effective weight of every
user is their weight if it reaches the minimum and zero otherwise. -/
theorem C38_total_effective (s : State) (hr : Reachable s) :
    s.total = s.effective.sum (fun _ w => w) ∧
    ∀ u, effective s u = if s.min ≤ weight s u then weight s u else 0 := by
  have hi := hr.inv
  refine ⟨hi.total, fun u => ?_⟩
  unfold effective weight
  rw [hi.eff u]
  cases s.weights.get u with
  | none => simp
  | some w => rfl

/-- C38: a distributor starts with the administrator and the minimum it was given (zero when none was), with the listed
weights, each user listed once, with weight zero for everybody else, and with nothing to claim. -/
theorem C38_initial (ad : Addr) (mw : Option Nat) (ws : List (Addr × Nat)) (s : State) (h : init ad mw ws = .ok s) :
    s.admin = ad ∧ s.min = mw.getD 0 ∧ (ws.map (·.1)).Nodup ∧ (∀ p ∈ ws, weight s p.1 = p.2) ∧
    (∀ u, u ∉ ws.map (·.1) → weight s u = 0) ∧
    (∀ u, effective s u = if mw.getD 0 ≤ weight s u then weight s u else 0) ∧
    ∀ u a, claimable s u a = 0 := by
  have hi : Inv ⟨ad, mw.getD 0, Map.empty, Map.empty, 0, Ledger.empty, Ledger.empty⟩ :=
    ⟨⟨rfl, fun _ _ _ h => (nomatch h), fun _ _ _ h => (nomatch h)⟩, fun _ => rfl⟩
  obtain ⟨_, ⟨e1, e2⟩, e3, e4⟩ := inits_ok ws hi ⟨rfl, rfl⟩ h
  obtain ⟨w1, w2, w3⟩ := initial_weights ws _ s h
  have hz : ∀ u w d, amount (Ledger.empty.amt u w d) = 0 := by
    intro u w d
    have : Ledger.empty.amt u w d = .ok 0 := by
      show reward 0 none w = _
      unfold reward
      have : newReward 0 0 w = .ok 0 := by
        unfold newReward
        simp [csub, bind, Except.bind, M128]
      show (newReward 0 0 w >>= fun r => cadd128 r 0) = _
      rw [this]; rfl
    rw [this]; rfl
  refine ⟨e3, e4, w1, fun p hp => ?_, fun u hu => ?_, fun u => ?_, fun u a => ?_⟩
  · unfold weight; rw [w2 p hp]; rfl
  · unfold weight; rw [w3 u hu]; rfl
  · have := (C38_total_effective s ⟨ad, mw, ws, s, [], h, rfl⟩).2 u
    rw [e4] at this
    exact this
  · cases a with
    | native d => rw [claimable_native, e1, hz]
    | cw20 d => rw [claimable_cw20, e2, hz]
    | cw1155 _ _ => rfl

/-- Hypotheses met: two users of weights 1 and 2, a third one below the minimum of 1; a list naming a user twice is
refused. -/
example : init 10 (some 1) [(1, 1), (2, 2), (3, 0)] = .ok exInit ∧ exInit.min = 1 ∧ weight exInit 2 = 2 ∧
    effective exInit 3 = 0 ∧ (init 10 (some 1) [(1, 1), (1, 2)]).toOption = none := by
  decide +kernel

/-- C38: over any distinct users, the effective weights add up to no more than the total. -/
theorem C38_total_covers (s : State) (hr : Reachable s) (us : List Addr) (hn : us.Nodup) :
    (us.map (effective s)).sum ≤ s.total := by
  rw [hr.inv.total]
  have key : ∀ (us : List Addr) (m : Map Addr Nat), us.Nodup →
      (us.map (fun u => (m.get u).getD 0)).sum ≤ m.sum (fun _ w => w) := by
    intro us
    induction us with
    | nil => intro _ _; exact Nat.zero_le _
    | cons u us ih =>
      intro m hn
      rw [List.nodup_cons] at hn
      have h1 := Map.sum_remove m (fun _ w => w) u
      have h2 := ih (m.remove u) hn.2
      have h3 : us.map (fun v => ((m.remove u).get v).getD 0) = us.map (fun v => (m.get v).getD 0) := by
        refine List.map_congr_left (fun v hv => ?_)
        rw [Map.get_remove, if_neg (fun h => hn.1 (by rw [h]; exact hv))]
      rw [h3] at h2
      have h4 : Map.contrib (fun _ w => w) u (m.get u) = (m.get u).getD 0 := by cases m.get u <;> rfl
      rw [List.map_cons, List.sum_cons]
      omega
  exact key us s.effective hn

/-- C38: a user with zero effective weight gains nothing from a distribution. -/
theorem C38_no_gain (s : State) (hr : Reachable s) (c : Call)
    (hm : (∃ l, c.msg = .distributeNative l) ∨ (∃ k n, c.msg = .receiveCw20 k n)) (u : Addr)
    (hu : effective s u = 0) (a : AssetInfo) : claimable (step s c).1 u a = claimable s u a := by
  rcases step_cases s c with ⟨x, hx, _, he, _⟩ | ⟨he, _⟩
  · rw [he]
    rcases hm with ⟨l, hm⟩ | ⟨k, n, hm⟩
    · rw [hm] at hx
      simp only [exec] at hx
      obtain ⟨s', h1, hx⟩ := bind_ok_iff.1 hx
      cases pure_ok_iff.1 hx
      obtain ⟨_, ht, n, h2, rfl⟩ := distributeNative_ok_iff.1 h1
      cases a with
      | native d =>
        obtain ⟨hd, hg⟩ := Ledger.distributes_global _ _ _ h2
        obtain ⟨inc, e1, _⟩ := hg d
        rw [claimable_native, claimable_native]
        show amount (n.amt u (effective s u) d) = _
        rw [hu, amt_zero_weight hd (hr.inv.native.index_le u d) e1]
      | cw20 d => rw [claimable_cw20, claimable_cw20]; rfl
      | cw1155 _ _ => rfl
    · rw [hm] at hx
      simp only [exec] at hx
      obtain ⟨s', h1, hx⟩ := bind_ok_iff.1 hx
      cases pure_ok_iff.1 hx
      obtain ⟨_, _, ht, n', h2, rfl⟩ := receiveCw20_ok_iff.1 h1
      cases a with
      | native d => rw [claimable_native, claimable_native]; rfl
      | cw20 d =>
        obtain ⟨_, _, _, hd, hg⟩ := Ledger.distributeOne_ok h2
        rw [claimable_cw20, claimable_cw20]
        show amount (n'.amt u (effective s u) d) = _
        rw [hu, amt_zero_weight hd (hr.inv.cw20.index_le u d) (hg d)]
      | cw1155 _ _ => rfl
  · rw [he]

/-- Hypotheses met: user 3 has weight 0, below the minimum of 1; user 2 has an effective weight. -/
example : effective exInit 3 = 0 ∧ effective exInit 2 = 2 ∧ exInit.total = 3 ∧
    accepted exInit ⟨exEnv 77, .distributeNative [(5, 10)], true⟩ := by
  decide +kernel

/-! ### C39 -/

/-- C39: a change of the minimum weight changes no answer of the reward query. -/
theorem C39_keeps_rewards (s : State) (hr : Reachable s) (c : Call) (m : Nat) (hm : c.msg = .updateMin m) (v : Addr)
    (ds ts : List Nat) (a : AssetInfo) :
    queryRewards (step s c).1 v ds ts = queryRewards s v ds ts ∧ claimable (step s c).1 v a = claimable s v a := by
  rcases step_cases s c with ⟨x, hx, _, he, _⟩ | ⟨he, _⟩
  · rw [he]
    rw [hm] at hx
    simp only [exec] at hx
    obtain ⟨s', h1, hx⟩ := bind_ok_iff.1 hx
    cases pure_ok_iff.1 hx
    obtain ⟨_, _, _, _, _, q1, q2, _⟩ := updateMin_ok hr.inv h1
    refine ⟨query_congr (q1 v) (q2 v) ds ts, ?_⟩
    cases a with
    | native d => rw [claimable_native, claimable_native, q1]
    | cw20 d => rw [claimable_cw20, claimable_cw20, q2]
    | cw1155 _ _ => rfl
  · rw [he]
    exact ⟨rfl, rfl⟩

/-- C39: after an accepted change, exactly the users at or above the new minimum count, with their weight, which is
unchanged; the total follows. -/
theorem C39_eligible (s : State) (hr : Reachable s) (c : Call) (m : Nat) (hm : c.msg = .updateMin m)
    (ha : accepted s c) :
    (step s c).1.min = m ∧ (∀ u, weight (step s c).1 u = weight s u) ∧
    (∀ u, effective (step s c).1 u = if m ≤ weight s u then weight s u else 0) ∧
    (step s c).1.total = (step s c).1.effective.sum (fun _ w => w) := by
  obtain ⟨x, hx, he⟩ := accepted_exec ha
  have hr' := hr.step c
  obtain ⟨t1, t2⟩ := C38_total_effective _ hr'
  rw [he] at t1 t2 ⊢
  rw [hm] at hx
  simp only [exec] at hx
  obtain ⟨s', h1, hx⟩ := bind_ok_iff.1 hx
  cases pure_ok_iff.1 hx
  obtain ⟨_, _, hmin, hw, _⟩ := updateMin_ok hr.inv h1
  have hweight : ∀ u, weight s' u = weight s u := fun u => by unfold weight; rw [hw]
  refine ⟨hmin, hweight, fun u => ?_, t1⟩
  have := t2 u
  simp only [hmin, hweight] at this
  exact this

/-- Hypotheses met: raising the minimum to 2 drops user 1, then lowering it again restores them. -/
example : let s := run exInit [⟨exEnv 77, .distributeNative [(5, 10)], true⟩]
    let c : Call := ⟨exEnv 10, .updateMin 2, true⟩
    let s' := (step s c).1
    let c' : Call := ⟨exEnv 10, .updateMin 0, true⟩
    accepted s c ∧ effective s' 1 = 0 ∧ s'.total = 2 ∧ claimable s' 1 (.native 5) = 3 ∧
    accepted s' c' ∧ effective (step s' c').1 1 = 1 ∧ claimable (step s' c').1 1 (.native 5) = 3 := by
  decide +kernel

/-! ### C40 -/

/-- C40: with a total effective weight of zero a distribution is refused without effect. -/
theorem C40_refused (s : State) (c : Call)
    (hm : (∃ l, c.msg = .distributeNative l) ∨ (∃ k n, c.msg = .receiveCw20 k n)) (h0 : s.total = 0) :
    ¬ accepted s c ∧ step s c = (s, []) := by
  have hna : ¬ accepted s c := by
    rintro ⟨_, x, hx⟩
    rcases hm with ⟨l, hm⟩ | ⟨k, n, hm⟩
    · rw [hm] at hx
      simp only [exec] at hx
      obtain ⟨s', h1, hx⟩ := bind_ok_iff.1 hx
      obtain ⟨_, ht, _⟩ := distributeNative_ok_iff.1 h1
      exact ht h0
    · rw [hm] at hx
      simp only [exec] at hx
      obtain ⟨s', h1, hx⟩ := bind_ok_iff.1 hx
      obtain ⟨_, _, ht, _⟩ := receiveCw20_ok_iff.1 h1
      exact ht h0
  refine ⟨hna, ?_⟩
  rcases step_cases s c with ⟨x, _, _, _, ha⟩ | ⟨he, _⟩
  · exact absurd ha hna
  · exact he

/-- C40, on reachable states: a distribution is accepted only if someone's effective weight is positive. -/
theorem C40_someone (s : State) (hr : Reachable s) (c : Call)
    (hm : (∃ l, c.msg = .distributeNative l) ∨ (∃ k n, c.msg = .receiveCw20 k n)) (ha : accepted s c) :
    ∃ u, 0 < effective s u := by
  by_cases h : ∃ u, 0 < effective s u
  · exact h
  · exfalso
    refine (C40_refused s c hm ?_).1 ha
    rw [hr.inv.total]
    have : s.effective.sum (fun _ w => w) = s.effective.sum (fun _ _ => 0) := by
      refine Map.sum_congr (fun u w hw => ?_)
      by_contra hne
      exact h ⟨u, by unfold effective; rw [hw]; exact Nat.pos_of_ne_zero hne⟩
    rw [this, Map.sum_zero]

/-- Hypotheses met: only a user below the minimum. -/
example : ∃ s, init 10 (some 5) [(1, 3)] = .ok s ∧ s.total = 0 ∧
    ¬ accepted s ⟨exEnv 77, .distributeNative [(5, 10)], true⟩ :=
  ⟨_, rfl, by decide +kernel⟩

/-! ### C41 -/

/-- C41: a claim is accepted only if sent by the user it is for, who is not restricted; it pays nobody else, and leaves
everybody else's claimable amounts and every weight as they were. -/
theorem C41_owner_only (s : State) (hr : Reachable s) (c : Call) (u : Addr) (ds ts : List Nat)
    (hm : c.msg = .claim u ds ts) :
    (accepted s c → c.env.sender = u ∧ c.env.restricted u = false) ∧
    (∀ o ∈ (step s c).2, o.to = u ∧ o.amount ≠ 0) ∧
    (∀ v a, v ≠ u → claimable (step s c).1 v a = claimable s v a) ∧
    (∀ v, weight (step s c).1 v = weight s v ∧ effective (step s c).1 v = effective s v) := by
  rcases step_cases s c with ⟨x, hx, _, he, ha⟩ | ⟨he, hna⟩
  · have hx' := hx
    rw [hm] at hx
    obtain ⟨h1, h2, ef⟩ := claim_effect hr.inv.toCore hx
    refine ⟨fun _ => ⟨h2, h1⟩, ?_, fun v a hv => ?_, fun v => ?_⟩
    · rw [he]
      obtain ⟨pn, pc, ho, cn, cc⟩ := ef.pays
      rw [ho]
      intro o hmem
      unfold payMsgs at hmem
      rcases List.mem_append.1 hmem with h | h
      · obtain ⟨p, hp, rfl⟩ := List.mem_map.1 h
        exact ⟨rfl, cn.nonzero p hp⟩
      · obtain ⟨p, hp, rfl⟩ := List.mem_map.1 h
        exact ⟨rfl, cc.nonzero p hp⟩
    · exact ((claim_assets hr.inv hm ha v a).2 (fun hx => hv hx.1)).1
    · rw [he]
      obtain ⟨_, _, f3, f4, _⟩ := ef.frame
      unfold weight effective
      rw [f3, f4]
      exact ⟨rfl, rfl⟩
  · rw [he]
    exact ⟨fun h => absurd h hna, fun o ho => by simp at ho, fun _ _ _ => rfl, fun _ => ⟨rfl, rfl⟩⟩

/-- C41: no other message pays anyone. -/
theorem C41_only_claims_pay (s : State) (c : Call) (hm : ∀ u ds ts, c.msg ≠ .claim u ds ts) : (step s c).2 = [] := by
  rcases step_cases s c with ⟨x, hx, _, he, _⟩ | ⟨he, _⟩
  · rw [he]
    cases hmsg : c.msg with
    | claim u d t => exact absurd hmsg (hm u d t)
    | updateWeights l =>
      rw [hmsg] at hx
      obtain ⟨s', _, h⟩ := bind_ok_iff.1 hx
      cases pure_ok_iff.1 h; rfl
    | updateMin l =>
      rw [hmsg] at hx
      obtain ⟨s', _, h⟩ := bind_ok_iff.1 hx
      cases pure_ok_iff.1 h; rfl
    | distributeNative l =>
      rw [hmsg] at hx
      obtain ⟨s', _, h⟩ := bind_ok_iff.1 hx
      cases pure_ok_iff.1 h; rfl
    | receiveCw20 k n =>
      rw [hmsg] at hx
      obtain ⟨s', _, h⟩ := bind_ok_iff.1 hx
      cases pure_ok_iff.1 h; rfl
  · rw [he]

/-- C41: the owner's claim goes through. While less than 2^128 units of each asset have been distributed, a claim sent by
its unrestricted user is accepted by the contract, whatever assets are listed. -/
theorem C41_claim_accepted (ad : Addr) (mw : Option Nat) (ws : List (Addr × Nat)) (s0 : State) (h : List Call)
    (h0 : init ad mw ws = .ok s0) (hb : ∀ a, distributed a s0 h < 2 ^ 128) (e : Env) (u : Addr) (ds ts : List Nat)
    (hs : e.sender = u) (hres : e.restricted u = false) :
    accepted (run s0 h) ⟨e, .claim u ds ts, true⟩ := by
  obtain ⟨i, _, _⟩ := run_inv h (init_inv h0).1
  obtain ⟨n, hn⟩ := Ledger.claim_fold_exists (eff := (run s0 h).effective) (u := u) rfl ds ((run s0 h).native, []) i.native
    (fun a _ => amt_exists i.native (history_owed h0 (.native a) (hb _)))
  obtain ⟨c, hc⟩ := Ledger.claim_fold_exists (eff := (run s0 h).effective) (u := u) rfl ts ((run s0 h).cw20, []) i.cw20
    (fun a _ => amt_exists i.cw20 (history_owed h0 (.cw20 a) (hb _)))
  exact ⟨rfl, _, claim_ok_iff.2 ⟨hres, hs, n, c, hn, hc, rfl⟩⟩

/-- Hypotheses met: the owner is accepted, another sender and a restricted user are not. -/
example : let s := run exInit exHistory
    accepted s ⟨exEnv 2, .claim 2 [5] [], true⟩ ∧ ¬ accepted s ⟨exEnv 1, .claim 2 [5] [], true⟩ ∧
    ¬ accepted s ⟨exEnv 66, .claim 66 [5] [], true⟩ := by
  decide +kernel

/-! ### C42 -/

/-- C42: weight updates and changes of the minimum from anyone but the admin are refused without effect. -/
theorem C42_refused (s : State) (c : Call) (hs : c.env.sender ≠ s.admin)
    (hm : (∃ l, c.msg = .updateWeights l) ∨ (∃ m, c.msg = .updateMin m)) :
    ¬ accepted s c ∧ step s c = (s, []) := by
  have hna : ¬ accepted s c := by
    rintro ⟨_, x, hx⟩
    rcases hm with ⟨l, hm⟩ | ⟨k, hm⟩
    · rw [hm] at hx
      simp only [exec] at hx
      obtain ⟨s', h1, hx⟩ := bind_ok_iff.1 hx
      unfold updateWeights at h1
      exact (ite_ok_iff.1 h1).1 hs
    · rw [hm] at hx
      simp only [exec] at hx
      obtain ⟨s', h1, hx⟩ := bind_ok_iff.1 hx
      unfold updateMin at h1
      exact (ite_ok_iff.1 h1).1 hs
  refine ⟨hna, ?_⟩
  rcases step_cases s c with ⟨x, _, _, _, ha⟩ | ⟨he, _⟩
  · exact absurd ha hna
  · exact he

/-- C42: whatever the message, weights, effective weights, total and minimum change only if the sender is the admin;
and the admin never changes. -/
theorem C42_only_admin (s : State) (hr : Reachable s) (c : Call) :
    (step s c).1.admin = s.admin ∧
    (c.env.sender ≠ s.admin →
      (step s c).1.weights = s.weights ∧ (step s c).1.effective = s.effective ∧ (step s c).1.total = s.total ∧
      (step s c).1.min = s.min) := by
  refine ⟨(step_inv hr.inv c).2.1, fun hs => ?_⟩
  rcases step_cases s c with ⟨x, hx, _, he, _⟩ | ⟨he, _⟩
  · cases hmsg : c.msg with
    | updateWeights l => rw [(C42_refused s c hs (.inl ⟨l, hmsg⟩)).2]; exact ⟨rfl, rfl, rfl, rfl⟩
    | updateMin l => rw [(C42_refused s c hs (.inr ⟨l, hmsg⟩)).2]; exact ⟨rfl, rfl, rfl, rfl⟩
    | claim u d t =>
      rw [he]
      rw [hmsg] at hx
      obtain ⟨_, _, ef⟩ := claim_effect hr.inv.toCore hx
      obtain ⟨_, f2, f3, f4, f5⟩ := ef.frame
      exact ⟨f3, f4, f5, f2⟩
    | distributeNative l =>
      rw [he]
      rw [hmsg] at hx
      simp only [exec] at hx
      obtain ⟨s', h1, hx⟩ := bind_ok_iff.1 hx
      cases pure_ok_iff.1 hx
      obtain ⟨_, ht, n, h2, rfl⟩ := distributeNative_ok_iff.1 h1
      exact ⟨rfl, rfl, rfl, rfl⟩
    | receiveCw20 k n =>
      rw [he]
      rw [hmsg] at hx
      simp only [exec] at hx
      obtain ⟨s', h1, hx⟩ := bind_ok_iff.1 hx
      cases pure_ok_iff.1 hx
      obtain ⟨_, _, ht, n', h2, rfl⟩ := receiveCw20_ok_iff.1 h1
      exact ⟨rfl, rfl, rfl, rfl⟩
  · rw [he]
    exact ⟨rfl, rfl, rfl, rfl⟩

/-- Hypotheses met: the same update from the admin and from another sender. -/
example : accepted exInit ⟨exEnv 10, .updateWeights [(1, 4)], true⟩ ∧
    ¬ accepted exInit ⟨exEnv 11, .updateWeights [(1, 4)], true⟩ ∧
    ¬ accepted exInit ⟨exEnv 11, .updateMin 4, true⟩ := by
  decide +kernel

/-! ### C43 -/

/-- C43: a distribution is refused without effect unless every asset of it is on the treasury's whitelist or on the
factory's global whitelist, whatever the sizes of the whitelists. -/
theorem C43_refused (s : State) (c : Call)
    (hm : (∃ l, c.msg = .distributeNative l ∧ ∃ f ∈ l, ¬ Allowed c.env (.native f.1)) ∨
      (∃ k n, c.msg = .receiveCw20 k n ∧ ¬ Allowed c.env (.cw20 c.env.sender))) :
    ¬ accepted s c ∧ step s c = (s, []) := by
  have hna : ¬ accepted s c := by
    rintro ⟨_, x, hx⟩
    rcases hm with ⟨l, hm, f, hf, hn⟩ | ⟨k, n, hm, hn⟩
    · rw [hm] at hx
      simp only [exec] at hx
      obtain ⟨s', h1, hx⟩ := bind_ok_iff.1 hx
      exact hn ((distributeNative_ok_iff.1 h1).1 f hf)
    · rw [hm] at hx
      simp only [exec] at hx
      obtain ⟨s', h1, hx⟩ := bind_ok_iff.1 hx
      exact hn (receiveCw20_ok_iff.1 h1).2.1
  refine ⟨hna, ?_⟩
  rcases step_cases s c with ⟨x, _, _, _, ha⟩ | ⟨he, _⟩
  · exact absurd ha hna
  · exact he

/-- C43: conversely a distribution of a whitelisted native asset, or of a whitelisted cw20 token, is accepted when
someone is eligible and the global index does not overflow. -/
theorem C43_accepted (s : State) (e : Env) (n : Nat) (ht : s.total ≠ 0) :
    (∀ d, Allowed e (.native d) → (s.native.idx.get d).getD 0 + n * 10 ^ 18 / s.total < 2 ^ 128 →
      accepted s ⟨e, .distributeNative [(d, n)], true⟩) ∧
    (Allowed e (.cw20 e.sender) → (s.cw20.idx.get e.sender).getD 0 + n * 10 ^ 18 / s.total < 2 ^ 128 →
      accepted s ⟨e, .receiveCw20 true n, true⟩) := by
  constructor
  · intro d hal hlt
    obtain ⟨L, hL⟩ := Ledger.distributeOne_exists (L := s.native) (f := (d, n)) ht hlt
    refine ⟨rfl, ({ s with native := L }, []), bind_ok_iff.2 ⟨_, distributeNative_ok_iff.2
      ⟨fun f hf => ?_, ht, L, foldlM_cons_ok_iff.2 ⟨L, hL, rfl⟩, rfl⟩, rfl⟩⟩
    rw [List.mem_singleton] at hf
    rw [hf]
    exact hal
  · intro hal hlt
    obtain ⟨L, hL⟩ := Ledger.distributeOne_exists (L := s.cw20) (f := (e.sender, n)) ht hlt
    exact ⟨rfl, ({ s with cw20 := L }, []), bind_ok_iff.2 ⟨_, receiveCw20_ok_iff.2 ⟨rfl, hal, ht, L, hL, rfl⟩, rfl⟩⟩

/-- Hypotheses met: denom 5 is on the treasury's list, 8 on the global one, 6 on none. -/
example : accepted exInit ⟨exEnv 7, .distributeNative [(5, 1), (8, 2)], true⟩ ∧
    ¬ accepted exInit ⟨exEnv 7, .distributeNative [(5, 1), (6, 2)], true⟩ ∧
    ¬ accepted exInit ⟨exEnv 901, .receiveCw20 true 3, true⟩ := by
  decide +kernel

/-- Hypotheses met: a whitelist of forty assets, longer than a page of the treasury's answer. -/
example : let w : Treasury.Whitelist :=
      ⟨(List.range 40).foldl (fun m a => m.set a ()) Map.empty, Map.empty, Map.empty⟩
    accepted exInit ⟨{ exEnv 7 with treasury := w }, .distributeNative [(35, 1), (39, 2), (8, 1)], true⟩ ∧
    ¬ accepted exInit ⟨{ exEnv 7 with treasury := w }, .distributeNative [(35, 1), (40, 2)], true⟩ := by
  decide +kernel

/-! ### C72 -/

/-- C72: rewards never stand in the way of weight updates. While less than 2^128 units of each asset have been
distributed and the weights fit in 128 bits, every weight update by the admin is accepted: whatever users, new or
repeated, and whatever rewards they have. -/
theorem C72_updates_accepted (ad : Addr) (mw : Option Nat) (ws : List (Addr × Nat)) (s0 : State) (h : List Call)
    (h0 : init ad mw ws = .ok s0) (hb : ∀ a, distributed a s0 h < 2 ^ 128) (e : Env) (hs : e.sender = ad)
    (l : List (Addr × Nat)) (hl : (run s0 h).total + (l.map (·.2)).sum < 2 ^ 128) :
    accepted (run s0 h) ⟨e, .updateWeights l, true⟩ := by
  obtain ⟨i0, ha, _, _⟩ := init_inv h0
  obtain ⟨i, hadm, _⟩ := run_inv h i0
  obtain ⟨s', hs'⟩ := updates_exist l i (fun a => history_owed h0 a (hb a)) hl
  refine ⟨rfl, (s', []), bind_ok_iff.2 ⟨s', ?_, rfl⟩⟩
  unfold updateWeights
  exact ite_ok_iff.2 ⟨by rw [hadm, ha, hs]; simp, hs'⟩

/-- C72: the same for changes of the minimum weight. -/
theorem C72_minimum_accepted (ad : Addr) (mw : Option Nat) (ws : List (Addr × Nat)) (s0 : State) (h : List Call)
    (h0 : init ad mw ws = .ok s0) (hb : ∀ a, distributed a s0 h < 2 ^ 128) (e : Env) (hs : e.sender = ad) (m : Nat)
    (hl : (run s0 h).total + (run s0 h).weights.sum (fun _ w => w) < 2 ^ 128) :
    accepted (run s0 h) ⟨e, .updateMin m, true⟩ := by
  obtain ⟨i0, ha, _, _⟩ := init_inv h0
  obtain ⟨i, hadm, _⟩ := run_inv h i0
  have hsum := affected_sum (run s0 h) (run s0 h).min m
  obtain ⟨s', hs'⟩ := mins_exist (b := decide ((run s0 h).min > m)) (affected (run s0 h) (run s0 h).min m) i.toCore
    (fun a => history_owed h0 a (hb a)) (lt_of_le_of_lt (Nat.add_le_add_left hsum _) hl)
  have hsender : ¬ e.sender ≠ (run s0 h).admin := by rw [hadm, ha, hs]; simp
  by_cases hm : (run s0 h).min = m
  · refine ⟨rfl, (run s0 h, []), bind_ok_iff.2 ⟨run s0 h, ?_, rfl⟩⟩
    unfold updateMin
    rw [if_neg hsender, if_pos hm]
  · refine ⟨rfl, ({ s' with min := m }, []), bind_ok_iff.2 ⟨{ s' with min := m }, ?_, rfl⟩⟩
    unfold updateMin
    rw [if_neg hsender, if_neg hm]
    exact bind_ok_iff.2 ⟨s', hs', rfl⟩

/-- Hypotheses met: the admin updates weights after the example history. -/
example : let s := run exInit exHistory
    s.total + ([(1, 4), (9, 3), (1, 5)].map (·.2)).sum < 2 ^ 128 ∧
    s.total + s.weights.sum (fun _ w => w) < 2 ^ 128 ∧
    accepted s ⟨exEnv 10, .updateWeights [(1, 4), (9, 3), (1, 5)], true⟩ := by
  decide +kernel

end Verif.Distributor
