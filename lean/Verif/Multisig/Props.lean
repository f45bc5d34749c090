import Verif.Multisig.Lemmas

/-!
# Multisig membership: properties C31-C33 and the multisig version of C23
-/

namespace Verif.Multisig
open Verif

/-! ## Sample history -/

/-- Sample environment: the controller is 9. -/
def smpEnv (h : Nat) (sender : Addr) : Env := ⟨⟨h, h * 10 ^ 9⟩, sender, 9, fun _ => false⟩

/-- Sample start: members 1 and 2, hooks 7 and 8. -/
def smpInit : Members := ((Members.empty.saveCheckpoints [] []).setWeight 1 5 |>.setWeight 2 6 |>.saveTotal 11
  ⟨10, 10 * 10 ^ 9⟩).saveHooks [7, 8]

example : init ⟨10, 10 * 10 ^ 9⟩ (some [(1, 5), (2, 6)]) [7, 8] [] [] = .ok smpInit := by decide +kernel

/-- Sample history. -/
def smp : List Call :=
  [⟨smpEnv 11 9, .updateMembers [(2, 7), (3, 1)], true⟩,
   ⟨smpEnv 12 9, .updateMembers [(2, 7), (2, 1)], true⟩,
   ⟨smpEnv 12 4, .setMembers [(4, 100)], true⟩,
   ⟨smpEnv 13 9, .setMembers [(3, 10), (4, 20)], true⟩]

theorem smp_reachable (n : Nat) : Reachable (run smpInit (smp.take n)) :=
  ⟨⟨10, 10 * 10 ^ 9⟩, some [(1, 5), (2, 6)], [7, 8], [], [], smpInit, smp.take n, by decide +kernel, rfl⟩

/-! ## C31 -/

/-- C31. The reported total is the sum of the members' weights. -/
theorem C31_total_is_sum {s : Members} (h : Reachable s) :
    queryTotal s .never = s.weights.sum (fun _ w => w) := h.inv.total

example : queryTotal (run smpInit (smp.take 1)) .never = 13 ∧ queryTotal (run smpInit smp) .never = 30 := by
  decide +kernel

/-! ## C32 -/

/-- C32. `UpdateMembers` succeeds exactly when sent by the controller with no member listed twice, while the total fits
128 bits. Listed members then have the listed weights, the others are untouched. -/
theorem C32_update_members {s : Members} (h : Reachable s) (e : Env) (l : List (Addr × Nat)) :
    ((∃ r, exec s e (.updateMembers l) = .ok r) ↔
      e.sender = e.controller ∧ Distinct l ∧ Fit s (queryTotal s .never) l) ∧
    (∀ r, exec s e (.updateMembers l) = .ok r →
      (∀ u w, (u, w) ∈ l → r.1.weights.get u = some w ∧ queryWeight r.1 u = w) ∧
      (∀ u, u ∉ l.map (·.1) → r.1.weights.get u = s.weights.get u ∧ queryWeight r.1 u = queryWeight s u) ∧
      queryTotal r.1 .never + held s l = queryTotal s .never + listed l ∧
      r.1.hooks = s.hooks) := by
  have hi := h.inv
  refine ⟨⟨?_, ?_⟩, ?_⟩
  · rintro ⟨r, hr⟩
    obtain ⟨h1, h2, h3, _⟩ := (updateMembers_ok_iff hi).1 hr
    exact ⟨h1, h2, h3⟩
  · rintro ⟨h1, h2, h3⟩
    exact ⟨_, (updateMembers_ok_iff hi).2 ⟨h1, h2, h3, rfl⟩⟩
  · intro r hr
    obtain ⟨_, hd, _, rfl⟩ := (updateMembers_ok_iff hi).1 hr
    refine ⟨?_, ?_, ?_, ?_⟩
    · intro u w hm
      have := setAll_get_in s l hd u w hm
      exact ⟨this, by simp [queryWeight, Members.weight, this]⟩
    · intro u hm
      have := setAll_get_notin s l u (fun p hp he => hm (List.mem_map.2 ⟨p, hp, he⟩))
      exact ⟨this, by simp [queryWeight, Members.weight, this]⟩
    · have := wsum_setAll s l hd
      have ht := hi.total
      simp only [queryTotal, Members.saveTotal_total]
      omega
    · exact (setAll_frame s l).2.2

/-- C32. `SetMembers` succeeds exactly when sent by the controller with no member listed twice, and with a total that
fits 128 bits. The listed members are then the only members, with the listed weights. -/
theorem C32_set_members (s : Members) (e : Env) (l : List (Addr × Nat)) :
    ((∃ r, exec s e (.setMembers l) = .ok r) ↔ e.sender = e.controller ∧ Distinct l ∧ listed l < 2 ^ 128) ∧
    (∀ r, exec s e (.setMembers l) = .ok r →
      (∀ u w, r.1.weights.get u = some w ↔ (u, w) ∈ l) ∧
      (∀ u, u ∉ l.map (·.1) → queryWeight r.1 u = 0) ∧
      queryTotal r.1 .never = listed l ∧
      r.1.hooks = s.hooks) := by
  refine ⟨⟨?_, ?_⟩, ?_⟩
  · rintro ⟨r, hr⟩
    obtain ⟨h1, h2, h3, _⟩ := setMembers_ok_iff.1 hr
    exact ⟨h1, h2, h3⟩
  · rintro ⟨h1, h2, h3⟩
    exact ⟨_, setMembers_ok_iff.2 ⟨h1, h2, h3, rfl⟩⟩
  · intro r hr
    obtain ⟨_, hd, _, rfl⟩ := setMembers_ok_iff.1 hr
    have hout : ∀ u, u ∉ l.map (·.1) → (setAll { s with weights := Map.empty } l).weights.get u = none := by
      intro u hm
      rw [setAll_get_notin _ l u (fun p hp he => hm (List.mem_map.2 ⟨p, hp, he⟩))]
      rfl
    refine ⟨?_, ?_, rfl, ?_⟩
    · intro u w
      constructor
      · intro hg
        simp only [Members.saveTotal_weights] at hg
        by_cases hm : u ∈ l.map (·.1)
        · obtain ⟨⟨u', w'⟩, hp, rfl⟩ := List.mem_map.1 hm
          have := setAll_get_in { s with weights := Map.empty } l hd u' w' hp
          simp only at hg
          rw [this] at hg
          cases hg
          exact hp
        · rw [hout u hm] at hg; cases hg
      · intro hm
        exact setAll_get_in _ l hd u w hm
    · intro u hm
      simp [queryWeight, Members.weight, hout u hm]
    · exact (setAll_frame _ l).2.2

/-- C32. Only the controller changes anything. -/
theorem C32_only_controller (s : Members) (c : Call) (h : c.env.sender ≠ c.env.controller) :
    step s c = (s, []) := by
  rcases step_cases s c with ⟨⟨_, r, hr⟩, _⟩ | ⟨_, h2⟩
  · exfalso
    revert hr
    cases c.msg <;> simp [exec, updateMembers, setMembers, Members.addHook, Members.removeHook, h, bind, Except.bind]
  · exact h2

example : (exec smpInit (smpEnv 11 9) (.updateMembers [(2, 7), (3, 1)])).toOption.isSome = true ∧
    (exec smpInit (smpEnv 11 9) (.updateMembers [(2, 7), (2, 7)])).toOption.isSome = false ∧
    (exec smpInit (smpEnv 11 8) (.updateMembers [(2, 7)])).toOption.isSome = false ∧
    (exec smpInit (smpEnv 11 9) (.setMembers [(2, 7), (5, 1)])).toOption.isSome = true ∧
    (smpEnv 11 8).sender ≠ (smpEnv 11 8).controller := by decide +kernel

/-! ## C33 -/

/-- C33 for `UpdateMembers`: every hook is told about every member whose weight changed, with the former and the new
weight, and about nothing false. -/
theorem C33_update_notified {s : Members} (h : Reachable s) (e : Env) (l : List (Addr × Nat)) (r : Members × List Out)
    (hr : exec s e (.updateMembers l) = .ok r) (hook : Addr) (hh : s.hooks.has hook = true) :
    (∀ u, queryWeight r.1 u ≠ queryWeight s u → Notified r.2 hook u (queryWeight s u) (queryWeight r.1 u)) ∧
    (∀ u o n, Notified r.2 hook u o n → o = queryWeight s u ∧ n = queryWeight r.1 u) := by
  have hi := h.inv
  have heff := (C32_update_members h e l).2 r hr
  obtain ⟨_, hd, _, rfl⟩ := (updateMembers_ok_iff hi).1 hr
  constructor
  · intro u hu
    by_cases hm : u ∈ l.map (·.1)
    · obtain ⟨⟨u', w⟩, hp, rfl⟩ := List.mem_map.1 hm
      refine ⟨_, List.mem_map.2 ⟨hook, (Map.mem_keys.trans Map.has_iff.symm).2 hh, rfl⟩, ?_⟩
      rw [(heff.1 u' w hp).2]
      exact List.mem_map.2 ⟨(u', w), hp, rfl⟩
    · exact absurd (heff.2.1 u hm).2 hu
  · rintro u o n ⟨cs, h1, h2⟩
    obtain ⟨_, _, h3⟩ := List.mem_map.1 h1
    cases h3
    obtain ⟨p, hp, h4⟩ := List.mem_map.1 h2
    cases h4
    exact ⟨rfl, ((heff.1 p.1 p.2 hp).2).symm⟩

/-- C33 for `SetMembers`, what the code does: every hook is told about the change of every member *of the new list*.
Missing from the full property: members that are not in the new list lose their weight without being reported, see
`C33_set_unreported_witness`. -/
theorem C33_set_notified_partial (s : Members) (e : Env) (l : List (Addr × Nat)) (r : Members × List Out)
    (hr : exec s e (.setMembers l) = .ok r) (hook : Addr) (hh : s.hooks.has hook = true) :
    (∀ u, u ∈ l.map (·.1) → Notified r.2 hook u (queryWeight s u) (queryWeight r.1 u)) ∧
    (∀ u o n, Notified r.2 hook u o n → u ∈ l.map (·.1) ∧ o = queryWeight s u ∧ n = queryWeight r.1 u) := by
  have heff := (C32_set_members s e l).2 r hr
  have hw : ∀ u w, (u, w) ∈ l → queryWeight r.1 u = w := by
    intro u w hm
    simp [queryWeight, Members.weight, (heff.1 u w).2 hm]
  obtain ⟨_, hd, _, rfl⟩ := setMembers_ok_iff.1 hr
  constructor
  · intro u hm
    obtain ⟨⟨u', w⟩, hp, rfl⟩ := List.mem_map.1 hm
    refine ⟨_, List.mem_map.2 ⟨hook, (Map.mem_keys.trans Map.has_iff.symm).2 hh, rfl⟩, ?_⟩
    rw [hw u' w hp]
    exact List.mem_map.2 ⟨(u', w), hp, rfl⟩
  · rintro u o n ⟨cs, h1, h2⟩
    obtain ⟨_, _, h3⟩ := List.mem_map.1 h1
    cases h3
    obtain ⟨p, hp, h4⟩ := List.mem_map.1 h2
    cases h4
    exact ⟨List.mem_map.2 ⟨p, hp, rfl⟩, rfl, (hw p.1 p.2 hp).symm⟩

/-- Exactly when C33 holds for `SetMembers`: each hook hears of every weight that changes if and only if nobody who had
weight is left out of the new list.
Missing from C33: the members who are left out, see `C33_set_unreported_witness`. -/
theorem C33_set_exact_partial (s : Members) (e : Env) (l : List (Addr × Nat)) (r : Members × List Out)
    (hr : exec s e (.setMembers l) = .ok r) (hook : Addr) (hh : s.hooks.has hook = true) :
    (∀ u, queryWeight r.1 u ≠ queryWeight s u → Notified r.2 hook u (queryWeight s u) (queryWeight r.1 u)) ↔
      ∀ u, queryWeight s u ≠ 0 → u ∈ l.map (·.1) := by
  have heff := (C32_set_members s e l).2 r hr
  obtain ⟨k1, k2⟩ := C33_set_notified_partial s e l r hr hook hh
  constructor
  · intro h u hu
    by_contra hn
    have h0 : queryWeight r.1 u = 0 := heff.2.1 u hn
    exact hn (k2 u _ _ (h u (by rw [h0]; exact fun hx => hu hx.symm))).1
  · intro h u hu
    refine k1 u ?_
    by_cases h0 : queryWeight s u = 0
    · by_contra hn
      exact hu ((heff.2.1 u hn).trans h0.symm)
    · exact h u h0

/-- C33 fails for `SetMembers`: in a reachable state, a member left out of the new list drops from weight 5 to 0 and no
hook hears of it. -/
theorem C33_set_unreported_witness : ∃ s e l r hook, Reachable s ∧ exec s e (.setMembers l) = .ok r ∧
    s.hooks.has hook = true ∧ queryWeight s 1 = 5 ∧ queryWeight r.1 1 = 0 ∧ ∀ o n, ¬ Notified r.2 hook 1 o n := by
  obtain ⟨r, hr⟩ := (C32_set_members smpInit (smpEnv 11 9) [(2, 6)]).1.2 (by decide +kernel)
  have heff := (C32_set_members smpInit (smpEnv 11 9) [(2, 6)]).2 r hr
  refine ⟨smpInit, smpEnv 11 9, [(2, 6)], r, 7, smp_reachable 0, hr, by decide +kernel, by decide +kernel,
    heff.2.1 1 (by decide), ?_⟩
  intro o n hn
  have := ((C33_set_notified_partial _ _ _ _ hr 7 (by decide +kernel)).2 1 o n hn).1
  revert this
  decide

example : smpInit.hooks.has 7 = true ∧ queryWeight smpInit 2 = 6 ∧
    (exec smpInit (smpEnv 11 9) (.updateMembers [(2, 7), (3, 1)])).toOption.map (·.2) =
      some [.notify 7 [⟨2, 6, 7⟩, ⟨3, 0, 1⟩], .notify 8 [⟨2, 6, 7⟩, ⟨3, 0, 1⟩]] := by decide +kernel

/-! ## C23 -/

/-- C23 for multisig membership, by height. -/
theorem C23_multisig_total_at_height (b : Block) (w : Option (List (Addr × Nat))) (hooks : List Addr)
    (x y : List (Nat × Nat)) (s0 : Members) (h0 : init b w hooks x y = .ok s0) (h1 h2 : List Call) (H : Nat)
    (hb : b.height < H) (hx : ∀ p ∈ x, p.2 < H) (hh1 : ∀ c ∈ h1, c.env.block.height < H)
    (hh2 : ∀ c ∈ h2, H ≤ c.env.block.height) (hmono : (h2.map (·.env.block.height)).Pairwise (· ≤ ·)) :
    queryTotal (run s0 (h1 ++ h2)) (.height H) = queryTotal (run s0 h1) .never := by
  have hi := inv_init h0
  have hi1 := inv_run hi h1
  rw [run_append]
  refine ((byHeight_steps hi1 h2).split hi1.height ?_ hmono ?_).trans hi1.total.symm
  · intro j hj
    rcases (byHeight_steps hi h1).logs hj with h | h
    · rcases (init_logs h0).1 h with h | h
      · omega
      · obtain ⟨p, hp, rfl⟩ := List.mem_map.1 h
        exact hx p hp
    · obtain ⟨c, hc, rfl⟩ := List.mem_map.1 h
      exact hh1 c hc
  · intro j hj
    obtain ⟨c, hc, rfl⟩ := List.mem_map.1 hj
    exact hh2 c hc

/-- C23 for multisig membership, by time. -/
theorem C23_multisig_total_at_time (b : Block) (w : Option (List (Addr × Nat))) (hooks : List Addr)
    (x y : List (Nat × Nat)) (s0 : Members) (h0 : init b w hooks x y = .ok s0) (h1 h2 : List Call) (T : Nat)
    (hb : b.seconds < T / 10 ^ 9) (hy : ∀ p ∈ y, p.2 < T / 10 ^ 9)
    (hh1 : ∀ c ∈ h1, c.env.block.seconds < T / 10 ^ 9)
    (hh2 : ∀ c ∈ h2, T / 10 ^ 9 ≤ c.env.block.seconds)
    (hmono : (h2.map (·.env.block.time)).Pairwise (· ≤ ·)) :
    queryTotal (run s0 (h1 ++ h2)) (.time T) = queryTotal (run s0 h1) .never := by
  have hi := inv_init h0
  have hi1 := inv_run hi h1
  have hsec : (h2.map (·.env.block.seconds)).Pairwise (· ≤ ·) := by
    rw [List.pairwise_map] at hmono ⊢
    exact hmono.imp (fun {a b} hab => Nat.div_le_div_right hab)
  rw [run_append]
  refine ((bySeconds_steps hi1 h2).split hi1.seconds ?_ hsec ?_).trans hi1.total.symm
  · intro j hj
    rcases (bySeconds_steps hi h1).logs hj with h | h
    · rcases (init_logs h0).2 h with h | h
      · omega
      · obtain ⟨p, hp, rfl⟩ := List.mem_map.1 h
        exact hy p hp
    · obtain ⟨c, hc, rfl⟩ := List.mem_map.1 h
      exact hh1 c hc
  · intro j hj
    obtain ⟨c, hc, rfl⟩ := List.mem_map.1 hj
    exact hh2 c hc

example : queryTotal (run smpInit smp) (.height 12) = 13 ∧ queryTotal (run smpInit smp) (.height 11) = 11 ∧
    (∀ c ∈ smp.take 1, c.env.block.height < 12) ∧ (∀ c ∈ smp.drop 1, 12 ≤ c.env.block.height) ∧
    ((smp.drop 1).map (·.env.block.height)).Pairwise (· ≤ ·) := by decide +kernel

end Verif.Multisig
