import Verif.Multisig.Props
import Verif.Membership.Queries

set_option linter.unusedSimpArgs false

/-!
# Multisig membership: initial members (C32), the member query (C82) and hooks (C83)
-/

namespace Verif.Multisig
open Verif

/-! ## C32 -/

/-- The loop of `save_initial_weights` succeeds for new members as long as the total fits 128 bits. -/
theorem initLoop_ok_iff : ∀ (l : List (Addr × Nat)) (x : Members × Nat), Distinct l → x.2 < M128 →
    (∀ p ∈ l, x.1.weight p.1 = 0) →
    ((∃ y, l.foldlM initOne x = .ok y) ↔ x.2 + listed l < M128)
  | [], x, _, hx, _ => by
    constructor
    · intro _; exact hx
    · intro _; exact ⟨x, foldlM_nil_ok_iff.2 rfl⟩
  | p :: l, x, hd, hx, hw => by
    have hd' := List.nodup_cons.1 hd
    have h0 : x.1.weight p.1 = 0 := hw p List.mem_cons_self
    have hsum : listed (p :: l) = p.2 + listed l := by simp [listed]
    have hw' : ∀ q ∈ l, (x.1.setWeight p.1 p.2).weight q.1 = 0 := by
      intro q hq
      have : q.1 ≠ p.1 := fun hh => hd'.1 (List.mem_map.2 ⟨q, hq, hh⟩)
      rw [Members.weight_setWeight, if_neg this]
      exact hw q (List.mem_cons_of_mem _ hq)
    rw [hsum]
    constructor
    · rintro ⟨y, hy⟩
      obtain ⟨a, h1, h2⟩ := foldlM_cons_ok_iff.1 hy
      obtain ⟨h3, h4, rfl⟩ := initOne_ok_iff.1 h1
      rw [h0, Nat.sub_zero] at h4 h2
      have := (initLoop_ok_iff l (x.1.setWeight p.1 p.2, x.2 + p.2) hd'.2 h4 hw').1 ⟨y, h2⟩
      simp only at this
      omega
    · intro hlt
      have h4 : x.2 + p.2 < M128 := by omega
      obtain ⟨y, hy⟩ := (initLoop_ok_iff l (x.1.setWeight p.1 p.2, x.2 + p.2) hd'.2 h4 hw').2 (by simp only; omega)
      refine ⟨y, foldlM_cons_ok_iff.2 ⟨(x.1.setWeight p.1 p.2, x.2 + p.2), initOne_ok_iff.2 ⟨by omega, ?_, ?_⟩, hy⟩⟩
      · rw [h0, Nat.sub_zero]; exact h4
      · rw [h0, Nat.sub_zero]

/-- C32 at instantiation: a list of initial members is accepted exactly when nobody is listed twice and the weights sum
to less than 2^128; the members are then exactly the listed ones, with the listed weights, and the total is their sum. -/
theorem C32_init (b : Block) (l : List (Addr × Nat)) (hooks : List Addr) (x y : List (Nat × Nat)) :
    ((∃ s, init b (some l) hooks x y = .ok s) ↔ Distinct l ∧ listed l < 2 ^ 128) ∧
    (∀ s, init b (some l) hooks x y = .ok s →
      (∀ u w, s.weights.get u = some w ↔ (u, w) ∈ l) ∧ (∀ u, u ∉ l.map (·.1) → queryWeight s u = 0) ∧
      queryTotal s .never = listed l) := by
  have hfresh : ∀ p ∈ l, ((Members.empty.saveCheckpoints x y), 0).1.weight p.1 = 0 := fun p _ => rfl
  constructor
  · constructor
    · rintro ⟨s, hs⟩
      have hd := ((init_ok hs).1 l rfl).1
      refine ⟨hd, ?_⟩
      unfold init at hs
      simp only [bind_ok_iff, pure_ok_iff, saveInitial, dedup_ok_iff] at hs
      obtain ⟨m, ⟨d, ⟨_, rfl⟩, a, h2, _⟩, _⟩ := hs
      have := (initLoop_ok_iff d (Members.empty.saveCheckpoints x y, 0) hd (by unfold M128; simp only; omega) hfresh).1 ⟨a, h2⟩
      unfold M128 at this
      simp only at this
      omega
    · rintro ⟨hd, hl⟩
      obtain ⟨a, ha⟩ := (initLoop_ok_iff l (Members.empty.saveCheckpoints x y, 0) hd (by unfold M128; simp only; omega) hfresh).2
        (by simp only [Nat.zero_add]; exact hl)
      refine ⟨(a.1.saveTotal a.2 b).saveHooks hooks, ?_⟩
      unfold init
      simp only [bind_ok_iff, pure_ok_iff, saveInitial, dedup_ok_iff]
      exact ⟨_, ⟨l, ⟨hd, rfl⟩, a, ha, rfl⟩, rfl⟩
  · intro s hs
    obtain ⟨hd, rfl⟩ := (init_ok hs).1 l rfl
    have hout : ∀ u, u ∉ l.map (·.1) → (setAll (Members.empty.saveCheckpoints x y) l).weights.get u = none := by
      intro u hm
      rw [setAll_get_notin _ l u (fun p hp he => hm (List.mem_map.2 ⟨p, hp, he⟩))]
      rfl
    refine ⟨fun u w => ⟨fun hg => ?_, fun hm => ?_⟩, fun u hm => ?_, ?_⟩
    · have hg : (setAll (Members.empty.saveCheckpoints x y) l).weights.get u = some w := hg
      by_cases hm : u ∈ l.map (·.1)
      · obtain ⟨⟨u', w'⟩, hp, rfl⟩ := List.mem_map.1 hm
        have := setAll_get_in (Members.empty.saveCheckpoints x y) l hd u' w' hp
        simp only at hg
        rw [this] at hg
        cases hg
        exact hp
      · rw [hout u hm] at hg; cases hg
    · exact setAll_get_in _ l hd u w hm
    · show ((setAll (Members.empty.saveCheckpoints x y) l).weights.get u).getD 0 = 0
      rw [hout u hm]; rfl
    · show (setAll (Members.empty.saveCheckpoints x y) l).wsum = listed l
      have h1 := wsum_setAll (Members.empty.saveCheckpoints x y) l hd
      have h2 : (Members.empty.saveCheckpoints x y).wsum = 0 := rfl
      have h3 := held_le_wsum (Members.empty.saveCheckpoints x y) l hd
      omega

/-- C32 at instantiation without members: nobody has a weight and the total is 0. -/
theorem C32_init_none (b : Block) (hooks : List Addr) (x y : List (Nat × Nat)) :
    ∃ s, init b none hooks x y = .ok s ∧ (∀ u, s.weights.get u = none) ∧ queryTotal s .never = 0 :=
  ⟨_, rfl, fun _ => rfl, rfl⟩

example : (init ⟨10, 10 * 10 ^ 9⟩ (some [(1, 5), (2, 6)]) [7, 8] [] []).toOption.isSome = true ∧
    (init ⟨10, 10 * 10 ^ 9⟩ (some [(1, 5), (1, 6)]) [7, 8] [] []).toOption.isSome = false := by decide +kernel

/-! ## C82 -/

/-- C82 for multisig membership: paging through the members lists everyone once with the weight of the weight query,
leaves out nobody with a weight, and the listed weights sum to the total. -/
theorem C82_multisig_members {s : Members} (h : Reachable s) (limit : Option Nat) (hl : limit ≠ some 0) :
    (∃ ps, Reads (fun a => s.queryMembers a limit) (·.1) none ps) ∧
    ∀ ps, Reads (fun a => s.queryMembers a limit) (·.1) none ps →
      (ps.flatten.map (·.1)).Nodup ∧ (∀ p ∈ ps.flatten, queryWeight s p.1 = p.2) ∧
      (∀ u, queryWeight s u ≠ 0 → (u, queryWeight s u) ∈ ps.flatten) ∧
      (ps.flatten.map (·.2)).sum = queryTotal s .never := by
  refine ⟨(s.queryMembers_all hl).1, fun ps hps => ?_⟩
  have hs := s.queryMembers_spec hl hps
  refine ⟨hs.1, hs.2.1, hs.2.2.1, ?_⟩
  rw [hs.2.2.2]
  exact h.inv.total.symm

example : smpInit.queryMembers none (some 1) = [(1, 5)] ∧ smpInit.queryMembers (some 1) (some 1) = [(2, 6)] ∧
    smpInit.queryMembers (some 2) (some 1) = [] := by decide +kernel

/-! ## C83 -/

/-- C83 for multisig membership: a new contract notifies exactly the hooks it was given. -/
theorem C83_multisig_init (b : Block) (w : Option (List (Addr × Nat))) (hooks : List Addr) (x y : List (Nat × Nat))
    (s : Members) (hs : init b w hooks x y = .ok s) (g : Addr) : s.hooks.has g = true ↔ g ∈ hooks := by
  have h0 : ∃ m : Members, s = m.saveHooks hooks ∧ m.hooks = Map.empty := by
    cases w with
    | none => exact ⟨_, (init_ok hs).2 rfl, rfl⟩
    | some l => exact ⟨_, ((init_ok hs).1 l rfl).2, (setAll_frame (Members.empty.saveCheckpoints x y) l).2.2⟩
  obtain ⟨m, rfl, hm⟩ := h0
  rw [Members.has_saveHooks, hm]
  have : ¬ (Map.empty : Map Addr Unit).has g = true := Bool.false_ne_true
  exact ⟨fun hh => hh.resolve_right this, .inl⟩

/-- C83 for multisig membership: adding or removing a hook is accepted exactly from the controller; it adds or removes
this hook only, and changes nothing else. -/
theorem C83_multisig_edit (s : Members) (e : Env) (g : Addr) :
    ((∃ r, exec s e (.addHook g) = .ok r) ↔ e.sender = e.controller) ∧
    ((∃ r, exec s e (.removeHook g) = .ok r) ↔ e.sender = e.controller) ∧
    (∀ r, exec s e (.addHook g) = .ok r → r.2 = [] ∧
      (∀ f, r.1.hooks.has f = true ↔ f = g ∨ s.hooks.has f = true) ∧ r.1 = { s with hooks := r.1.hooks }) ∧
    (∀ r, exec s e (.removeHook g) = .ok r → r.2 = [] ∧
      (∀ f, r.1.hooks.has f = true ↔ f ≠ g ∧ s.hooks.has f = true) ∧ r.1 = { s with hooks := r.1.hooks }) := by
  simp only [exec, bind_ok_iff, Members.addHook_ok_iff, Members.removeHook_ok_iff, pure_ok_iff]
  refine ⟨⟨?_, ?_⟩, ⟨?_, ?_⟩, ?_, ?_⟩
  · rintro ⟨r, m, ⟨h, _⟩, _⟩; exact h
  · intro h; exact ⟨_, _, ⟨h, rfl⟩, rfl⟩
  · rintro ⟨r, m, ⟨h, _⟩, _⟩; exact h
  · intro h; exact ⟨_, _, ⟨h, rfl⟩, rfl⟩
  · rintro r ⟨m, ⟨_, rfl⟩, rfl⟩
    exact ⟨rfl, fun f => Members.has_set_hook _ _ _, rfl⟩
  · rintro r ⟨m, ⟨_, rfl⟩, rfl⟩
    exact ⟨rfl, fun f => Members.has_remove_hook _ _ _, rfl⟩

/-- C83 for multisig membership: no other message changes the hooks, and nobody but the controller does. -/
theorem C83_multisig_only_controller {s : Members} (h : Reachable s) (c : Call)
    (hne : (step s c).1.hooks ≠ s.hooks) :
    c.env.sender = c.env.controller ∧ ∃ g, c.msg = .addHook g ∨ c.msg = .removeHook g := by
  rcases step_cases s c with ⟨_, r, h1, h2⟩ | ⟨_, h2⟩
  · rw [h2] at hne
    obtain ⟨e, m, d⟩ := c
    simp only at h1 ⊢
    cases m with
    | updateMembers l => exact absurd ((C32_update_members h e l).2 r h1).2.2.2 hne
    | setMembers l => exact absurd ((C32_set_members s e l).2 r h1).2.2.2 hne
    | addHook a => exact ⟨(C83_multisig_edit s e a).1.1 ⟨r, h1⟩, a, .inl rfl⟩
    | removeHook a => exact ⟨(C83_multisig_edit s e a).2.1.1 ⟨r, h1⟩, a, .inr rfl⟩
  · rw [h2] at hne; exact absurd rfl hne

example : (step smpInit ⟨smpEnv 11 9, .addHook 3, true⟩).1.hooks ≠ smpInit.hooks ∧ smpInit.hooks.has 7 = true ∧
    (step smpInit ⟨smpEnv 11 9, .removeHook 7, true⟩).1.hooks.has 7 = false := by decide +kernel

end Verif.Multisig
