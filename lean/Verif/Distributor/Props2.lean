import Verif.Distributor.Dust

/-!
# Funds distributor: nothing of what is distributed gets lost, but for rounding (C112)
-/

namespace Verif.Distributor
open Verif

/-- C112: what was distributed of an asset was paid to the users or can be claimed by them, except for rounding losses.
These are, in units of 10^-18: less than one whole unit for each user now, plus the losses of the messages so far: less
than a unit for each user whose weight or eligibility is changed, less than a unit for a claim, and the total weight
for each coin distributed. (`us` has all the users who have ever been given a weight; less than 2^128 units were
distributed.) -/
theorem C112_nothing_lost (ad : Addr) (mw : Option Nat) (ws : List (Addr × Nat)) (s0 : State) (h : List Call)
    (h0 : init ad mw ws = .ok s0) (a : AssetInfo) (ha : ∀ c i, a ≠ .cw1155 c i) (hb : distributed a s0 h < 2 ^ 128)
    (us : List Addr) (hus : ∀ u, (run s0 h).weights.has u = true → u ∈ us) :
    10 ^ 18 * distributed a s0 h ≤
      10 ^ 18 * (us.map (fun u => claimed u a s0 h + claimable (run s0 h) u a)).sum + 10 ^ 18 * us.length +
        losses a s0 h := by
  obtain ⟨i0, _, _, o0⟩ := init_inv h0
  have hone : (10 ^ 18 : Nat) = ONE := rfl
  have hlt : owedOf s0 a + ONE * distributed a s0 h < ONE * M128 := by
    rw [o0 a, Nat.zero_add]
    exact Nat.mul_lt_mul_of_pos_left hb (by decide)
  have h1 := run_ge a ha h i0 hlt
  obtain ⟨i1, _, o1⟩ := run_inv h i0
  have o1 := o1 a
  have h2 := owed_le_claimable i1 us hus a (lt_of_le_of_lt (le_trans (Nat.le_add_right _ _) o1) hlt)
  have h3 := Nat.mul_le_mul_left ONE (claimedAll_le a us h i0 hus)
  have hsum : ∀ (l : List Addr), (l.map (fun u => claimed u a s0 h + claimable (run s0 h) u a)).sum =
      (l.map (fun u => claimed u a s0 h)).sum + (l.map (fun u => claimable (run s0 h) u a)).sum := by
    intro l
    induction l with
    | nil => rfl
    | cons u l ih =>
      simp only [List.map_cons, List.sum_cons, ih]
      omega
  rw [hone, hsum, Nat.mul_add]
  rw [o0 a, Nat.zero_add] at h1
  clear hlt hb
  generalize ONE * distributed a s0 h = A at *
  generalize ONE * claimedAll a s0 h = B at *
  generalize ONE * us.length = C at *
  generalize ONE * (us.map (fun u => claimed u a s0 h)).sum = D at *
  generalize ONE * (us.map (fun u => claimable (run s0 h) u a)).sum = E at *
  omega

/-- Hypotheses met: 10 coins were distributed among weights 1 and 2. User 1 was paid 3, user 2 can claim 6; the rest of a
coin, two thirds of which are due to user 2, is the rounding loss. -/
example : (∀ u, (run exInit exHistory).weights.has u = true → u ∈ [1, 2, 3, 7]) ∧
    distributed (.native 5) exInit exHistory = 10 ∧ distributed (.native 5) exInit exHistory < 2 ^ 128 ∧
    ([1, 2, 3, 7].map (fun u => claimed u (.native 5) exInit exHistory +
      claimable (run exInit exHistory) u (.native 5))).sum = 9 ∧
    losses (.native 5) exInit exHistory = 4 * 10 ^ 18 + 3 := by
  refine ⟨fun u hu => ?_, by decide +kernel, by decide +kernel, by decide +kernel, by decide +kernel⟩
  have h1 : u ∈ (run exInit exHistory).weights.keys := Map.mem_keys.2 (Map.has_iff.1 hu)
  have h2 : (run exInit exHistory).weights.keys = [1, 2, 3, 7] := by decide +kernel
  rw [h2] at h1
  exact h1

/-- C112, the loss of a distribution can be all of it: a coin of less than the total weight over 10^18 is accepted, and
nobody can claim any more than before. -/
theorem C112_small_distribution (s : State) (c : Call) (n : Nat) (hn : n * 10 ^ 18 < s.total)
    (hm : (∃ d, c.msg = .distributeNative [(d, n)]) ∨ c.msg = .receiveCw20 true n) (u : Addr) (a : AssetInfo) :
    claimable (step s c).1 u a = claimable s u a := by
  rcases step_cases s c with ⟨x, hx, _, he, _⟩ | ⟨he, _⟩
  · rw [he]
    have hz : n * ONE / s.total = 0 := Nat.div_eq_of_lt hn
    have key : ∀ (L L' : Ledger) (d : Nat), L.distributeOne s.total (d, n) = .ok L' → ∀ b, L'.amt u (effective s u) b =
        L.amt u (effective s u) b := by
      intro L L' d hL b
      obtain ⟨_, _, _, hd, hg⟩ := Ledger.distributeOne_ok hL
      unfold Ledger.amt
      rw [hd, hg]
      simp only [hz]
      simp
    rcases hm with ⟨d, hm⟩ | hm
    · rw [hm] at hx
      simp only [exec] at hx
      obtain ⟨s', h1, h⟩ := bind_ok_iff.1 hx
      cases pure_ok_iff.1 h
      obtain ⟨_, _, L, hL, rfl⟩ := distributeNative_ok_iff.1 h1
      obtain ⟨L1, h2, h3⟩ := foldlM_cons_ok_iff.1 hL
      rw [foldlM_nil_ok_iff] at h3
      subst h3
      cases a with
      | native b => rw [claimable_native, claimable_native]; exact congrArg amount (key _ _ _ h2 b)
      | cw20 b => rw [claimable_cw20, claimable_cw20]; rfl
      | cw1155 _ _ => rfl
    · rw [hm] at hx
      simp only [exec] at hx
      obtain ⟨s', h1, h⟩ := bind_ok_iff.1 hx
      cases pure_ok_iff.1 h
      obtain ⟨_, _, _, L, hL, rfl⟩ := receiveCw20_ok_iff.1 h1
      cases a with
      | native b => rw [claimable_native, claimable_native]; rfl
      | cw20 b => rw [claimable_cw20, claimable_cw20]; exact congrArg amount (key _ _ _ hL b)
      | cw1155 _ _ => rfl
  · rw [he]

/-- Hypotheses met: a million units of weight with 18 decimals are staked, and nine tenths of a unit with 6 decimals are
distributed: nobody gets anything. -/
example : ∃ s, init 10 none [(1, 10 ^ 24)] = .ok s ∧ 900000 * 10 ^ 18 < s.total ∧
    accepted s ⟨exEnv 77, .distributeNative [(5, 900000)], true⟩ ∧
    claimable (step s ⟨exEnv 77, .distributeNative [(5, 900000)], true⟩).1 1 (.native 5) = 0 := by
  refine ⟨_, rfl, ?_, ?_, ?_⟩ <;> decide +kernel

end Verif.Distributor
