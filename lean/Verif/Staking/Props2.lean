import Verif.Staking.Props
import Verif.Membership.Queries

set_option linter.unusedSimpArgs false

/-!
# Token and denom staking: properties C79 to C83
-/

namespace Verif.Staking
open Verif

/-! ## C79 Staking credits exactly what was transferred -/

/-- C79, token staking: a stake for `user` succeeds exactly when the token contract sends it, the user is not
restricted and the total fits 128 bits; the user's weight and the total then grow by the transferred amount and nothing
else changes. -/
theorem C79_stake_token {s : State} (h : Reachable .token s) (e : Env) (a : Nat) (user : Addr) :
    ((∃ r, exec .token s e (.receive a (.stake user)) = .ok r) ↔
      e.sender = s.asset ∧ e.restricted user = false ∧ queryTotal s .never + a < 2 ^ 128) ∧
    (∀ r, exec .token s e (.receive a (.stake user)) = .ok r →
      queryWeight r.1 user = queryWeight s user + a ∧ (∀ v, v ≠ user → queryWeight r.1 v = queryWeight s v) ∧
      queryTotal r.1 .never = queryTotal s .never + a ∧ r.1.claims = s.claims ∧ r.1.nextClaim = s.nextClaim ∧
      r.1.unlocking = s.unlocking ∧ r.1.asset = s.asset ∧ r.1.mem.hooks = s.mem.hooks) := by
  have hx : ∀ r, exec .token s e (.receive a (.stake user)) = .ok r ↔
      e.sender = s.asset ∧ stakeFor s e user a = .ok r := by
    intro r
    simp only [exec, if_true, receive, ite_ok_iff, ne_eq, not_not]
  have hle := s.mem.weight_le_wsum user
  have ht := h.inv.total
  constructor
  · constructor
    · rintro ⟨r, hr⟩
      obtain ⟨h1, h2⟩ := (hx r).1 hr
      obtain ⟨h3, _, h4, _⟩ := stakeFor_ok_iff.1 h2
      exact ⟨h1, h3, h4⟩
    · rintro ⟨h1, h2, h3⟩
      refine ⟨_, (hx _).2 ⟨h1, stakeFor_ok_iff.2 ⟨h2, ?_, h3, rfl⟩⟩⟩
      have h3 : s.mem.total + a < M128 := h3
      omega
  · intro r hr
    obtain ⟨_, h2⟩ := (hx r).1 hr
    obtain ⟨_, _, _, rfl⟩ := stakeFor_ok_iff.1 h2
    refine ⟨?_, fun v hv => ?_, rfl, rfl, rfl, rfl, rfl, rfl⟩
    · show ((s.mem.setWeight user _).saveTotal _ _).weight user = _
      rw [Members.saveTotal_weight, Members.weight_setWeight, if_pos rfl]
      rfl
    · show ((s.mem.setWeight user _).saveTotal _ _).weight v = _
      rw [Members.saveTotal_weight, Members.weight_setWeight, if_neg hv]
      rfl

/-- C79, denom staking: a stake succeeds exactly when exactly one coin of the staked denom comes with the message, the
user (the sender unless another one is named) is not restricted and the total fits 128 bits; the user's weight and the
total then grow by the amount of the coin and nothing else changes. -/
theorem C79_stake_denom {s : State} (h : Reachable .denom s) (e : Env) (funds : List Coin) (user : Option Addr) :
    ((∃ r, exec .denom s e (.stakeDenom funds user) = .ok r) ↔
      ∃ a, funds = [⟨s.asset, a⟩] ∧ e.restricted (user.getD e.sender) = false ∧ queryTotal s .never + a < 2 ^ 128) ∧
    (∀ r a, exec .denom s e (.stakeDenom funds user) = .ok r → funds = [⟨s.asset, a⟩] →
      queryWeight r.1 (user.getD e.sender) = queryWeight s (user.getD e.sender) + a ∧
      (∀ v, v ≠ user.getD e.sender → queryWeight r.1 v = queryWeight s v) ∧
      queryTotal r.1 .never = queryTotal s .never + a ∧ r.1.claims = s.claims ∧ r.1.nextClaim = s.nextClaim ∧
      r.1.unlocking = s.unlocking ∧ r.1.asset = s.asset ∧ r.1.mem.hooks = s.mem.hooks) := by
  have hx : ∀ r, exec .denom s e (.stakeDenom funds user) = .ok r ↔
      ∃ a, funds = [⟨s.asset, a⟩] ∧ stakeFor s e (user.getD e.sender) a = .ok r := by
    intro r
    simp only [exec, if_true, stakeDenom]
    split
    · rename_i coin
      simp only [ite_ok_iff, ne_eq, not_not, List.cons.injEq, and_true]
      obtain ⟨d, a⟩ := coin
      simp only [Coin.mk.injEq]
      constructor
      · rintro ⟨rfl, hr⟩; exact ⟨a, ⟨rfl, rfl⟩, hr⟩
      · rintro ⟨_, ⟨rfl, rfl⟩, hr⟩; exact ⟨rfl, hr⟩
    · rename_i hne
      constructor
      · intro hh; cases hh
      · rintro ⟨a, rfl, _⟩; exact absurd rfl (hne _)
  have hle := s.mem.weight_le_wsum (user.getD e.sender)
  have ht := h.inv.total
  constructor
  · constructor
    · rintro ⟨r, hr⟩
      obtain ⟨a, h1, h2⟩ := (hx r).1 hr
      obtain ⟨h3, _, h4, _⟩ := stakeFor_ok_iff.1 h2
      exact ⟨a, h1, h3, h4⟩
    · rintro ⟨a, h1, h2, h3⟩
      refine ⟨_, (hx _).2 ⟨a, h1, stakeFor_ok_iff.2 ⟨h2, ?_, h3, rfl⟩⟩⟩
      have h3 : s.mem.total + a < M128 := h3
      omega
  · intro r a hr ha
    obtain ⟨a', h1, h2⟩ := (hx r).1 hr
    rw [ha] at h1
    cases h1
    obtain ⟨_, _, _, rfl⟩ := stakeFor_ok_iff.1 h2
    refine ⟨?_, fun v hv => ?_, rfl, rfl, rfl, rfl, rfl, rfl⟩
    · show ((s.mem.setWeight _ _).saveTotal _ _).weight _ = _
      rw [Members.saveTotal_weight, Members.weight_setWeight, if_pos rfl]
      rfl
    · show ((s.mem.setWeight _ _).saveTotal _ _).weight v = _
      rw [Members.saveTotal_weight, Members.weight_setWeight, if_neg hv]
      rfl

example : (exec .token (run .token smpInit smpToken) (smpEnv 40 5) (.receive 3 (.stake 4))).toOption.isSome = true ∧
    (exec .token (run .token smpInit smpToken) (smpEnv 40 6) (.receive 3 (.stake 4))).toOption.isSome = false ∧
    (exec .token (run .token smpInit smpToken) (smpEnv 40 5) (.receive 3 (.stake 66))).toOption.isSome = false ∧
    (exec .denom smpInit (smpEnv 40 3) (.stakeDenom [⟨5, 8⟩] (some 4))).toOption.isSome = true ∧
    (exec .denom smpInit (smpEnv 40 3) (.stakeDenom [⟨5, 8⟩, ⟨6, 8⟩] none)).toOption.isSome = false ∧
    (exec .denom smpInit (smpEnv 40 3) (.stakeDenom [⟨6, 8⟩] none)).toOption.isSome = false := by decide +kernel

/-! ## C80 The staked asset never changes -/

/-- C80: no history of messages changes which token or denom a staking contract holds. -/
theorem C80_asset_fixed {k : Kind} {s : State} (h : Reachable k s) (t : List Call) : (run k s t).asset = s.asset := by
  induction t generalizing s with
  | nil => rfl
  | cons c t ih =>
    rw [run, ih (reachable_step h c)]
    rcases step_cases k s c with ⟨_, r, h1, h2⟩ | ⟨_, h2⟩
    · rw [h2]; exact (effect_exec h.inv h1).asset
    · rw [h2]

example : (run .token smpInit smpToken).asset = 5 := by decide +kernel

/-! ## C81 Claim queries are truthful -/

/-- C81: the claims query lists exactly the outstanding claims of the user, each once; the releasable claims query
exactly those of them that are due; and what the latter lists is what a claim by the user pays in that block. -/
theorem C81_claims {k : Kind} {s : State} (h : Reachable k s) (u : Addr) (b : Block) :
    ((getClaims s u).map (·.id)).Nodup ∧
    (∀ c, c ∈ getClaims s u ↔ s.claims.get c.id = some c ∧ c.user = u) ∧
    ((getReleasable s b u).map (·.id)).Nodup ∧
    (∀ c, c ∈ getReleasable s b u ↔ s.claims.get c.id = some c ∧ Due u b c) ∧
    (∀ e r, e.block = b → e.sender = u → exec k s e (.claim none) = .ok r →
      r.2 = [.pay u ((getReleasable s b u).map (·.amount)).sum]) := by
  have hi := h.inv
  have hid : ∀ x ∈ s.claims.entries, x.2.id = x.1 := by
    intro x hx
    exact (hi.ids x.1 x.2 (Map.get_eq_some_iff.2 hx)).1
  have hnd : ∀ p : Claim → Bool, ((s.claims.values.filter p).map (·.id)).Nodup := by
    intro p
    have h1 : (s.claims.values.map (·.id)) = s.claims.keys := by
      unfold Map.values Map.keys
      rw [List.map_map]
      exact List.map_congr_left hid
    refine List.Nodup.sublist (List.Sublist.map _ List.filter_sublist) ?_
    rw [h1]
    exact s.claims.nodup_keys
  have hmem : ∀ c, c ∈ s.claims.values ↔ s.claims.get c.id = some c := by
    intro c
    unfold Map.values
    rw [List.mem_map]
    constructor
    · rintro ⟨x, hx, rfl⟩
      rw [hid x hx]
      exact Map.get_eq_some_iff.2 hx
    · intro hg
      exact ⟨(c.id, c), Map.get_eq_some_iff.1 hg, rfl⟩
  have hdue : ∀ c, (c.user = u ∧ isReleasable c b = true) ↔ Due u b c := by
    intro c
    unfold Due isReleasable
    cases c.release <;> simp
  refine ⟨hnd _, fun c => ?_, ?_, fun c => ?_, ?_⟩
  · unfold getClaims
    rw [List.mem_filter, hmem, decide_eq_true_eq]
  · unfold getReleasable getClaims
    rw [List.filter_filter]
    exact hnd _
  · unfold getReleasable getClaims
    rw [List.mem_filter, List.mem_filter, hmem, decide_eq_true_eq, and_assoc, hdue]
  · rintro e r rfl rfl hr
    obtain ⟨_, _, rfl⟩ := (claim_ok_iff hi).1 hr
    simp only
    congr 2
    rw [getReleasable_eq]
    unfold Map.values Map.filter Map.sum
    rw [List.map_map]
    exact (sum_filter_ite (fun x : Nat × Claim => takes e.sender e.block x.2) (fun x => x.2.amount) s.claims.entries).symm

example : (getClaims (run .token smpInit (smpToken.take 4)) 1).length = 2 ∧
    (getReleasable (run .token smpInit (smpToken.take 4)) ⟨30, 30 * 10 ^ 9⟩ 1).map (·.amount) = [3] ∧
    (exec .token (run .token smpInit (smpToken.take 4)) (smpEnv 30 1) (.claim none)).toOption.map (·.2) =
      some [.pay 1 3] := by decide +kernel

/-! ## C82 The member query lists every member -/

/-- C82: paging through the members, with any page size, comes to an end; every member is listed once and with the
weight that the weight query gives, nobody left out has a weight, and the listed weights sum to the total. -/
theorem C82_members {k : Kind} {s : State} (h : Reachable k s) (limit : Option Nat) (hl : limit ≠ some 0) :
    (∃ ps, Reads (fun a => s.mem.queryMembers a limit) (·.1) none ps) ∧
    ∀ ps, Reads (fun a => s.mem.queryMembers a limit) (·.1) none ps →
      (ps.flatten.map (·.1)).Nodup ∧ (∀ p ∈ ps.flatten, queryWeight s p.1 = p.2) ∧
      (∀ u, queryWeight s u ≠ 0 → (u, queryWeight s u) ∈ ps.flatten) ∧
      (ps.flatten.map (·.2)).sum = queryTotal s .never := by
  refine ⟨(s.mem.queryMembers_all hl).1, fun ps hps => ?_⟩
  have hs := s.mem.queryMembers_spec hl hps
  exact ⟨hs.1, hs.2.1, hs.2.2.1, by rw [hs.2.2.2]; exact h.inv.total.symm⟩

example : (run .token smpInit (smpToken.take 2)).mem.queryMembers none (some 1) = [(1, 110)] ∧
    (run .token smpInit (smpToken.take 2)).mem.queryMembers (some 1) (some 1) = [(2, 50)] ∧
    queryTotal (run .token smpInit (smpToken.take 2)) .never = 160 := by decide +kernel

/-! ## C83 Hooks are edited by the controller only -/

/-- C83: a new contract notifies exactly the hooks it was given. -/
theorem C83_init (b : Block) (asset : Addr) (u : Duration) (hooks : List Addr) (x y : List (Nat × Nat)) (g : Addr) :
    (init b asset u hooks x y).mem.hooks.has g = true ↔ g ∈ hooks := by
  have : (init b asset u hooks x y).mem =
      ((Members.empty.saveCheckpoints x y).saveTotal 0 b).saveHooks hooks := rfl
  rw [this, Members.has_saveHooks]
  have h0 : ((Members.empty.saveCheckpoints x y).saveTotal 0 b).hooks = Map.empty := rfl
  rw [h0]
  have : ¬ (Map.empty : Map Addr Unit).has g = true := Bool.false_ne_true
  exact ⟨fun hh => hh.resolve_right this, .inl⟩

/-- C83: adding or removing a hook is accepted exactly from the controller; it adds or removes this hook only, and
changes nothing else. -/
theorem C83_edit (k : Kind) (s : State) (e : Env) (g : Addr) :
    ((∃ r, exec k s e (.addHook g) = .ok r) ↔ e.sender = e.controller) ∧
    ((∃ r, exec k s e (.removeHook g) = .ok r) ↔ e.sender = e.controller) ∧
    (∀ r, exec k s e (.addHook g) = .ok r → r.2 = [] ∧
      (∀ f, r.1.mem.hooks.has f = true ↔ f = g ∨ s.mem.hooks.has f = true) ∧
      r.1 = { s with mem := { s.mem with hooks := r.1.mem.hooks } }) ∧
    (∀ r, exec k s e (.removeHook g) = .ok r → r.2 = [] ∧
      (∀ f, r.1.mem.hooks.has f = true ↔ f ≠ g ∧ s.mem.hooks.has f = true) ∧
      r.1 = { s with mem := { s.mem with hooks := r.1.mem.hooks } }) := by
  simp only [exec, bind_ok_iff, Members.addHook_ok_iff, Members.removeHook_ok_iff, pure_ok_iff]
  refine ⟨⟨?_, ?_⟩, ⟨?_, ?_⟩, ?_, ?_⟩
  · rintro ⟨r, m, ⟨h, _⟩, _⟩; exact h
  · intro h; exact ⟨_, _, ⟨h, rfl⟩, rfl⟩
  · rintro ⟨r, m, ⟨h, _⟩, _⟩; exact h
  · intro h; exact ⟨_, _, ⟨h, rfl⟩, rfl⟩
  · rintro r ⟨m, ⟨_, rfl⟩, rfl⟩
    exact ⟨rfl, fun f => Members.has_set_hook _ _ _, rfl⟩
  · rintro r ⟨m, ⟨_, rfl⟩, rfl⟩
    exact ⟨rfl, fun f => Members.has_remove_hook _ _ _, rfl⟩

/-- C83: no other message changes the hooks, and nobody but the controller does. -/
theorem C83_only_controller {k : Kind} {s : State} (h : Reachable k s) (c : Call)
    (hne : (step k s c).1.mem.hooks ≠ s.mem.hooks) :
    c.env.sender = c.env.controller ∧ ∃ g, c.msg = .addHook g ∨ c.msg = .removeHook g := by
  have hi := h.inv
  rcases step_cases k s c with ⟨_, r, h1, h2⟩ | ⟨_, h2⟩
  · rw [h2] at hne
    obtain ⟨e, m, d⟩ := c
    simp only at h1 ⊢
    cases m with
    | receive a hk =>
      simp only [exec] at h1
      split at h1
      · simp only [receive, ite_ok_iff] at h1
        obtain ⟨_, h1⟩ := h1
        cases hk with
        | stake u => obtain ⟨_, _, _, rfl⟩ := stakeFor_ok_iff.1 h1; exact absurd rfl hne
        | addStakes l =>
          obtain ⟨_, _, _, mm, ch, rfl, _, _, h5, _⟩ := addStakes_ok h1
          exact absurd h5.2.2 hne
        | addClaims l =>
          obtain ⟨_, _, h6⟩ := addTokenClaims_ok h1
          have := (addClaims_loop l h6).2.2.2.1.1
          exact absurd (by rw [this]) hne
        | unknown => cases h1
      · cases h1
    | stakeDenom f u =>
      simp only [exec] at h1
      split at h1
      · unfold stakeDenom at h1
        split at h1
        · rw [ite_ok_iff] at h1
          obtain ⟨_, _, _, rfl⟩ := stakeFor_ok_iff.1 h1.2; exact absurd rfl hne
        · cases h1
      · cases h1
    | unstake a => obtain ⟨_, _, _, rfl⟩ := unstake_ok_iff.1 h1; exact absurd rfl hne
    | claim u => obtain ⟨_, _, rfl⟩ := (claim_ok_iff hi).1 h1; exact absurd rfl hne
    | updateUnlocking p => obtain ⟨_, rfl⟩ := updateUnlocking_ok_iff.1 h1; exact absurd rfl hne
    | addHook a => exact ⟨(C83_edit k s e a).1.1 ⟨r, h1⟩, a, .inl rfl⟩
    | removeHook a => exact ⟨(C83_edit k s e a).2.1.1 ⟨r, h1⟩, a, .inr rfl⟩
  · rw [h2] at hne; exact absurd rfl hne

example : (step .token smpInit ⟨smpEnv 11 9, .addHook 3, true⟩).1.mem.hooks ≠ smpInit.mem.hooks ∧
    smpInit.mem.hooks.has 7 = true := by decide +kernel

end Verif.Staking
