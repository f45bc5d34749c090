import Verif.Nft.Props
import Verif.Membership.Queries

set_option linter.unusedSimpArgs false

/-!
# NFT staking: properties C79 to C83, and the NFT versions of C26 over histories and of C27
-/

namespace Verif.Nft
open Verif
open Verif.Staking (Duration ReleaseAt releaseAt Explains Elapsed Fits At)

/-! ## C79 -/

/-- C79 for NFT staking: a stake succeeds exactly when the NFT contract sends it, the user is not restricted, the token
is not staked already and the total fits 128 bits. The token is then staked by the user, whose weight and the total grow
by one, and nothing else changes (the NFT contract is the one that was in force). -/
theorem C79_nft_stake {s : State} (h : Reachable s) (e : NEnv) (t : Nat) (user : Addr) :
    ((∃ r, exec s e (.receiveNft t (.stake user)) = .ok r) ↔
      IsNft s e.proxyNft e.env.sender ∧ e.env.restricted user = false ∧ s.stakes.get t = none ∧
      queryTotal s .never + 1 < 2 ^ 128) ∧
    (∀ r, exec s e (.receiveNft t (.stake user)) = .ok r →
      r.1.stakes.get t = some user ∧ (∀ t', t' ≠ t → r.1.stakes.get t' = s.stakes.get t') ∧
      queryWeight r.1 user = queryWeight s user + 1 ∧ (∀ v, v ≠ user → queryWeight r.1 v = queryWeight s v) ∧
      queryTotal r.1 .never = queryTotal s .never + 1 ∧ r.1.claims = s.claims ∧ r.1.nextClaim = s.nextClaim ∧
      r.1.unlocking = s.unlocking ∧ r.1.mem.hooks = s.mem.hooks ∧ r.1.nft = .cw721 e.env.sender) := by
  rw [isNft_iff]
  have hx : ∀ r, exec s e (.receiveNft t (.stake user)) = .ok r ↔ nftContract s e.proxyNft = some e.env.sender ∧
      stakeNft { s with nft := .cw721 e.env.sender } e.env t user = .ok r := by
    intro r
    show receiveNft s e t (.stake user) = .ok r ↔ _
    rw [receiveNft_ok_iff]
    constructor
    · rintro ⟨h1, ⟨u, h2, h3⟩ | ⟨u, d, h2, _⟩⟩
      · cases h2; exact ⟨h1, h3⟩
      · cases h2
    · rintro ⟨h1, h2⟩; exact ⟨h1, .inl ⟨user, rfl, h2⟩⟩
  have hle := s.mem.weight_le_wsum user
  have ht := h.inv.total
  have hws := h.inv.wsum
  constructor
  · constructor
    · rintro ⟨r, hr⟩
      obtain ⟨h1, h2⟩ := (hx r).1 hr
      obtain ⟨h3, h4, _, h5, _⟩ := stakeNft_ok_iff.1 h2
      refine ⟨h1, h3, ?_, h5⟩
      cases hg : s.stakes.get t with
      | none => rfl
      | some w => rw [show s.stakes.has t = true from Map.has_iff.2 ⟨w, hg⟩] at h4; cases h4
    · rintro ⟨h1, h2, h3, h4⟩
      have h4 : s.mem.total + 1 < M128 := h4
      refine ⟨_, (hx _).2 ⟨h1, stakeNft_ok_iff.2 ⟨h2, ?_, ?_, h4, rfl⟩⟩⟩
      · show s.stakes.has t = false
        unfold Map.has
        rw [h3]
        rfl
      · show s.mem.weight user + 1 < M128
        omega
  · intro r hr
    obtain ⟨_, h2⟩ := (hx r).1 hr
    obtain ⟨_, _, _, _, rfl⟩ := stakeNft_ok_iff.1 h2
    refine ⟨Map.get_set_self _ _ _, fun t' h' => Map.get_set_ne _ _ (fun hh => h' hh.symm), ?_, fun v hv => ?_, rfl, rfl,
      rfl, rfl, rfl, rfl⟩
    · simp only [queryWeight, Members.saveTotal_weight, Members.weight_setWeight, if_true]
    · simp only [queryWeight, Members.saveTotal_weight, Members.weight_setWeight, if_neg hv]

example : (exec (run smpInit smp) (smpEnv 40 5) (.receiveNft 110 (.stake 4))).toOption.isSome = true ∧
    (exec (run smpInit smp) (smpEnv 40 6) (.receiveNft 110 (.stake 4))).toOption.isSome = false ∧
    (exec (run smpInit smp) (smpEnv 40 5) (.receiveNft 101 (.stake 4))).toOption.isSome = false ∧
    (exec (run smpInit smp) (smpEnv 40 5) (.receiveNft 110 (.stake 66))).toOption.isSome = false := by decide +kernel

/-! ## C80 -/

/-- The only way the NFT contract changes. -/
theorem nft_step {s : State} (h : Reachable s) (c : Call) :
    (step s c).1.nft = s.nft ∨
    (∃ t hk, c.msg = .receiveNft t hk ∧ nftContract s c.env.proxyNft = some c.env.env.sender ∧
      (step s c).1.nft = .cw721 c.env.env.sender) := by
  have hi := h.inv
  rcases step_cases s c with ⟨_, r, h1, h2⟩ | ⟨_, h2⟩
  · rw [h2]
    obtain ⟨e, m, d⟩ := c
    simp only at h1 ⊢
    cases m with
    | receiveNft t hk =>
      right
      obtain ⟨h3, ⟨u, _, h4⟩ | ⟨u, d, _, h4⟩⟩ := receiveNft_ok_iff.1 h1
      · obtain ⟨_, _, _, _, rfl⟩ := stakeNft_ok_iff.1 h4
        exact ⟨t, hk, rfl, h3, rfl⟩
      · obtain ⟨_, rfl⟩ := addNftClaim_ok_iff.1 h4
        exact ⟨t, hk, rfl, h3, rfl⟩
    | unstake l => obtain ⟨_, _, _, _, _, rfl⟩ := unstake_ok_iff.1 h1; exact .inl rfl
    | claim v => obtain ⟨_, _, rfl⟩ := (claim_ok_iff hi).1 h1; exact .inl rfl
    | updateUnlocking p => obtain ⟨_, rfl⟩ := updateUnlocking_ok_iff.1 h1; exact .inl rfl
    | addHook a =>
      simp only [exec, bind_ok_iff, Members.addHook_ok_iff, pure_ok_iff] at h1
      obtain ⟨m, ⟨_, rfl⟩, rfl⟩ := h1
      exact .inl rfl
    | removeHook a =>
      simp only [exec, bind_ok_iff, Members.removeHook_ok_iff, pure_ok_iff] at h1
      obtain ⟨m, ⟨_, rfl⟩, rfl⟩ := h1
      exact .inl rfl
  · rw [h2]; exact .inl rfl

/-- C80 for NFT staking: once the NFT contract is known it never changes. -/
theorem C80_nft_fixed {s : State} (h : Reachable s) (a : Addr) (ha : s.nft = .cw721 a) (t : List Call) :
    (run s t).nft = .cw721 a := by
  induction t generalizing s with
  | nil => exact ha
  | cons c t ih =>
    refine ih (reachable_step h c) ?_
    rcases nft_step h c with h1 | ⟨_, _, _, h1, h2⟩
    · rw [h1, ha]
    · rw [h2]
      unfold nftContract at h1
      rw [ha] at h1
      rw [Option.some.inj h1]

/-- C80 for NFT staking: a collection given by its ICS721 proxy stays so, until the contract the proxy names itself
sends a token; this contract is the NFT contract from then on. -/
theorem C80_nft_resolved {s : State} (h : Reachable s) (p : Addr) (hp : s.nft = .ics721 p) (t : List Call) :
    (run s t).nft = .ics721 p ∨
    ∃ t1 c t2 a, t = t1 ++ c :: t2 ∧ (run s t1).nft = .ics721 p ∧ (∃ tok hk, c.msg = .receiveNft tok hk) ∧
      c.env.proxyNft = some a ∧ c.env.env.sender = a ∧ (run s t).nft = .cw721 a := by
  induction t generalizing s with
  | nil => exact .inl hp
  | cons c t ih =>
    rcases nft_step h c with h1 | ⟨tok, hk, h0, h1, h2⟩
    · rcases ih (reachable_step h c) (h1.trans hp) with h3 | ⟨t1, d, t2, a, rfl, h4, h5⟩
      · exact .inl h3
      · exact .inr ⟨c :: t1, d, t2, a, rfl, h4, h5⟩
    · right
      unfold nftContract at h1
      rw [hp] at h1
      exact ⟨[], c, t, c.env.env.sender, rfl, hp, ⟨tok, hk, h0⟩, h1, rfl, C80_nft_fixed (reachable_step h c) _ h2 t⟩

example : smpInit.nft = .ics721 4 ∧ (run smpInit smp).nft = .cw721 5 := by decide +kernel

/-! ## C81 -/

/-- C81 for NFT staking: the claims query lists exactly the outstanding claims of the user, each once; the releasable
claims query exactly those of them that are due; and what the latter lists is what a claim by the user sends in that
block. -/
theorem C81_nft_claims {s : State} (h : Reachable s) (u : Addr) (b : Block) :
    ((getClaims s u).map (·.id)).Nodup ∧
    (∀ c, c ∈ getClaims s u ↔ s.claims.get c.id = some c ∧ c.user = u) ∧
    ((getReleasable s b u).map (·.id)).Nodup ∧
    (∀ c, c ∈ getReleasable s b u ↔ s.claims.get c.id = some c ∧ Due u b c) ∧
    (∀ e r, e.env.block = b → e.env.sender = u → exec s e (.claim none) = .ok r →
      r.2 = ((getReleasable s b u).flatMap (·.nfts)).map (fun t => .sendNft u t)) := by
  have hi := h.inv
  have hid : ∀ x ∈ s.claims.entries, x.2.id = x.1 := by
    intro x hx
    exact (hi.ids x.1 x.2 (Map.get_eq_some_iff.2 hx)).1
  have hnd : ∀ p : Claim → Bool, ((s.claims.values.filter p).map (·.id)).Nodup := by
    intro p
    have h1 : (s.claims.values.map (·.id)) = s.claims.keys := by
      unfold Map.values Map.keys
      rw [List.map_map]
      exact List.map_congr_left hid
    refine List.Nodup.sublist (List.Sublist.map _ List.filter_sublist) ?_
    rw [h1]
    exact s.claims.nodup_keys
  refine ⟨hnd _, fun c => ?_, ?_, fun c => mem_getReleasable hi, ?_⟩
  · unfold getClaims Map.values
    rw [List.mem_filter, List.mem_map, decide_eq_true_eq]
    constructor
    · rintro ⟨⟨x, hx, rfl⟩, h2⟩
      rw [hid x hx]
      exact ⟨Map.get_eq_some_iff.2 hx, h2⟩
    · rintro ⟨hg, h2⟩
      exact ⟨⟨(c.id, c), Map.get_eq_some_iff.1 hg, rfl⟩, h2⟩
  · unfold getReleasable
    rw [List.filter_filter]
    exact hnd _
  · rintro e r rfl rfl hr
    obtain ⟨_, _, rfl⟩ := (claim_ok_iff hi).1 hr
    rw [getReleasable_eq]

example : (getClaims (run smpInit (smp.take 8)) 1).map (·.nfts) = [[102]] ∧
    getReleasable (run smpInit (smp.take 8)) ⟨30, 30 * 10 ^ 9⟩ 1 = [] ∧
    (getReleasable (run smpInit (smp.take 8)) ⟨30, 30 * 10 ^ 9⟩ 3).map (·.nfts) = [[105]] := by decide +kernel

/-! ## C82 -/

/-- C82 for NFT staking: paging through the members lists everyone once with the weight of the weight query, leaves out
nobody with a weight, and the listed weights sum to the total. -/
theorem C82_nft_members {s : State} (h : Reachable s) (limit : Option Nat) (hl : limit ≠ some 0) :
    (∃ ps, Reads (fun a => s.mem.queryMembers a limit) (·.1) none ps) ∧
    ∀ ps, Reads (fun a => s.mem.queryMembers a limit) (·.1) none ps →
      (ps.flatten.map (·.1)).Nodup ∧ (∀ p ∈ ps.flatten, queryWeight s p.1 = p.2) ∧
      (∀ u, queryWeight s u ≠ 0 → (u, queryWeight s u) ∈ ps.flatten) ∧
      (ps.flatten.map (·.2)).sum = queryTotal s .never := by
  refine ⟨(s.mem.queryMembers_all hl).1, fun ps hps => ?_⟩
  have hs := s.mem.queryMembers_spec hl hps
  refine ⟨hs.1, hs.2.1, hs.2.2.1, ?_⟩
  rw [hs.2.2.2]
  exact h.inv.wsum.trans h.inv.total.symm

/-- C82 for NFT staking: paging through the staked tokens lists every staked token once, and no other; their number is
the total weight. -/
theorem C82_nft_staked {s : State} (h : Reachable s) (limit : Option Nat) (hl : limit ≠ some 0) :
    (∃ ps, Reads (fun a => queryStaked s a limit) id none ps) ∧
    ∀ ps, Reads (fun a => queryStaked s a limit) id none ps →
      ps.flatten.Nodup ∧ (∀ t, t ∈ ps.flatten ↔ ∃ u, s.stakes.get t = some u) ∧
      ps.flatten.length = queryTotal s .never := by
  have hr := reads_all (m := s.stakes) (g := fun e => e.1) (cur := id) (fun _ _ => rfl) (Members.limitOf_pos hl)
  refine ⟨hr.1, fun ps hps => ?_⟩
  rw [hr.2 ps hps]
  refine ⟨s.stakes.nodup_keys, fun t => Map.mem_keys, ?_⟩
  rw [List.length_map]
  exact h.inv.total.symm

/-- C82 for NFT staking: paging through the tokens of one user lists exactly the tokens this user staked, each once, and
their number is the weight reported along with each page. -/
theorem C82_nft_user_stake {s : State} (h : Reachable s) (u : Addr) (limit : Option Nat) (hl : limit ≠ some 0) :
    (∃ ps, Reads (fun a => (queryUserStake s u a limit).1) id none ps) ∧
    (∀ a, (queryUserStake s u a limit).2 = queryWeight s u) ∧
    ∀ ps, Reads (fun a => (queryUserStake s u a limit).1) id none ps →
      ps.flatten.Nodup ∧ (∀ t, t ∈ ps.flatten ↔ s.stakes.get t = some u) ∧
      ps.flatten.length = queryWeight s u := by
  have hr := reads_all (m := s.stakes.filter (fun _ v => decide (v = u))) (g := fun e => e.1) (cur := id)
    (fun _ _ => rfl) (Members.limitOf_pos hl)
  refine ⟨hr.1, fun _ => rfl, fun ps hps => ?_⟩
  rw [hr.2 ps hps]
  refine ⟨Map.nodup_keys _, fun t => ?_, ?_⟩
  · refine Map.mem_keys.trans ?_
    rw [Map.get_filter]
    cases s.stakes.get t with
    | none => simp
    | some v =>
      by_cases hv : v = u
      · simp [Option.filter, hv]
      · simp [Option.filter, hv]
  · rw [List.length_map, (C28_weight_counts h).1 u]
    rfl

example : queryStaked (run smpInit (smp.take 5)) none (some 2) = [101, 102] ∧
    queryStaked (run smpInit (smp.take 5)) (some 102) (some 2) = [103] ∧
    queryUserStake (run smpInit (smp.take 5)) 1 none none = ([101, 102], 2) ∧
    queryUserStake (run smpInit (smp.take 5)) 1 (some 101) none = ([102], 2) := by decide +kernel

/-! ## C83 -/

/-- C83 for NFT staking: a new contract notifies exactly the hooks it was given. -/
theorem C83_nft_init (b : Block) (nft : NftAddr) (u : Duration) (hooks : List Addr) (x y : List (Nat × Nat))
    (g : Addr) : (init b nft u hooks x y).mem.hooks.has g = true ↔ g ∈ hooks := by
  have : (init b nft u hooks x y).mem = ((Members.empty.saveCheckpoints x y).saveTotal 0 b).saveHooks hooks := rfl
  rw [this, Members.has_saveHooks]
  have h0 : ((Members.empty.saveCheckpoints x y).saveTotal 0 b).hooks = Map.empty := rfl
  rw [h0]
  have : ¬ (Map.empty : Map Addr Unit).has g = true := Bool.false_ne_true
  exact ⟨fun hh => hh.resolve_right this, .inl⟩

/-- C83 for NFT staking: adding or removing a hook is accepted exactly from the controller; it adds or removes this hook
only, and changes nothing else. -/
theorem C83_nft_edit (s : State) (e : NEnv) (g : Addr) :
    ((∃ r, exec s e (.addHook g) = .ok r) ↔ e.env.sender = e.env.controller) ∧
    ((∃ r, exec s e (.removeHook g) = .ok r) ↔ e.env.sender = e.env.controller) ∧
    (∀ r, exec s e (.addHook g) = .ok r → r.2 = [] ∧
      (∀ f, r.1.mem.hooks.has f = true ↔ f = g ∨ s.mem.hooks.has f = true) ∧
      r.1 = { s with mem := { s.mem with hooks := r.1.mem.hooks } }) ∧
    (∀ r, exec s e (.removeHook g) = .ok r → r.2 = [] ∧
      (∀ f, r.1.mem.hooks.has f = true ↔ f ≠ g ∧ s.mem.hooks.has f = true) ∧
      r.1 = { s with mem := { s.mem with hooks := r.1.mem.hooks } }) := by
  simp only [exec, bind_ok_iff, Members.addHook_ok_iff, Members.removeHook_ok_iff, pure_ok_iff]
  refine ⟨⟨?_, ?_⟩, ⟨?_, ?_⟩, ?_, ?_⟩
  · rintro ⟨r, m, ⟨h, _⟩, _⟩; exact h
  · intro h; exact ⟨_, _, ⟨h, rfl⟩, rfl⟩
  · rintro ⟨r, m, ⟨h, _⟩, _⟩; exact h
  · intro h; exact ⟨_, _, ⟨h, rfl⟩, rfl⟩
  · rintro r ⟨m, ⟨_, rfl⟩, rfl⟩
    exact ⟨rfl, fun f => Members.has_set_hook _ _ _, rfl⟩
  · rintro r ⟨m, ⟨_, rfl⟩, rfl⟩
    exact ⟨rfl, fun f => Members.has_remove_hook _ _ _, rfl⟩

/-- The hooks and the unlocking period are touched by three messages only. -/
theorem admin_step {s : State} (h : Reachable s) (c : Call) :
    ((step s c).1.mem.hooks = s.mem.hooks ∨
      (c.env.env.sender = c.env.env.controller ∧ ∃ g, c.msg = .addHook g ∨ c.msg = .removeHook g)) ∧
    ((step s c).1.unlocking = s.unlocking ∨
      (c.env.env.sender = c.env.env.controller ∧ ∃ d, c.msg = .updateUnlocking (some d) ∧
        (step s c).1.unlocking = d)) := by
  have hi := h.inv
  rcases step_cases s c with ⟨_, r, h1, h2⟩ | ⟨_, h2⟩
  · rw [h2]
    obtain ⟨e, m, d⟩ := c
    simp only at h1 ⊢
    cases m with
    | receiveNft t hk =>
      obtain ⟨h3, ⟨u, _, h4⟩ | ⟨u, d, _, h4⟩⟩ := receiveNft_ok_iff.1 h1
      · obtain ⟨_, _, _, _, rfl⟩ := stakeNft_ok_iff.1 h4
        exact ⟨.inl rfl, .inl rfl⟩
      · obtain ⟨_, rfl⟩ := addNftClaim_ok_iff.1 h4
        exact ⟨.inl rfl, .inl rfl⟩
    | unstake l => obtain ⟨_, _, _, _, _, rfl⟩ := unstake_ok_iff.1 h1; exact ⟨.inl rfl, .inl rfl⟩
    | claim v => obtain ⟨_, _, rfl⟩ := (claim_ok_iff hi).1 h1; exact ⟨.inl rfl, .inl rfl⟩
    | updateUnlocking p =>
      obtain ⟨h3, rfl⟩ := updateUnlocking_ok_iff.1 h1
      refine ⟨.inl rfl, ?_⟩
      cases p with
      | none => exact .inl rfl
      | some d => exact .inr ⟨h3, d, rfl, rfl⟩
    | addHook a =>
      refine ⟨.inr ⟨(C83_nft_edit s e a).1.1 ⟨r, h1⟩, a, .inl rfl⟩, ?_⟩
      rw [((C83_nft_edit s e a).2.2.1 r h1).2.2]
      exact .inl rfl
    | removeHook a =>
      refine ⟨.inr ⟨(C83_nft_edit s e a).2.1.1 ⟨r, h1⟩, a, .inr rfl⟩, ?_⟩
      rw [((C83_nft_edit s e a).2.2.2 r h1).2.2]
      exact .inl rfl
  · rw [h2]; exact ⟨.inl rfl, .inl rfl⟩

/-- C83 for NFT staking: no other message changes the hooks, and nobody but the controller does. -/
theorem C83_nft_only_controller {s : State} (h : Reachable s) (c : Call)
    (hne : (step s c).1.mem.hooks ≠ s.mem.hooks) :
    c.env.env.sender = c.env.env.controller ∧ ∃ g, c.msg = .addHook g ∨ c.msg = .removeHook g :=
  (admin_step h c).1.resolve_left hne

example : (step smpInit ⟨smpEnv 11 9, .addHook 3, true⟩).1.mem.hooks ≠ smpInit.mem.hooks := by decide +kernel

/-! ## C26 and C27 -/

/-- C27 for NFT staking: the unlocking period changes only by a message of the controller that asks for it. -/
theorem C27_nft_only_controller {s : State} (h : Reachable s) (c : Call)
    (hne : (step s c).1.unlocking ≠ s.unlocking) :
    c.env.env.sender = c.env.env.controller ∧ ∃ d, c.msg = .updateUnlocking (some d) ∧ (step s c).1.unlocking = d :=
  (admin_step h c).2.resolve_left hne

example : (step smpInit ⟨smpEnv 11 9, .updateUnlocking (some (.height 3)), true⟩).1.unlocking ≠ smpInit.unlocking := by
  decide +kernel

/-- C26 for NFT staking over histories: as long as the unlocking period has not elapsed, the claim is not released:
whatever messages run in blocks before that, the claim is still there. -/
theorem C26_nft_not_released_before {s : State} (h : Reachable s) (e : NEnv) (l : List Nat) (r : State × List Out)
    (hr : exec s e (.unstake l) = .ok r) (hf : Fits s.unlocking e.env.block) (t : List Call)
    (ht : ∀ c ∈ t, ¬ Elapsed s.unlocking e.env.block c.env.env.block) :
    ∃ c, c.user = e.env.sender ∧ c.nfts = l ∧ (run r.1 t).claims.get s.nextClaim = some c := by
  have hR : Reachable r.1 := by
    have := reachable_step h ⟨e, .unstake l, true⟩
    simpa only [step, hr, if_true] using this
  obtain ⟨c, hc, _, hu, hn, _⟩ := C26_nft_waits h e l r hr hf e.env.block
  have hnd : ∀ later, ¬ Elapsed s.unlocking e.env.block later → ∀ v, ¬ Due v later c := by
    intro later hl v hd
    obtain ⟨c', hc', _, hu, _, hiff⟩ := C26_nft_waits h e l r hr hf later
    rw [hc] at hc'
    cases hc'
    have hv := hd.1
    rw [hu] at hv
    subst hv
    exact hl (hiff.1 hd)
  refine ⟨c, hu, hn, ?_⟩
  generalize s.nextClaim = n at *
  have key : ∀ (t : List Call) (q : State), Reachable q → q.claims.get n = some c →
      (∀ d ∈ t, ¬ Elapsed s.unlocking e.env.block d.env.env.block) → (run q t).claims.get n = some c := by
    intro t
    induction t with
    | nil => intro q _ hq _; exact hq
    | cons d t ih =>
      intro q hq hg hel
      have hlt := (hq.inv.ids n c hg).2
      apply ih _ (reachable_step hq d) _ (fun d' hd' => hel d' (List.mem_cons_of_mem _ hd'))
      rcases step_cases q d with ⟨_, r', h4, h5⟩ | ⟨_, h5⟩
      · rw [h5]
        have hel' := hel d List.mem_cons_self
        revert h4
        cases d.msg with
        | receiveNft tk hk =>
          intro h4
          obtain ⟨_, ⟨u, _, h6⟩ | ⟨u, d, _, h6⟩⟩ := receiveNft_ok_iff.1 h4
          · obtain ⟨_, _, _, _, rfl⟩ := stakeNft_ok_iff.1 h6; exact hg
          · obtain ⟨_, rfl⟩ := addNftClaim_ok_iff.1 h6
            simp only
            rw [Map.get_set_ne _ _ (by omega)]; exact hg
        | unstake l' =>
          intro h4
          obtain ⟨_, _, _, _, _, rfl⟩ := unstake_ok_iff.1 h4
          simp only
          rw [Map.get_set_ne _ _ (by omega)]; exact hg
        | claim u =>
          intro h4
          exact ((C30_claim hq d.env u).2 r' h4).2.2.2.1 n c hg (hnd _ hel' _)
        | updateUnlocking p =>
          intro h4
          obtain ⟨_, rfl⟩ := updateUnlocking_ok_iff.1 h4; exact hg
        | addHook a =>
          intro h4
          rw [((C83_nft_edit q d.env a).2.2.1 r' h4).2.2]; exact hg
        | removeHook a =>
          intro h4
          rw [((C83_nft_edit q d.env a).2.2.2 r' h4).2.2]; exact hg
      · rw [h5]; exact hg
  exact key t r.1 hR hc ht

example : ∀ c ∈ smp.drop 8, ¬ Elapsed (run smpInit (smp.take 7)).unlocking (smpEnv 14 1).env.block c.env.env.block := by
  decide +kernel

end Verif.Nft
