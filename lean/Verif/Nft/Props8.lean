import Verif.Nft.Props7

/-!
# NFT staking: unstaking in parts (C187)
-/

set_option linter.unusedSimpArgs false

namespace Verif.Nft
open Verif Verif.Staking

/-! ## Specification -/

/-- How many claims a message makes if it is accepted. -/
def Msg.newClaims : Msg → Nat
  | .unstake _ => 1
  | .receiveNft _ (.addClaim _ _) => 1
  | _ => 0

/-- How many claims a history makes if all of it is accepted. -/
def newClaims (h : List Call) : Nat := (h.map (fun c => c.msg.newClaims)).sum

/-- Unstaking these lists of NFTs one after the other in the same block. -/
def inParts (e : NEnv) (ls : List (List Nat)) : List Call := ls.map (fun l => ⟨e, .unstake l, true⟩)

/-- The NFTs that a user can claim in a block, in the order of the claims. -/
def dueNfts (s : State) (u : Addr) (b : Block) : List Nat :=
  (s.claims.values.filter (fun c => decide (Due u b c))).flatMap (·.nfts)

/-! ## States that differ only in how claims are split -/

/-- The NFTs in claims with certain owners and release dates. -/
def holds (s : State) (p : Addr → ReleaseAt → Bool) : List Nat :=
  (s.claims.values.filter (fun c => p c.user c.release)).flatMap (·.nfts)

/-- `t` is `s` with fewer claims for the same NFTs. -/
structure Alike (s t : State) : Prop where
  mem : t.mem = s.mem
  stakes : t.stakes = s.stakes
  nft : t.nft = s.nft
  unlocking : t.unlocking = s.unlocking
  next : t.nextClaim ≤ s.nextClaim
  holds : ∀ p, holds s p = holds t p

theorem Alike.refl (s : State) : Alike s s := ⟨rfl, rfl, rfl, rfl, Nat.le_refl _, fun _ => rfl⟩

theorem Alike.trans {a b c : State} (h : Alike a b) (g : Alike b c) : Alike a c :=
  ⟨g.mem.trans h.mem, g.stakes.trans h.stakes, g.nft.trans h.nft, g.unlocking.trans h.unlocking,
    Nat.le_trans g.next h.next, fun p => (h.holds p).trans (g.holds p)⟩

theorem insertL_last (k : Nat) (v : Claim) : ∀ (l : List (Nat × Claim)), (∀ x ∈ l, x.1 < k) →
    insertL k v l = l ++ [(k, v)]
  | [], _ => rfl
  | x :: t, h => by
    have hx := h x List.mem_cons_self
    rw [insertL, if_neg (by omega), if_neg (by omega), insertL_last k v t (fun y hy => h y (List.mem_cons_of_mem _ hy))]
    rfl

theorem holds_push {s : State} (hi : Inv s) (p : Addr → ReleaseAt → Bool) (u : Addr) (l : List Nat) (r : ReleaseAt)
    (m : Members) (st : Map Nat Addr) (n : Nat) (x : NftAddr) (d : Duration) :
    holds ⟨m, st, s.claims.set s.nextClaim ⟨s.nextClaim, u, l, r⟩, n, x, d⟩ p = holds s p ++ if p u r then l else [] := by
  have : (s.claims.set s.nextClaim ⟨s.nextClaim, u, l, r⟩).entries =
      s.claims.entries ++ [(s.nextClaim, ⟨s.nextClaim, u, l, r⟩)] :=
    insertL_last _ _ _ (fun y hy => (hi.ids y.1 y.2 (Map.get_eq_some_iff.2 hy)).2)
  unfold holds Map.values
  simp only [this, List.map_append, List.filter_append, List.flatMap_append, List.map_cons, List.map_nil]
  congr 1
  by_cases hp : p u r = true
  · simp [hp]
  · simp [hp]

/-- Two outcomes: both refused, or both accepted with the same messages sent. -/
def Same (n : Nat) (x y : Except Err (State × List Out)) : Prop :=
  (∃ a b o, x = .ok (a, o) ∧ y = .ok (b, o) ∧ Alike a b ∧ a.nextClaim ≤ n) ∨
    ((∀ r, x ≠ .ok r) ∧ ∀ r, y ≠ .ok r)

theorem same_mem {s t : State} (h : Alike s t) (m : Members) (o : List Out) :
    Same s.nextClaim (.ok ({ s with mem := m }, o)) (.ok ({ t with mem := m }, o)) :=
  Or.inl ⟨_, _, _, rfl, rfl, ⟨rfl, h.stakes, h.nft, h.unlocking, h.next, h.holds⟩, Nat.le_refl _⟩

theorem same_error (n : Nat) (x y : Err) : Same n (.error x) (.error y) :=
  Or.inr ⟨fun _ hh => by (cases hh), fun _ hh => by (cases hh)⟩

theorem same_stakeNft {s t : State} (h : Alike s t) (e : Env) (k : Nat) (u : Addr) :
    Same s.nextClaim (stakeNft s e k u) (stakeNft t e k u) := by
  by_cases hc : e.restricted u = false ∧ s.stakes.has k = false ∧ s.mem.weight u + 1 < M128 ∧ s.mem.total + 1 < M128
  · have h1 := stakeNft_ok_iff.2 ⟨hc.1, hc.2.1, hc.2.2.1, hc.2.2.2, rfl⟩
    have h2 := (stakeNft_ok_iff (s := t)).2 ⟨hc.1, by rw [h.stakes]; exact hc.2.1, by rw [h.mem]; exact hc.2.2.1,
      by rw [h.mem]; exact hc.2.2.2, rfl⟩
    rw [h1, h2, h.mem, h.stakes]
    exact Or.inl ⟨_, _, _, rfl, rfl, ⟨rfl, rfl, h.nft, h.unlocking, h.next, h.holds⟩, Nat.le_refl _⟩
  · refine Or.inr ⟨fun r hr => hc ?_, fun r hr => hc ?_⟩
    · obtain ⟨h1, h2, h3, h4, _⟩ := stakeNft_ok_iff.1 hr
      exact ⟨h1, h2, h3, h4⟩
    · obtain ⟨h1, h2, h3, h4, _⟩ := stakeNft_ok_iff.1 hr
      rw [h.mem] at h3 h4
      rw [h.stakes] at h2
      exact ⟨h1, h2, h3, h4⟩

theorem same_addNftClaim {s t : State} (h : Alike s t) (hs : Inv s) (ht : Inv t) (k : Nat) (u : Addr) (r : ReleaseAt)
    (hr : s.nextClaim + 1 < M64) : Same (s.nextClaim + 1) (addNftClaim s k u r) (addNftClaim t k u r) := by
  have hn := h.next
  have h1 := (addClaim_ok_iff (s := s) (u := u) (a := [k]) (r := r)).2 ⟨hr, rfl⟩
  have h2 := (addClaim_ok_iff (s := t) (u := u) (a := [k]) (r := r)).2 ⟨by omega, rfl⟩
  unfold addNftClaim
  rw [h1, h2]
  refine Or.inl ⟨_, _, _, rfl, rfl, ⟨h.mem, h.stakes, h.nft, h.unlocking, Nat.succ_le_succ hn, fun p => ?_⟩, Nat.le_refl _⟩
  rw [holds_push hs, holds_push ht, h.holds p]

theorem same_unstake {s t : State} (h : Alike s t) (hs : Inv s) (ht : Inv t) (e : Env) (l : List Nat)
    (hr : s.nextClaim + 1 < M64) : Same (s.nextClaim + 1) (unstake s e l) (unstake t e l) := by
  have hn := h.next
  by_cases hc : l.Nodup ∧ (∀ t ∈ l, s.stakes.get t = some e.sender) ∧ l.length ≤ s.mem.weight e.sender ∧
      l.length ≤ s.mem.total
  · have h1 := unstake_ok_iff.2 ⟨hc.1, hc.2.1, hc.2.2.1, hc.2.2.2, hr, rfl⟩
    have h2 := (unstake_ok_iff (s := t) (e := e) (l := l)).2 ⟨hc.1, by rw [h.stakes]; exact hc.2.1,
      by rw [h.mem]; exact hc.2.2.1, by rw [h.mem]; exact hc.2.2.2, by omega, rfl⟩
    rw [h1, h2, h.mem, h.stakes]
    refine Or.inl ⟨_, _, _, rfl, rfl, ⟨rfl, rfl, h.nft, h.unlocking, Nat.succ_le_succ hn, fun p => ?_⟩, Nat.le_refl _⟩
    rw [holds_push hs, holds_push ht, h.unlocking, h.holds p]
  · refine Or.inr ⟨fun r hh => hc ?_, fun r hh => hc ?_⟩
    · obtain ⟨h1, h2, h3, h4, _⟩ := unstake_ok_iff.1 hh
      exact ⟨h1, h2, h3, h4⟩
    · obtain ⟨h1, h2, h3, h4, _⟩ := unstake_ok_iff.1 hh
      rw [h.mem] at h3 h4
      rw [h.stakes] at h2
      exact ⟨h1, h2, h3, h4⟩

/-- Whether an owner can take a claim with this release date. -/
def ripe (u : Addr) (b : Block) (v : Addr) (r : ReleaseAt) : Bool := decide (v = u) && isReleasable ⟨0, v, [], r⟩ b

theorem ripe_claim (u : Addr) (b : Block) (c : Claim) : ripe u b c.user c.release = takes u b c :=
  (takes_eq u b c).symm

theorem dueNfts_eq (s : State) (u : Addr) (b : Block) : dueNfts s u b = holds s (ripe u b) := by
  unfold dueNfts holds
  congr 1
  apply List.filter_congr
  intro c _
  rw [ripe_claim]
  rfl

theorem values_filter (m : Map Nat Claim) (p : Claim → Bool) :
    (m.filter (fun _ c => p c)).values = m.values.filter p := by
  unfold Map.values Map.filter
  simp only [List.filter_map, Function.comp_def]

theorem same_claim {s t : State} (h : Alike s t) (hs : Inv s) (ht : Inv t) (e : Env) (u : Option Addr) :
    Same s.nextClaim (claim s e u) (claim t e u) := by
  have hw : ∀ x : State, (x.claims.filter (fun _ c => takes e.sender e.block c)).values.flatMap (·.nfts) =
      holds x (ripe e.sender e.block) := by
    intro x
    rw [values_filter, ← dueNfts_eq]
    rfl
  by_cases hc : (∃ c, s.nft = .cw721 c) ∧ u.getD e.sender = e.sender
  · have h1 := (claim_ok_iff hs).2 ⟨hc.1, hc.2, rfl⟩
    have h2 := (claim_ok_iff ht).2 ⟨by rw [h.nft]; exact hc.1, hc.2, rfl⟩
    rw [h1, h2, hw, hw, h.holds]
    refine Or.inl ⟨_, _, _, rfl, rfl, ⟨h.mem, h.stakes, h.nft, h.unlocking, h.next, fun p => ?_⟩, Nat.le_refl _⟩
    have key : ∀ x : State, holds { x with claims := x.claims.filter (fun _ c => !takes e.sender e.block c) } p =
        holds x (fun v r => p v r && !ripe e.sender e.block v r) := by
      intro x
      unfold holds
      simp only
      rw [values_filter x.claims (fun c => !takes e.sender e.block c), List.filter_filter]
      congr 1
      apply List.filter_congr
      intro c _
      rw [ripe_claim]
    rw [key s, key t]
    exact h.holds _
  · refine Or.inr ⟨fun r hh => hc ?_, fun r hh => hc ?_⟩
    · obtain ⟨h1, h2, _⟩ := (claim_ok_iff hs).1 hh
      exact ⟨h1, h2⟩
    · obtain ⟨h1, h2, _⟩ := (claim_ok_iff ht).1 hh
      rw [h.nft] at h1
      exact ⟨h1, h2⟩

theorem same_exec {s t : State} (h : Alike s t) (hs : Inv s) (ht : Inv t) (e : NEnv) (m : Msg)
    (hr : s.nextClaim + m.newClaims < M64) : Same (s.nextClaim + m.newClaims) (exec s e m) (exec t e m) := by
  cases m with
  | receiveNft k x =>
    simp only [exec]
    unfold receiveNft
    have hn : nftContract t e.proxyNft = nftContract s e.proxyNft := by unfold nftContract; rw [h.nft]
    rw [hn]
    cases nftContract s e.proxyNft with
    | none => exact same_error _ _ _
    | some c =>
      by_cases hc : e.env.sender ≠ c
      · simp only [if_pos hc]; exact same_error _ _ _
      · simp only [if_neg hc]
        have h' : Alike { s with nft := .cw721 c } { t with nft := .cw721 c } :=
          ⟨h.mem, h.stakes, rfl, h.unlocking, h.next, h.holds⟩
        cases x with
        | stake u => exact same_stakeNft h' e.env k u
        | addClaim u r =>
          exact same_addNftClaim h' ⟨hs.weight, hs.wsum, hs.height, hs.seconds, hs.ids⟩
            ⟨ht.weight, ht.wsum, ht.height, ht.seconds, ht.ids⟩ k u r hr
        | unknown => exact same_error _ _ _
  | unstake l => exact same_unstake h hs ht e.env l hr
  | claim u => exact same_claim h hs ht e.env u
  | updateUnlocking p =>
    show Same _ (updateUnlocking s e.env p) (updateUnlocking t e.env p)
    unfold updateUnlocking
    split
    · exact same_error _ _ _
    · exact Or.inl ⟨_, _, _, rfl, rfl, ⟨h.mem, h.stakes, h.nft, by simp only; rw [h.unlocking], h.next, h.holds⟩,
        Nat.le_refl _⟩
  | addHook x =>
    simp only [exec]
    rw [h.mem]
    cases s.mem.addHook e.env x with
    | error y => exact same_error _ _ _
    | ok m => exact same_mem h m _
  | removeHook x =>
    simp only [exec]
    rw [h.mem]
    cases s.mem.removeHook e.env x with
    | error y => exact same_error _ _ _
    | ok m => exact same_mem h m _

theorem same_step {s t : State} (h : Alike s t) (hs : Inv s) (ht : Inv t) (c : Call)
    (hr : s.nextClaim + c.msg.newClaims < M64) :
    (step s c).2 = (step t c).2 ∧ Alike (step s c).1 (step t c).1 ∧
      (step s c).1.nextClaim ≤ s.nextClaim + c.msg.newClaims := by
  unfold step
  rcases same_exec h hs ht c.env c.msg hr with ⟨a, b, o, g1, g2, g3, g4⟩ | ⟨g1, g2⟩
  · rw [g1, g2]
    cases c.delivered
    · exact ⟨rfl, h, Nat.le_add_right _ _⟩
    · exact ⟨rfl, g3, g4⟩
  · cases h1 : exec s c.env c.msg with
    | ok r => exact absurd h1 (g1 r)
    | error x =>
      cases h2 : exec t c.env c.msg with
      | ok r => exact absurd h2 (g2 r)
      | error y => exact ⟨rfl, h, Nat.le_add_right _ _⟩

theorem same_run : ∀ (l : List Call) {s t : State}, Alike s t → Inv s → Inv t →
    s.nextClaim + newClaims l < M64 → sent s l = sent t l ∧ Alike (run s l) (run t l)
  | [], _, _, h, _, _, _ => ⟨rfl, h⟩
  | c :: l, s, t, h, hs, ht, hr => by
    have hn : newClaims (c :: l) = c.msg.newClaims + newClaims l := by simp [newClaims]
    rw [hn] at hr
    obtain ⟨g1, g2, g3⟩ := same_step h hs ht c (by omega)
    obtain ⟨i1, i2⟩ := same_run l g2 (inv_step hs c) (inv_step ht c) (by omega)
    exact ⟨by rw [sent, sent, g1, i1], i2⟩

theorem mem_twice (m : Members) (u : Addr) (w w' x x' : Nat) (b : Block) :
    (((m.setWeight u w).saveTotal x b).setWeight u w').saveTotal x' b = (m.setWeight u w').saveTotal x' b := by
  unfold Members.setWeight Members.saveTotal
  simp only [Staking.save_save, Map.set_set]

theorem step_unstake {s : State} {e : NEnv} {l : List Nat} {r : State × List Out} (h : unstake s e.env l = .ok r) :
    (step s ⟨e, .unstake l, true⟩).1 = r.1 := by
  unfold step exec
  simp only [h, if_true]

theorem get_removed (l : List Nat) (m : Map Nat Addr) (i : Nat) :
    (l.foldl (fun m t => m.remove t) m).get i = if i ∈ l then none else m.get i := by
  induction l generalizing m with
  | nil => simp
  | cons j t ih =>
    rw [List.foldl_cons, ih, Map.get_remove]
    by_cases h1 : i ∈ t
    · simp [h1]
    · by_cases h2 : j = i
      · subst h2; simp
      · have : ¬ i = j := fun hh => h2 hh.symm
        simp [h1, h2, this]

theorem parts_alike {e : NEnv} : ∀ (ls : List (List Nat)) {s : State}, Inv s → ls ≠ [] →
    ls.flatten.Nodup → (∀ t ∈ ls.flatten, s.stakes.get t = some e.env.sender) →
    ls.flatten.length ≤ s.mem.weight e.env.sender → s.nextClaim + ls.length < M64 →
    allAccepted s (inParts e ls) ∧ Alike (run s (inParts e ls)) (step s ⟨e, .unstake ls.flatten, true⟩).1 ∧
      (run s (inParts e ls)).nextClaim = s.nextClaim + ls.length
  | [], _, _, hne, _, _, _, _ => absurd rfl hne
  | l :: ls, s, hi, _, hd, ho, hw, hr => by
    rw [List.flatten_cons] at hd ho hw
    rw [List.length_append] at hw
    rw [List.length_cons] at hr
    have hwt := weight_le_total hi e.env.sender
    have hd' := List.nodup_append.1 hd
    have f0 := unstake_ok_iff.2 ⟨hd'.1, fun t ht => ho t (List.mem_append_left _ ht),
      (by omega : l.length ≤ s.mem.weight e.env.sender), (by omega : l.length ≤ s.mem.total),
      (by omega : s.nextClaim + 1 < M64), rfl⟩
    have acc : accepted s ⟨e, .unstake l, true⟩ := ⟨rfl, _, f0⟩
    have st := step_unstake (e := e) f0
    have hi' : Inv (step s ⟨e, .unstake l, true⟩).1 := inv_step hi _
    by_cases hls : ls = []
    · subst hls
      refine ⟨⟨acc, trivial⟩, ?_, ?_⟩
      · simpa [inParts, run] using Alike.refl _
      · simp [inParts, run, st]
    · have hw' : (step s ⟨e, .unstake l, true⟩).1.mem.weight e.env.sender = s.mem.weight e.env.sender - l.length := by
        rw [st]
        simp only [Members.saveTotal_weight, Members.weight_setWeight, if_true]
      have ht' : (step s ⟨e, .unstake l, true⟩).1.mem.total = s.mem.total - l.length := by rw [st]; rfl
      have hn' : (step s ⟨e, .unstake l, true⟩).1.nextClaim = s.nextClaim + 1 := by rw [st]
      have ho' : ∀ t ∈ ls.flatten, (step s ⟨e, .unstake l, true⟩).1.stakes.get t = some e.env.sender := by
        intro t ht
        rw [st]
        simp only
        rw [get_removed, if_neg (fun hh => hd'.2.2 t hh t ht rfl)]
        exact ho t (List.mem_append_right _ ht)
      obtain ⟨g1, g2, g3⟩ := parts_alike (e := e) ls hi' hls hd'.2.1 ho' (by rw [hw']; omega) (by rw [hn']; omega)
      refine ⟨⟨acc, g1⟩, g2.trans ?_, by rw [List.length_cons]; rw [hn'] at g3; exact g3.trans (by omega)⟩
      have hlen : 0 < ls.length := List.length_pos_iff.2 hls
      have f1 := unstake_ok_iff.2 ⟨hd'.2.1, ho', (by rw [hw']; omega : ls.flatten.length ≤ _),
        (by rw [ht']; omega : ls.flatten.length ≤ _), (by rw [hn']; omega : _ + 1 < M64), rfl⟩
      have f2 := unstake_ok_iff.2 ⟨hd, ho, (by rw [List.length_append]; exact hw : (l ++ ls.flatten).length ≤ _),
        (by rw [List.length_append]; omega : (l ++ ls.flatten).length ≤ s.mem.total), (by omega : s.nextClaim + 1 < M64), rfl⟩
      rw [List.flatten_cons, step_unstake f1, step_unstake f2]
      refine ⟨?_, ?_, by rw [st], by rw [st], by simp only; omega, fun p => ?_⟩
      · simp only
        rw [hw', ht', st]
        simp only
        rw [mem_twice, Nat.sub_sub, Nat.sub_sub, List.length_append]
      · simp only
        rw [st, List.foldl_append]
      · rw [holds_push hi', holds_push hi]
        rw [st, holds_push hi]
        simp only
        split <;> simp

/-! ## C187 -/

/-- C187, NFTs. Whenever unstaking NFTs at once is accepted, so is unstaking them in parts within a block; whatever
happens afterwards, the same messages go out (NFTs are sent back in the same order, too), the same NFTs are staked,
weights and total weights (now and in the past) are the same, and everybody can claim the same NFTs at every time. -/
theorem C187_nfts {s : State} (hs : Reachable s) (e : NEnv) {ls : List (List Nat)} (hne : ls ≠ [])
    (ha : accepted s ⟨e, .unstake ls.flatten, true⟩) (h : List Call)
    (hr : s.nextClaim + ls.length + newClaims h < 2 ^ 64) :
    allAccepted s (inParts e ls) ∧
    sent (run s (inParts e ls)) h = sent (run s [⟨e, .unstake ls.flatten, true⟩]) h ∧
    (∀ i, (run s (inParts e ls ++ h)).stakes.get i = (run s (⟨e, .unstake ls.flatten, true⟩ :: h)).stakes.get i) ∧
    (∀ u, queryWeight (run s (inParts e ls ++ h)) u = queryWeight (run s (⟨e, .unstake ls.flatten, true⟩ :: h)) u) ∧
    (∀ a, queryTotal (run s (inParts e ls ++ h)) a = queryTotal (run s (⟨e, .unstake ls.flatten, true⟩ :: h)) a) ∧
    ∀ u b, dueNfts (run s (inParts e ls ++ h)) u b = dueNfts (run s (⟨e, .unstake ls.flatten, true⟩ :: h)) u b := by
  have hi := hs.inv
  have hm : M64 = 2 ^ 64 := rfl
  rw [← hm] at hr
  obtain ⟨_, x, hx⟩ := ha
  obtain ⟨h1, h2, h3, _⟩ := unstake_ok_iff.1 (show unstake s e.env ls.flatten = .ok x from hx)
  obtain ⟨g1, g2, g3⟩ := parts_alike (e := e) ls hi hne h1 h2 h3 (by omega)
  have r : ∀ (l l' : List Call) (x : State), run x (l ++ l') = run (run x l) l' := by
    intro l
    induction l with
    | nil => intro l' x; rfl
    | cons c l ih => intro l' x; exact ih l' _
  obtain ⟨i1, i2⟩ := same_run h g2 (inv_run hi _) (inv_step hi _) (by rw [g3]; exact hr)
  refine ⟨g1, i1, fun i => ?_, fun u => ?_, fun a => ?_, fun u b => ?_⟩
  · rw [r]
    show _ = (run (step s _).1 h).stakes.get i
    rw [i2.stakes]
  · rw [r]
    show Members.weight _ u = Members.weight (run (step s _).1 h).mem u
    rw [i2.mem]
  · rw [r]
    show queryTotal _ a = queryTotal (run (step s _).1 h) a
    cases a <;> simp only [queryTotal, i2.mem]
  · rw [r, dueNfts_eq]
    show _ = dueNfts (run (step s _).1 h) u b
    rw [dueNfts_eq]
    exact i2.holds _

/-- User 1 unstakes the NFTs 102 and 101 one by one, and more messages follow. -/
example : Reachable (run smpInit (smp.take 5)) ∧
    accepted (run smpInit (smp.take 5)) ⟨smpEnv 14 1, .unstake ([[102], [], [101]] : List (List Nat)).flatten, true⟩ ∧
    (run smpInit (smp.take 5)).nextClaim + 3 + newClaims smp < 2 ^ 64 ∧
    dueNfts (run smpInit (smp.take 5 ++ inParts (smpEnv 14 1) [[102], [], [101]])) 1 ⟨200, 200 * 10 ^ 9⟩ = [102, 101] :=
  ⟨smp_reachable 5, by decide +kernel⟩

end Verif.Nft
