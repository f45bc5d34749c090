import Verif.Nft.Spec
import Verif.Base.SnapSteps
import Verif.Staking.Lemmas2

/-!
# NFT staking: helper lemmas
-/

set_option linter.unusedSimpArgs false

namespace Verif.Nft
open Verif
open Verif.Staking (Duration ReleaseAt releaseAt)

theorem addClaim_ok_iff {s s' : State} {u : Addr} {a : List Nat} {r : ReleaseAt} :
    addClaim s u a r = .ok s' ↔ s.nextClaim + 1 < M64 ∧
      s' = { s with nextClaim := s.nextClaim + 1, claims := s.claims.set s.nextClaim ⟨s.nextClaim, u, a, r⟩ } := by
  unfold addClaim
  rw [bind_ok_iff]
  simp only [cadd64_ok, pure_ok_iff]
  constructor
  · rintro ⟨w, ⟨h1, rfl⟩, rfl⟩; exact ⟨h1, rfl⟩
  · rintro ⟨h1, rfl⟩; exact ⟨_, ⟨h1, rfl⟩, rfl⟩

theorem stakeNft_ok_iff {s : State} {e : Env} {t : Nat} {u : Addr} {r : State × List Out} :
    stakeNft s e t u = .ok r ↔ e.restricted u = false ∧ s.stakes.has t = false ∧
      s.mem.weight u + 1 < M128 ∧ s.mem.total + 1 < M128 ∧
      r = ({ s with
              stakes := s.stakes.set t u
              mem := (s.mem.setWeight u (s.mem.weight u + 1)).saveTotal (s.mem.total + 1) e.block },
        s.mem.report [⟨u, s.mem.weight u, s.mem.weight u + 1⟩]) := by
  unfold stakeNft
  simp only [ite_ok_iff, bind_ok_iff, Members.incWeight_ok_iff, Members.incTotal_ok_iff, pure_ok_iff,
    Bool.not_eq_true]
  constructor
  · rintro ⟨h0, h00, _, ⟨h1, rfl⟩, _, ⟨h2, rfl⟩, rfl⟩
    exact ⟨h0, h00, h1, h2, rfl⟩
  · rintro ⟨h0, h00, h1, h2, rfl⟩
    exact ⟨h0, h00, _, ⟨h1, rfl⟩, _, ⟨h2, rfl⟩, rfl⟩

theorem takeStake_ok_iff {u : Addr} {st st' : Map Nat Addr} {t : Nat} :
    takeStake u st t = .ok st' ↔ st.get t = some u ∧ st' = st.remove t := by
  unfold takeStake
  cases hg : st.get t with
  | none => simp
  | some a =>
    simp only [ite_ok_iff, ne_eq, not_not, Option.some.injEq]
    constructor
    · rintro ⟨h1, h2⟩; cases h2; exact ⟨h1, rfl⟩
    · rintro ⟨h1, h2⟩; exact ⟨h1, by rw [h2]⟩

/-- The loop of `unstake`: succeeds exactly on distinct tokens staked by the user. -/
theorem takeStakes_ok_iff {u : Addr} : ∀ (l : List Nat) {st st' : Map Nat Addr},
    l.foldlM (takeStake u) st = .ok st' ↔ l.Nodup ∧ (∀ t ∈ l, st.get t = some u) ∧
      st' = l.foldl (fun m t => m.remove t) st := by
  intro l
  induction l with
  | nil => intro st st'; rw [foldlM_nil_ok_iff]; simp [eq_comm]
  | cons x t ih =>
    intro st st'
    rw [foldlM_cons_ok_iff]
    simp only [takeStake_ok_iff]
    constructor
    · rintro ⟨_, ⟨h1, rfl⟩, h2⟩
      obtain ⟨h3, h4, h5⟩ := ih.1 h2
      refine ⟨List.nodup_cons.2 ⟨?_, h3⟩, ?_, h5⟩
      · intro hx
        have := h4 x hx
        rw [Map.get_remove] at this
        simp at this
      · intro y hy
        rcases List.mem_cons.1 hy with rfl | hy
        · exact h1
        · have := h4 y hy
          rw [Map.get_remove] at this
          split at this
          · cases this
          · exact this
    · rintro ⟨h1, h2, h3⟩
      rw [List.nodup_cons] at h1
      refine ⟨_, ⟨h2 x List.mem_cons_self, rfl⟩, ih.2 ⟨h1.2, ?_, h3⟩⟩
      intro y hy
      rw [Map.get_remove, if_neg]
      · exact h2 y (List.mem_cons_of_mem _ hy)
      · rintro rfl; exact h1.1 hy

theorem get_removes (l : List Nat) (m : Map Nat Addr) (i : Nat) :
    (l.foldl (fun m i => m.remove i) m).get i = if i ∈ l then none else m.get i := by
  induction l generalizing m with
  | nil => simp
  | cons j t ih =>
    rw [List.foldl_cons, ih, Map.get_remove]
    by_cases h1 : i ∈ t
    · simp [h1]
    · by_cases h2 : j = i
      · subst h2; simp
      · have : ¬ i = j := fun hh => h2 hh.symm
        simp [h1, h2, this]

theorem sum_removes {u : Addr} (f : Nat → Addr → Nat) : ∀ (l : List Nat) (m : Map Nat Addr), l.Nodup →
    (∀ t ∈ l, m.get t = some u) →
    (l.foldl (fun m i => m.remove i) m).sum f + (l.map (fun t => f t u)).sum = m.sum f := by
  intro l
  induction l with
  | nil => intro m _ _; simp
  | cons x t ih =>
    intro m h1 h2
    rw [List.nodup_cons] at h1
    have h3 := ih (m.remove x) h1.2 (by
      intro y hy
      rw [Map.get_remove, if_neg]
      · exact h2 y (List.mem_cons_of_mem _ hy)
      · rintro rfl; exact h1.1 hy)
    have h4 := m.sum_remove f x
    rw [h2 x List.mem_cons_self, Map.contrib_some] at h4
    simp only [List.foldl_cons, List.map_cons, List.sum_cons]
    omega

theorem unstake_ok_iff {s : State} {e : Env} {l : List Nat} {r : State × List Out} :
    unstake s e l = .ok r ↔ l.Nodup ∧ (∀ t ∈ l, s.stakes.get t = some e.sender) ∧
      l.length ≤ s.mem.weight e.sender ∧ l.length ≤ s.mem.total ∧ s.nextClaim + 1 < M64 ∧
      r = ({ s with
              stakes := l.foldl (fun m t => m.remove t) s.stakes
              mem := (s.mem.setWeight e.sender (s.mem.weight e.sender - l.length)).saveTotal
                (s.mem.total - l.length) e.block
              nextClaim := s.nextClaim + 1
              claims := s.claims.set s.nextClaim ⟨s.nextClaim, e.sender, l, releaseAt s.unlocking e.block⟩ },
        s.mem.report [⟨e.sender, s.mem.weight e.sender, s.mem.weight e.sender - l.length⟩]) := by
  unfold unstake
  simp only [bind_ok_iff, takeStakes_ok_iff, Members.decWeight_ok_iff, Members.decTotal_ok_iff, addClaim_ok_iff,
    pure_ok_iff]
  constructor
  · rintro ⟨_, ⟨h1, h2, rfl⟩, _, ⟨h3, rfl⟩, _, ⟨h4, rfl⟩, _, ⟨h5, rfl⟩, rfl⟩
    exact ⟨h1, h2, h3, h4, h5, rfl⟩
  · rintro ⟨h1, h2, h3, h4, h5, rfl⟩
    exact ⟨_, ⟨h1, h2, rfl⟩, _, ⟨h3, rfl⟩, _, ⟨h4, rfl⟩, _, ⟨h5, rfl⟩, rfl⟩

theorem updateUnlocking_ok_iff {s : State} {e : Env} {p : Option Duration} {r : State × List Out} :
    updateUnlocking s e p = .ok r ↔ e.sender = e.controller ∧
      r = ({ s with unlocking := p.getD s.unlocking }, []) := by
  unfold updateUnlocking
  rw [ite_ok_iff]
  simp [eq_comm]

/-- Invariant of every reachable state. -/
structure Inv (s : State) : Prop where
  weight : ∀ u, s.mem.weight u = s.stakes.sum (fun _ v => if v = u then 1 else 0)
  wsum : s.mem.wsum = s.stakes.size
  height : s.mem.byHeight.cur = some s.stakes.size
  seconds : s.mem.bySeconds.cur = some s.stakes.size
  ids : ∀ i c, s.claims.get i = some c → c.id = i ∧ i < s.nextClaim

theorem Inv.total {s : State} (h : Inv s) : s.mem.total = s.stakes.size := by
  unfold Members.total Snap.load
  rw [h.height]; rfl

theorem Inv.fresh {s : State} (h : Inv s) : s.claims.get s.nextClaim = none := by
  cases hg : s.claims.get s.nextClaim with
  | none => rfl
  | some c => have := (h.ids _ _ hg).2; omega

/-- A claim that `user` can take at block `b`. -/
def takes (user : Addr) (b : Block) (c : Claim) : Bool := decide (Due user b c)

theorem takes_eq (u : Addr) (b : Block) (c : Claim) :
    takes u b c = (decide (c.user = u) && isReleasable c b) := by
  unfold takes isReleasable
  rw [Bool.eq_iff_iff]
  simp only [Bool.and_eq_true, decide_eq_true_eq]
  unfold Due
  cases c.release <;> simp

theorem getReleasable_eq (s : State) (b : Block) (u : Addr) :
    getReleasable s b u = (s.claims.filter (fun _ c => takes u b c)).values := by
  unfold getReleasable Map.values Map.filter
  rw [List.filter_filter, List.filter_map]
  congr 1
  apply List.filter_congr
  intro x _
  simp [Function.comp, Bool.and_comm, takes_eq]

theorem mem_getReleasable {s : State} (hi : Inv s) {b : Block} {u : Addr} {c : Claim} :
    c ∈ getReleasable s b u ↔ s.claims.get c.id = some c ∧ Due u b c := by
  rw [getReleasable_eq]
  unfold Map.values Map.filter
  simp only [List.mem_map, List.mem_filter]
  constructor
  · rintro ⟨e, ⟨h1, h2⟩, rfl⟩
    have hg := Map.get_eq_some_iff.2 (show (e.1, e.2) ∈ s.claims.entries from h1)
    have := (hi.ids _ _ hg).1
    rw [this]
    exact ⟨hg, of_decide_eq_true h2⟩
  · rintro ⟨h1, h2⟩
    exact ⟨(c.id, c), ⟨Map.get_eq_some_iff.1 h1, decide_eq_true h2⟩, rfl⟩

theorem get_removes_claims (l : List Claim) (m : Map Nat Claim) (i : Nat) :
    (l.foldl (fun m c => m.remove c.id) m).get i = if i ∈ l.map (·.id) then none else m.get i := by
  induction l generalizing m with
  | nil => simp
  | cons j t ih =>
    rw [List.foldl_cons, ih, Map.get_remove]
    by_cases h1 : i ∈ t.map (·.id)
    · simp [h1]
    · by_cases h2 : j.id = i
      · subst h2; simp
      · have : ¬ i = j.id := fun hh => h2 hh.symm
        simp only [h1, h2, if_false, List.map_cons, List.mem_cons, this, or_self]

theorem claim_ok_iff {s : State} (hi : Inv s) {e : Env} {u : Option Addr} {r : State × List Out} :
    claim s e u = .ok r ↔ (∃ c, s.nft = .cw721 c) ∧ u.getD e.sender = e.sender ∧
      r = ({ s with claims := s.claims.filter (fun _ c => !takes e.sender e.block c) },
        ((s.claims.filter (fun _ c => takes e.sender e.block c)).values.flatMap (·.nfts)).map
          (fun t => .sendNft e.sender t)) := by
  unfold claim
  cases hn : s.nft with
  | ics721 p => simp
  | cw721 c =>
    simp only [ite_ok_iff, ne_eq, not_not]
    have hc : ∀ v, (getReleasable s e.block v).foldl (fun m c => m.remove c.id) s.claims =
        s.claims.filter (fun _ c => !takes v e.block c) := by
      intro v
      apply Map.ext_get
      intro i
      rw [get_removes_claims, Map.get_filter]
      cases hg : s.claims.get i with
      | none => simp
      | some c =>
        have hid := (hi.ids _ _ hg).1
        by_cases ht : takes v e.block c = true
        · rw [if_pos]
          · simp [Option.filter, ht]
          · rw [List.mem_map]
            exact ⟨c, (mem_getReleasable hi).2 ⟨by rw [hid]; exact hg, of_decide_eq_true ht⟩, hid⟩
        · rw [if_neg]
          · simp [Option.filter, ht]
          · rw [List.mem_map]
            rintro ⟨d, hd, hdi⟩
            have := (mem_getReleasable hi).1 hd
            rw [hdi, hg] at this
            obtain ⟨h1, h2⟩ := this
            cases h1
            exact ht (decide_eq_true h2)
    constructor
    · rintro ⟨h1, h2⟩
      rw [← h1] at h2
      refine ⟨⟨c, rfl⟩, h1.symm, ?_⟩
      rw [hc, getReleasable_eq] at h2
      cases h2; rfl
    · rintro ⟨_, h1, rfl⟩
      rw [h1, hc, getReleasable_eq]
      exact ⟨rfl, rfl⟩

theorem receiveNft_ok_iff {s : State} {e : NEnv} {t : Nat} {h : Hook} {r : State × List Out} :
    receiveNft s e t h = .ok r ↔ nftContract s e.proxyNft = some e.env.sender ∧
      ((∃ u, h = .stake u ∧ stakeNft { s with nft := .cw721 e.env.sender } e.env t u = .ok r) ∨
       (∃ u d, h = .addClaim u d ∧ addNftClaim { s with nft := .cw721 e.env.sender } t u d = .ok r)) := by
  unfold receiveNft
  cases hn : nftContract s e.proxyNft with
  | none => simp
  | some c =>
    simp only [ite_ok_iff, ne_eq, not_not, Option.some.injEq]
    constructor
    · rintro ⟨rfl, h2⟩
      refine ⟨rfl, ?_⟩
      cases h with
      | stake u => exact Or.inl ⟨u, rfl, h2⟩
      | addClaim u d => exact Or.inr ⟨u, d, rfl, h2⟩
      | unknown => cases h2
    · rintro ⟨rfl, ⟨u, rfl, h2⟩ | ⟨u, d, rfl, h2⟩⟩
      · exact ⟨rfl, h2⟩
      · exact ⟨rfl, h2⟩

theorem addNftClaim_ok_iff {s : State} {t : Nat} {u : Addr} {d : ReleaseAt} {r : State × List Out} :
    addNftClaim s t u d = .ok r ↔ s.nextClaim + 1 < M64 ∧
      r = ({ s with
              nextClaim := s.nextClaim + 1
              claims := s.claims.set s.nextClaim ⟨s.nextClaim, u, [t], d⟩ }, []) := by
  unfold addNftClaim
  simp only [bind_ok_iff, addClaim_ok_iff, pure_ok_iff]
  constructor
  · rintro ⟨_, ⟨h1, rfl⟩, rfl⟩; exact ⟨h1, rfl⟩
  · rintro ⟨h1, rfl⟩; exact ⟨_, ⟨h1, rfl⟩, rfl⟩

theorem inv_init (b : Block) (nft : NftAddr) (u : Duration) (hooks : List Addr) (x y : List (Nat × Nat)) :
    Inv (init b nft u hooks x y) := by
  constructor
  · intro v; rfl
  · rfl
  · rfl
  · rfl
  · intro i c h
    simp [init] at h

/-- Tokens sent back by a list of sub-messages. -/
def sentBack (outs : List Out) (t : Nat) : Nat :=
  outs.countP (returns t)

/-- Token announced by a message. -/
def Msg.arrives (m : Msg) (t : Nat) : Nat := if m.brings t then 1 else 0

/-- What a successful message does, seen from the invariants. -/
structure Effect (s : State) (e : NEnv) (m : Msg) (s' : State) (outs : List Out) : Prop where
  inv : Inv s'
  owed : ∀ t, owed s' t + sentBack outs t = owed s t + m.arrives t
  byHeight : s'.mem.byHeight = s.mem.byHeight ∨ ∃ v, s'.mem.byHeight = s.mem.byHeight.save v e.env.block.height
  bySeconds : s'.mem.bySeconds = s.mem.bySeconds ∨ ∃ v, s'.mem.bySeconds = s.mem.bySeconds.save v e.env.block.seconds
  next : s.nextClaim ≤ s'.nextClaim
  old : ∀ i, i < s.nextClaim → s'.claims.get i = none ∨ s'.claims.get i = s.claims.get i

theorem sentBack_report (m : Members) (cs : List WeightChange) (t : Nat) : sentBack (m.report cs) t = 0 := by
  unfold sentBack Members.report
  rw [List.countP_eq_zero]
  intro o ho
  obtain ⟨h, _, rfl⟩ := List.mem_map.1 ho
  simp [returns]

theorem sum_map_const {α : Type} (l : List α) (c : Nat) : (l.map (fun _ => c)).sum = l.length * c := by
  induction l with
  | nil => simp
  | cons x t ih => simp only [List.map_cons, List.sum_cons, ih, List.length_cons, Nat.add_mul]; omega

theorem size_eq_sum (m : Map Nat Addr) : m.size = m.sum (fun _ _ => 1) := by
  unfold Map.size Map.sum
  rw [sum_map_const, Nat.mul_one]

theorem has_eq_contrib (m : Map Nat Addr) (t : Nat) :
    (if m.has t then 1 else 0) = Map.contrib (fun _ _ => 1) t (m.get t) := by
  unfold Map.has
  cases m.get t <;> simp [Map.contrib]

theorem effect_stake {s : State} (hi : Inv s) {e : NEnv} {t : Nat} {u : Addr} {h : Hook} {r : State × List Out}
    {nft : NftAddr} (hr : stakeNft { s with nft := nft } e.env t u = .ok r) :
    Effect s e (.receiveNft t h) r.1 r.2 := by
  obtain ⟨h0, h00, h1, h2, rfl⟩ := stakeNft_ok_iff.1 hr
  simp only at h00 h1 h2
  have hg : s.stakes.get t = none := by
    cases hg : s.stakes.get t with
    | none => rfl
    | some v => rw [Map.has_iff.2 ⟨v, hg⟩] at h00; cases h00
  have hsz : (s.stakes.set t u).size = s.stakes.size + 1 := by rw [Map.size_set, h00]; rfl
  have hw := Members.wsum_setWeight s.mem u (s.mem.weight u + 1)
  have ht := hi.total
  have hws := hi.wsum
  constructor
  · constructor
    · intro v
      have hs := s.stakes.sum_set (fun _ w => if w = v then 1 else 0) t u
      rw [hg] at hs
      simp only [Map.contrib_none, Nat.add_zero] at hs
      simp only [Members.saveTotal_weight, Members.weight_setWeight, hs, hi.weight]
      by_cases huv : v = u
      · subst huv; simp
      · have : ¬ u = v := fun hh => huv hh.symm
        simp [huv, this]
    · simp only [Members.saveTotal_wsum, hsz]; omega
    · simp only [Members.saveTotal, Snap.cur_save, hsz, ht]
    · simp only [Members.saveTotal, Snap.cur_save, hsz, ht]
    · exact hi.ids
  · intro t'
    simp only [Nft.owed, sentBack_report, Msg.arrives, Msg.brings, Bool.false_eq_true, if_false, Map.has_set]
    by_cases htt : t = t'
    · subst htt; simp [h00]; omega
    · simp [htt]
  · exact Or.inr ⟨_, rfl⟩
  · exact Or.inr ⟨_, rfl⟩
  · exact le_refl _
  · intro i _; exact Or.inr rfl

theorem effect_addClaim {s : State} (hi : Inv s) {e : NEnv} {t : Nat} {u : Addr} {d : ReleaseAt} {h : Hook}
    {r : State × List Out} {nft : NftAddr} (hr : addNftClaim { s with nft := nft } t u d = .ok r) :
    Effect s e (.receiveNft t h) r.1 r.2 := by
  obtain ⟨h0, rfl⟩ := addNftClaim_ok_iff.1 hr
  simp only at h0
  constructor
  · constructor
    · exact hi.weight
    · exact hi.wsum
    · exact hi.height
    · exact hi.seconds
    · intro i c hc
      simp only [Map.get_set] at hc ⊢
      split at hc
      · rename_i hii
        cases hc
        exact ⟨hii, by omega⟩
      · have := hi.ids i c hc
        exact ⟨this.1, by omega⟩
  · intro t'
    have hs := s.claims.sum_set (fun _ c => c.nfts.count t') s.nextClaim ⟨s.nextClaim, u, [t], d⟩
    rw [hi.fresh] at hs
    simp only [Map.contrib_none, Nat.add_zero] at hs
    simp only [Nft.owed, hs, sentBack, List.countP_nil, Msg.arrives, Msg.brings, Bool.false_eq_true, if_false, List.count_singleton]
    by_cases htt : t = t'
    · subst htt; simp; omega
    · simp [htt]
  · exact Or.inl rfl
  · exact Or.inl rfl
  · simp only; omega
  · intro i hlt
    right
    simp only
    rw [Map.get_set_ne _ _ (by omega)]

theorem effect_unstake {s : State} (hi : Inv s) {e : NEnv} {l : List Nat} {r : State × List Out}
    (hr : unstake s e.env l = .ok r) : Effect s e (.unstake l) r.1 r.2 := by
  obtain ⟨h1, h2, h3, h4, h5, rfl⟩ := unstake_ok_iff.1 hr
  have hw := Members.wsum_setWeight s.mem e.env.sender (s.mem.weight e.env.sender - l.length)
  have ht := hi.total
  have hws := hi.wsum
  have hsum := fun f => sum_removes (u := e.env.sender) f l s.stakes h1 h2
  have hsz : (l.foldl (fun m t => m.remove t) s.stakes).size + l.length = s.stakes.size := by
    rw [size_eq_sum, size_eq_sum, ← hsum (fun _ _ => 1), sum_map_const, Nat.mul_one]
  constructor
  · constructor
    · intro v
      have hs := hsum (fun _ w => if w = v then 1 else 0)
      have hwv := hi.weight v
      simp only [Members.saveTotal_weight, Members.weight_setWeight]
      by_cases huv : v = e.env.sender
      · subst huv
        simp only [if_true, sum_map_const, Nat.mul_one] at hs ⊢
        omega
      · have : ¬ e.env.sender = v := fun hh => huv hh.symm
        simp only [huv, this, if_false, sum_map_const, Nat.mul_zero,
          Nat.add_zero] at hs ⊢
        omega
    · simp only [Members.saveTotal_wsum]; omega
    · simp only [Members.saveTotal, Snap.cur_save]; congr 1; omega
    · simp only [Members.saveTotal, Snap.cur_save]; congr 1; omega
    · intro i c hc
      simp only [Map.get_set] at hc ⊢
      split at hc
      · rename_i hii
        cases hc
        exact ⟨hii, by omega⟩
      · have := hi.ids i c hc
        exact ⟨this.1, by omega⟩
  · intro t'
    have hs := s.claims.sum_set (fun _ c => c.nfts.count t') s.nextClaim
      ⟨s.nextClaim, e.env.sender, l, releaseAt s.unlocking e.env.block⟩
    rw [hi.fresh] at hs
    simp only [Map.contrib_none, Nat.add_zero] at hs
    simp only [Nft.owed, hs, sentBack_report, Msg.arrives, Msg.brings, Bool.false_eq_true, if_false, has_eq_contrib, get_removes]
    by_cases htt : t' ∈ l
    · rw [if_pos htt, h2 t' htt, h1.count, if_pos htt]
      simp only [Map.contrib_none, Map.contrib_some]
      omega
    · rw [if_neg htt, h1.count, if_neg htt]
      omega
  · exact Or.inr ⟨_, rfl⟩
  · exact Or.inr ⟨_, rfl⟩
  · simp only; omega
  · intro i hlt
    right
    simp only
    rw [Map.get_set_ne _ _ (by omega)]

theorem count_flatMap_entries (l : List (Nat × Claim)) (p : Claim → Bool) (t : Nat) :
    ((l.filter (fun e => p e.2)).map (·.2) |>.flatMap (·.nfts)).count t +
      ((l.filter (fun e => !p e.2)).map (fun e => e.2.nfts.count t)).sum =
    (l.map (fun e => e.2.nfts.count t)).sum := by
  induction l with
  | nil => rfl
  | cons x l ih =>
    rw [List.filter_cons, List.filter_cons, List.map_cons, List.sum_cons]
    by_cases hp : p x.2 = true
    · simp only [hp, if_true, Bool.not_true, Bool.false_eq_true, if_false, List.map_cons, List.flatMap_cons,
        List.count_append]
      omega
    · simp only [hp, Bool.false_eq_true, if_false, Bool.not_false, if_true, List.map_cons, List.sum_cons]
      omega

theorem sentBack_sendNft (u : Addr) (l : List Nat) (t : Nat) :
    sentBack (l.map (fun x => .sendNft u x)) t = l.count t := by
  unfold sentBack List.count
  rw [List.countP_map]
  apply List.countP_congr
  intro x _
  simp [returns]

theorem effect_claim {s : State} (hi : Inv s) {e : NEnv} {u : Option Addr} {r : State × List Out}
    (hr : claim s e.env u = .ok r) : Effect s e (.claim u) r.1 r.2 := by
  obtain ⟨h0, h1, rfl⟩ := (claim_ok_iff hi).1 hr
  have hget : ∀ i, (s.claims.filter (fun _ c => !takes e.env.sender e.env.block c)).get i = none ∨
      (s.claims.filter (fun _ c => !takes e.env.sender e.env.block c)).get i = s.claims.get i := by
    intro i
    rw [Map.get_filter]
    cases hg : s.claims.get i with
    | none => exact Or.inl rfl
    | some c =>
      by_cases hp : takes e.env.sender e.env.block c = true
      · left; simp [Option.filter, hp]
      · right; simp [Option.filter, hp]
  constructor
  · constructor
    · exact hi.weight
    · exact hi.wsum
    · exact hi.height
    · exact hi.seconds
    · intro i c hc
      simp only at hc ⊢
      rcases hget i with h | h
      · rw [h] at hc; cases hc
      · rw [h] at hc; exact hi.ids i c hc
  · intro t
    have := count_flatMap_entries s.claims.entries (takes e.env.sender e.env.block) t
    simp only [Nft.owed, sentBack_sendNft, Msg.arrives, Msg.brings, Bool.false_eq_true, if_false, Map.sum, Map.values, Map.filter]
    omega
  · exact Or.inl rfl
  · exact Or.inl rfl
  · exact le_refl _
  · intro i _; exact hget i

theorem effect_same {s s' : State} (hi : Inv s) {e : NEnv} {m : Msg} (hm : ∀ t, m.arrives t = 0)
    (h1 : s'.mem.weights = s.mem.weights) (h2 : s'.mem.byHeight = s.mem.byHeight)
    (h3 : s'.mem.bySeconds = s.mem.bySeconds) (h4 : s'.claims = s.claims) (h5 : s'.nextClaim = s.nextClaim)
    (h6 : s'.stakes = s.stakes) : Effect s e m s' [] := by
  have hw : s'.mem.wsum = s.mem.wsum := by unfold Members.wsum; rw [h1]
  constructor
  · constructor
    · intro u; rw [h6, ← hi.weight u]; unfold Members.weight; rw [h1]
    · rw [hw, h6]; exact hi.wsum
    · rw [h2, h6]; exact hi.height
    · rw [h3, h6]; exact hi.seconds
    · rw [h4, h5]; exact hi.ids
  · intro t
    simp [Nft.owed, h6, h4, hm, sentBack]
  · exact Or.inl h2
  · exact Or.inl h3
  · rw [h5]
  · intro i _; right; rw [h4]

theorem effect_exec {s : State} (hi : Inv s) {e : NEnv} {m : Msg} {r : State × List Out}
    (h : exec s e m = .ok r) : Effect s e m r.1 r.2 := by
  cases m with
  | receiveNft t hk =>
    simp only [exec] at h
    obtain ⟨_, ⟨u, rfl, h1⟩ | ⟨u, d, rfl, h1⟩⟩ := receiveNft_ok_iff.1 h
    · exact effect_stake hi h1
    · exact effect_addClaim hi h1
  | unstake l => exact effect_unstake hi h
  | claim u => exact effect_claim hi h
  | updateUnlocking p =>
    obtain ⟨_, rfl⟩ := updateUnlocking_ok_iff.1 h
    exact effect_same hi (fun _ => rfl) rfl rfl rfl rfl rfl rfl
  | addHook a =>
    simp only [exec, bind_ok_iff, Members.addHook, ite_ok_iff, pure_ok_iff] at h
    obtain ⟨m, ⟨_, h1⟩, rfl⟩ := h
    cases h1
    exact effect_same hi (fun _ => rfl) rfl rfl rfl rfl rfl rfl
  | removeHook a =>
    simp only [exec, bind_ok_iff, Members.removeHook, ite_ok_iff, pure_ok_iff] at h
    obtain ⟨m, ⟨_, h1⟩, rfl⟩ := h
    cases h1
    exact effect_same hi (fun _ => rfl) rfl rfl rfl rfl rfl rfl

/-- A message that is not accepted changes nothing; an accepted one has its effect. -/
theorem step_cases (s : State) (c : Call) :
    (accepted s c ∧ ∃ r, exec s c.env c.msg = .ok r ∧ step s c = r) ∨
    (¬ accepted s c ∧ step s c = (s, [])) := by
  unfold step accepted
  cases he : exec s c.env c.msg with
  | error x => right; exact ⟨(by rintro ⟨_, r, h⟩; cases h), rfl⟩
  | ok r =>
    cases hd : c.delivered with
    | true => left; exact ⟨⟨rfl, r, rfl⟩, r, rfl, rfl⟩
    | false => right; exact ⟨(by rintro ⟨h, _⟩; cases h), rfl⟩

theorem inv_step {s : State} (hi : Inv s) (c : Call) : Inv (step s c).1 := by
  rcases step_cases s c with ⟨_, r, h1, h2⟩ | ⟨_, h2⟩
  · rw [h2]; exact (effect_exec hi h1).inv
  · rw [h2]; exact hi

theorem inv_run {s : State} (hi : Inv s) (h : List Call) : Inv (run s h) := by
  induction h generalizing s with
  | nil => exact hi
  | cons c t ih => exact ih (inv_step hi c)

theorem Reachable.inv {s : State} (h : Reachable s) : Inv s := by
  obtain ⟨b, as, u, hk, x, y, h, rfl⟩ := h
  exact inv_run (inv_init b as u hk x y) h

theorem run_append (s : State) (h1 h2 : List Call) : run s (h1 ++ h2) = run (run s h1) h2 := by
  induction h1 generalizing s with
  | nil => rfl
  | cons c t ih => exact ih _

theorem reachable_step {s : State} (h : Reachable s) (c : Call) : Reachable (step s c).1 := by
  obtain ⟨b, as, u, hk, x, y, h, rfl⟩ := h
  exact ⟨b, as, u, hk, x, y, h ++ [c], by rw [run_append]; rfl⟩

theorem byHeight_steps {s : State} (hi : Inv s) (h : List Call) :
    s.mem.byHeight.Steps (h.map (·.env.env.block.height)) (run s h).mem.byHeight := by
  induction h generalizing s with
  | nil => exact .nil _
  | cons c t ih =>
    refine Snap.Steps.cons ?_ (ih (inv_step hi c))
    rcases step_cases s c with ⟨_, r, h1, h2⟩ | ⟨_, h2⟩
    · rw [h2]; exact (effect_exec hi h1).byHeight
    · rw [h2]; exact Or.inl rfl

theorem bySeconds_steps {s : State} (hi : Inv s) (h : List Call) :
    s.mem.bySeconds.Steps (h.map (·.env.env.block.seconds)) (run s h).mem.bySeconds := by
  induction h generalizing s with
  | nil => exact .nil _
  | cons c t ih =>
    refine Snap.Steps.cons ?_ (ih (inv_step hi c))
    rcases step_cases s c with ⟨_, r, h1, h2⟩ | ⟨_, h2⟩
    · rw [h2]; exact (effect_exec hi h1).bySeconds
    · rw [h2]; exact Or.inl rfl

theorem init_logs {b : Block} {nft : NftAddr} {u : Duration} {hooks : List Addr} {x y : List (Nat × Nat)} {j : Nat} :
    ((init b nft u hooks x y).mem.byHeight.log.has j = true → j = b.height ∨ j ∈ x.map (·.2)) ∧
    ((init b nft u hooks x y).mem.bySeconds.log.has j = true → j = b.seconds ∨ j ∈ y.map (·.2)) :=
  Staking.init_logs (asset := 0) (u := u) (hooks := hooks)

theorem old_run {s : State} (hi : Inv s) (h : List Call) :
    s.nextClaim ≤ (run s h).nextClaim ∧
    ∀ i, i < s.nextClaim → (run s h).claims.get i = none ∨ (run s h).claims.get i = s.claims.get i := by
  induction h generalizing s with
  | nil => exact ⟨le_refl _, fun i _ => Or.inr rfl⟩
  | cons c t ih =>
    have hi' := inv_step hi c
    obtain ⟨h1, h2⟩ := ih hi'
    have hs : s.nextClaim ≤ (step s c).1.nextClaim ∧ ∀ i, i < s.nextClaim →
        (step s c).1.claims.get i = none ∨ (step s c).1.claims.get i = s.claims.get i := by
      rcases step_cases s c with ⟨_, r, h3, h4⟩ | ⟨_, h4⟩
      · rw [h4]; exact ⟨(effect_exec hi h3).next, (effect_exec hi h3).old⟩
      · rw [h4]; exact ⟨le_refl _, fun i _ => Or.inr rfl⟩
    rw [run]
    refine ⟨le_trans hs.1 h1, fun i hlt => ?_⟩
    rcases h2 i (by omega) with h5 | h5
    · exact Or.inl h5
    · rcases hs.2 i hlt with h6 | h6
      · left; rw [h5, h6]
      · right; rw [h5, h6]

/-- Custody along honest histories. -/
theorem custody_run {s : State} (hi : Inv s) (held : Nat → Bool) (h : List Call)
    (h0 : ∀ t, owed s t = if held t then 1 else 0) (hh : Honest s held h) (t : Nat) :
    owed (run s h) t = if custody s held h t then 1 else 0 := by
  induction h generalizing s held with
  | nil => exact h0 t
  | cons c l ih =>
    obtain ⟨hc, hl⟩ := hh
    refine ih (inv_step hi c) _ ?_ hl
    clear ih hl
    intro t
    unfold heldAfter
    rcases step_cases s c with ⟨ha, r, h1, h2⟩ | ⟨ha, h2⟩
    · have he := (effect_exec hi h1).owed t
      rw [h2]
      have hany : r.2.any (returns t) =
          decide (0 < sentBack r.2 t) := by
        rw [Bool.eq_iff_iff, decide_eq_true_eq]
        unfold sentBack
        rw [List.countP_pos_iff, List.any_eq_true]
      rw [hany]
      have h0t := h0 t
      simp only [ha, decide_true, Bool.true_and]
      cases hm : c.msg with
      | receiveNft t' hk =>
        rw [hm] at he h1
        simp only [Msg.arrives, Msg.brings, Bool.false_eq_true, if_false] at he
        have hsb : sentBack r.2 t = 0 := by
          simp only [exec] at h1
          obtain ⟨_, ⟨u, rfl, h3⟩ | ⟨u, d, rfl, h3⟩⟩ := receiveNft_ok_iff.1 h1
          · obtain ⟨_, _, _, _, rfl⟩ := stakeNft_ok_iff.1 h3
            exact sentBack_report _ _ _
          · obtain ⟨_, rfl⟩ := addNftClaim_ok_iff.1 h3
            rfl
        have hheld := hc t' hk hm ha
        by_cases htt : t' = t
        · subst htt
          rw [hheld] at h0t
          simp [hsb, Msg.brings] at he h0t ⊢
          omega
        · simp only [Msg.brings, Bool.false_eq_true, htt, if_false, decide_false, Bool.false_or, hsb, Nat.lt_irrefl, Bool.not_false,
            Bool.and_true] at he ⊢
          omega
      | _ =>
        rw [hm] at he
        simp only [Msg.arrives, Msg.brings, Bool.false_eq_true, if_false] at he
        simp only [Msg.brings, Bool.false_or]
        cases hht : held t with
        | true =>
          rw [hht] at h0t
          by_cases hs0 : 0 < sentBack r.2 t
          · simp [hs0] at h0t ⊢; omega
          · simp [hs0] at h0t ⊢; omega
        | false =>
          rw [hht] at h0t
          simp at h0t ⊢
          omega
    · rw [h2]
      simp [ha, h0 t]

end Verif.Nft
