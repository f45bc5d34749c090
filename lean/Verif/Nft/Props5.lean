import Verif.Membership.Rename
import Verif.Nft.Props4

/-!
# NFT staking: all users are treated alike (C168)
-/

set_option linter.unusedSimpArgs false

namespace Verif.Nft
open Verif
open Verif.Staking (Duration ReleaseAt releaseAt At)

/-! ## Specification -/

/-- A claim with another name for its user. -/
def Claim.ren (π : Renaming) (c : Claim) : Claim := { c with user := π c.user }

/-- A message attached to an NFT, with another name for the user. -/
def Hook.ren (π : Renaming) : Hook → Hook
  | .stake u => .stake (π u)
  | .addClaim u r => .addClaim (π u) r
  | .unknown => .unknown

/-- A message with other names for the users; the hook contracts keep theirs. -/
def Msg.ren (π : Renaming) : Msg → Msg
  | .receiveNft t h => .receiveNft t (h.ren π)
  | .unstake l => .unstake l
  | .claim u => .claim (u.map π)
  | .updateUnlocking p => .updateUnlocking p
  | .addHook h => .addHook h
  | .removeHook h => .removeHook h

/-- A call with other names for the users; the NFT contract keeps its name. -/
def Call.ren (π : Renaming) (c : Call) : Call := ⟨⟨c.env.env.ren π, c.env.proxyNft⟩, c.msg.ren π, c.delivered⟩

/-- The contracts that send NFTs to the staking contract keep their names. -/
def SendersKept (π : Renaming) (c : Call) : Prop := ∀ t h, c.msg = .receiveNft t h → π c.env.env.sender = c.env.env.sender

/-! ## The renamed state -/

/-- The state with other names for the users. -/
def State.ren (π : Renaming) (s : State) : State :=
  { s with
    mem := s.mem.ren π
    stakes := s.stakes.rename (Equiv.refl Nat) π
    claims := s.claims.rename (Equiv.refl Nat) (Claim.ren π) }

/-- A result with other names for the users. -/
def resRen (π : Renaming) (r : State × List Out) : State × List Out := (r.1.ren π, r.2.map (Out.ren π))

theorem ren_init (π : Renaming) (b : Block) (nft : NftAddr) (u : Duration) (hooks : List Addr) (bh bs : List (Nat × Nat)) :
    (init b nft u hooks bh bs).ren π = init b nft u hooks bh bs := rfl

theorem ren_addClaim (π : Renaming) (s : State) (u : Addr) (l : List Nat) (r : ReleaseAt) :
    addClaim (s.ren π) (π u) l r = (addClaim s u l r).map (State.ren π) := by
  unfold addClaim
  rw [show (s.ren π).nextClaim = s.nextClaim from rfl]
  cases cadd64 s.nextClaim 1 with
  | error e => rfl
  | ok n =>
    refine congrArg Except.ok ?_
    symm
    unfold State.ren
    congr 1
    exact Map.rename_set s.claims (Equiv.refl Nat) (Claim.ren π) _ _

theorem ren_getClaims (π : Renaming) (s : State) (u : Addr) :
    getClaims (s.ren π) (π u) = (getClaims s u).map (Claim.ren π) := by
  unfold getClaims
  show ((s.claims.rename (Equiv.refl Nat) (Claim.ren π)).values).filter _ = _
  rw [Map.rename_refl_values, List.filter_map]
  congr 1
  refine List.filter_congr fun c _ => ?_
  show decide (π c.user = π u) = decide (c.user = u)
  simp

theorem ren_getReleasable (π : Renaming) (s : State) (b : Block) (u : Addr) :
    getReleasable (s.ren π) b (π u) = (getReleasable s b u).map (Claim.ren π) := by
  have := ren_getClaims π s u
  unfold getClaims at this
  unfold getReleasable
  rw [this, List.filter_map]
  rfl

theorem ren_stakeNft (π : Renaming) (s : State) (e : Env) (t : Nat) (u : Addr) :
    stakeNft (s.ren π) (e.ren π) t (π u) = (stakeNft s e t u).map (resRen π) := by
  unfold stakeNft
  rw [show (e.ren π).restricted (π u) = e.restricted u from congrArg e.restricted (Equiv.symm_apply_apply π u),
    show (s.ren π).stakes.has t = s.stakes.has t from Map.has_rename s.stakes (Equiv.refl Nat) π t]
  split
  · rfl
  split
  · rfl
  rw [show (s.ren π).mem = s.mem.ren π from rfl, Members.ren_weight, Members.ren_incWeight]
  cases s.mem.incWeight u 1 with
  | error x => rfl
  | ok r =>
    show (do let m2 ← (r.1.ren π).incTotal 1 e.block; _) = Except.map (resRen π) (do let m2 ← r.1.incTotal 1 e.block; _)
    rw [Members.ren_incTotal]
    cases r.1.incTotal 1 e.block with
    | error x => rfl
    | ok m2 =>
      refine congrArg Except.ok (Prod.ext ?_ (Members.ren_report π m2 [⟨u, s.mem.weight u, r.2⟩]))
      symm
      show State.ren π { s with stakes := s.stakes.set t u, mem := m2 } = _
      unfold State.ren
      congr 1
      exact Map.rename_set s.stakes (Equiv.refl Nat) π t u

theorem ren_takeStake (π : Renaming) (u : Addr) (st : Map Nat Addr) (t : Nat) :
    takeStake (π u) (st.rename (Equiv.refl Nat) π) t = (takeStake u st t).map (fun m => m.rename (Equiv.refl Nat) π) := by
  unfold takeStake
  rw [show (st.rename (Equiv.refl Nat) π).get t = (st.get t).map π from Map.get_rename st (Equiv.refl Nat) π t]
  cases st.get t with
  | none => rfl
  | some a =>
    simp only [Option.map_some]
    by_cases h : a = u
    · rw [if_neg (by simp [h]), if_neg (by simp [h])]
      exact congrArg Except.ok (Map.rename_remove st (Equiv.refl Nat) π t).symm
    · rw [if_pos (by simpa using h), if_pos h]
      rfl

theorem ren_takeStakes (π : Renaming) (u : Addr) : ∀ (l : List Nat) (st : Map Nat Addr),
    l.foldlM (takeStake (π u)) (st.rename (Equiv.refl Nat) π) =
      (l.foldlM (takeStake u) st).map (fun m => m.rename (Equiv.refl Nat) π)
  | [], _ => rfl
  | t :: l, st => by
    rw [List.foldlM_cons, List.foldlM_cons, ren_takeStake]
    cases takeStake u st t with
    | error e => rfl
    | ok st1 => exact ren_takeStakes π u l st1

theorem ren_unstake (π : Renaming) (s : State) (e : Env) (l : List Nat) :
    unstake (s.ren π) (e.ren π) l = (unstake s e l).map (resRen π) := by
  unfold unstake
  dsimp only
  rw [show (s.ren π).mem = s.mem.ren π from rfl, show (e.ren π).sender = π e.sender from rfl,
    show (s.ren π).stakes = s.stakes.rename (Equiv.refl Nat) π from rfl, Members.ren_weight,
    Members.ren_decWeight, ren_takeStakes]
  cases l.foldlM (takeStake e.sender) s.stakes with
  | error x => rfl
  | ok st =>
    show (do let r ← Except.map _ (s.mem.decWeight e.sender l.length); _) =
      Except.map (resRen π) (do let r ← s.mem.decWeight e.sender l.length; _)
    cases s.mem.decWeight e.sender l.length with
    | error x => rfl
    | ok r =>
      show (do let m2 ← (r.1.ren π).decTotal l.length e.block; _) =
        Except.map (resRen π) (do let m2 ← r.1.decTotal l.length e.block; _)
      rw [Members.ren_decTotal]
      cases r.1.decTotal l.length e.block with
      | error x => rfl
      | ok m2 =>
        let s2 : State := { s with stakes := st, mem := m2 }
        show (do let s1 ← addClaim (s2.ren π) (π e.sender) l (releaseAt s.unlocking e.block); _) =
          Except.map (resRen π) (do let s1 ← addClaim s2 e.sender l (releaseAt s.unlocking e.block); _)
        rw [ren_addClaim]
        cases addClaim s2 e.sender l (releaseAt s.unlocking e.block) with
        | error x => rfl
        | ok s1 =>
          exact congrArg (fun x => Except.ok (_, x)) (Members.ren_report π m2 [⟨e.sender, s.mem.weight e.sender, r.2⟩])

theorem ren_removes (π : Renaming) : ∀ (l : List Claim) (m : Map Nat Claim),
    (l.map (Claim.ren π)).foldl (fun m c => m.remove c.id) (m.rename (Equiv.refl Nat) (Claim.ren π)) =
      (l.foldl (fun m c => m.remove c.id) m).rename (Equiv.refl Nat) (Claim.ren π)
  | [], _ => rfl
  | c :: t, m => by
    rw [List.map_cons, List.foldl_cons, List.foldl_cons, ← ren_removes π t]
    congr 1
    exact (Map.rename_remove m (Equiv.refl Nat) (Claim.ren π) c.id).symm

theorem ren_getD (π : Renaming) (u : Option Addr) (x : Addr) : (u.map π).getD (π x) = π (u.getD x) := by
  cases u <;> rfl

theorem ren_claim (π : Renaming) (s : State) (e : Env) (u : Option Addr) :
    claim (s.ren π) (e.ren π) (u.map π) = (claim s e u).map (resRen π) := by
  unfold claim
  rw [show (s.ren π).nft = s.nft from rfl]
  split
  · rfl
  ·
    dsimp only
    rw [show (e.ren π).sender = π e.sender from rfl, ren_getD, show (e.ren π).block = e.block from rfl, ren_getReleasable]
    by_cases h : e.sender = u.getD e.sender
    · rw [if_neg (by rw [← h]; simp), if_neg (by rw [← h]; simp)]
      refine congrArg Except.ok (Prod.ext ?_ ?_)
      · exact congrArg (fun x => ({ s.ren π with claims := x } : State)) (ren_removes π _ s.claims)
      · show List.map _ (((getReleasable s e.block (u.getD e.sender)).map (Claim.ren π)).flatMap (·.nfts)) = List.map (Out.ren π) (List.map _ _)
        rw [List.map_map, List.flatMap_map]
        rfl
    · rw [if_pos (by simpa using h), if_pos h]
      rfl

theorem ren_exec (π : Renaming) (s : State) (c : Call) (hc : SendersKept π c) :
    exec (s.ren π) (c.ren π).env (c.ren π).msg = (exec s c.env c.msg).map (resRen π) := by
  obtain ⟨⟨e, px⟩, m, d⟩ := c
  cases m with
  | receiveNft t h =>
    show receiveNft (s.ren π) ⟨e.ren π, px⟩ t (h.ren π) = Except.map (resRen π) (receiveNft s ⟨e, px⟩ t h)
    unfold receiveNft
    rw [show nftContract (s.ren π) px = nftContract s px from rfl]
    cases nftContract s px with
    | none => rfl
    | some c =>
      dsimp only
      rw [show (e.ren π).sender = e.sender from hc t h rfl]
      split
      · rfl
      cases h with
      | stake u => exact ren_stakeNft π { s with nft := .cw721 c } e t u
      | addClaim u r =>
        show addNftClaim (({ s with nft := .cw721 c } : State).ren π) t (π u) r = _
        unfold addNftClaim
        rw [ren_addClaim]
        dsimp only
        cases addClaim { s with nft := .cw721 c } u [t] r <;> rfl
      | unknown => rfl
  | unstake l => exact ren_unstake π s e l
  | claim u => exact ren_claim π s e u
  | updateUnlocking p =>
    show updateUnlocking (s.ren π) (e.ren π) p = (updateUnlocking s e p).map (resRen π)
    unfold updateUnlocking Env.ren
    by_cases h : e.sender = e.controller
    · simp [h, Except.map]
      rfl
    · simp [h, Except.map]
  | addHook h =>
    show (do let m ← (s.mem.ren π).addHook (e.ren π) h; _) = Except.map _ (do let m ← s.mem.addHook e h; _)
    rw [Members.ren_addHook]
    cases s.mem.addHook e h <;> rfl
  | removeHook h =>
    show (do let m ← (s.mem.ren π).removeHook (e.ren π) h; _) = Except.map _ (do let m ← s.mem.removeHook e h; _)
    rw [Members.ren_removeHook]
    cases s.mem.removeHook e h <;> rfl

theorem ren_step (π : Renaming) (s : State) (c : Call) (hc : SendersKept π c) :
    step (s.ren π) (c.ren π) = resRen π (step s c) := by
  unfold step
  rw [ren_exec π s c hc]
  cases exec s c.env c.msg with
  | error e => rfl
  | ok r =>
    show (if c.delivered then resRen π r else (s.ren π, [])) = resRen π (if c.delivered then r else (s, []))
    split <;> rfl

theorem ren_run (π : Renaming) : ∀ (h : List Call) (s : State), (∀ c ∈ h, SendersKept π c) →
    run (s.ren π) (h.map (Call.ren π)) = (run s h).ren π ∧
    sent (s.ren π) (h.map (Call.ren π)) = (sent s h).map (Out.ren π)
  | [], _, _ => ⟨rfl, rfl⟩
  | c :: t, s, hc => by
    have ih := ren_run π t (step s c).1 (fun x hx => hc x (List.mem_cons_of_mem _ hx))
    have h1 := ren_step π s c (hc c List.mem_cons_self)
    rw [List.map_cons]
    show run (step (s.ren π) (c.ren π)).1 _ = _ ∧
      (step (s.ren π) (c.ren π)).2 ++ sent (step (s.ren π) (c.ren π)).1 _ = ((step s c).2 ++ _).map (Out.ren π)
    rw [h1, List.map_append]
    exact ⟨ih.1, congrArg _ ih.2⟩

/-! ## C168 -/

/-- NFT staking: if all the users in a history get other names, then every message is answered as before, with the same
error if it is refused; everyone has under the new name the weight, the staked NFTs and the claims there were under the
old one, the total weights are the same, and the same notifications and NFTs were sent, with the new names. -/
theorem C168_nft (π : Renaming) (b : Block) (nft : NftAddr) (d : Duration) (hooks : List Addr)
    (bh bs : List (Nat × Nat)) (h : List Call) (hk : ∀ c ∈ h, SendersKept π c) :
    let s := run (init b nft d hooks bh bs) h
    let s' := run (init b nft d hooks bh bs) (h.map (Call.ren π))
    (∀ u, queryWeight s' (π u) = queryWeight s u) ∧
    (∀ t, queryTotal s' t = queryTotal s t) ∧
    (∀ a l, queryStaked s' a l = queryStaked s a l) ∧
    (∀ u a l, queryUserStake s' (π u) a l = queryUserStake s u a l) ∧
    (∀ u, getClaims s' (π u) = (getClaims s u).map (Claim.ren π)) ∧
    sent (init b nft d hooks bh bs) (h.map (Call.ren π)) = (sent (init b nft d hooks bh bs) h).map (Out.ren π) ∧
    ∀ c, SendersKept π c →
      ((exec s' (c.ren π).env (c.ren π).msg).toBool = (exec s c.env c.msg).toBool ∧
      ∀ e, exec s' (c.ren π).env (c.ren π).msg = .error e ↔ exec s c.env c.msg = .error e) := by
  intro s s'
  obtain ⟨hs, ho⟩ := ren_run π h (init b nft d hooks bh bs) hk
  rw [ren_init] at hs ho
  have hs' : s' = s.ren π := hs
  rw [hs']
  have hpage : ∀ (m : Map Nat Addr) (a : Option Nat) (n : Nat),
      ((m.rename (Equiv.refl Nat) π).page a n).map (·.1) = (m.page a n).map (·.1) := by
    intro m a n
    unfold Map.page
    rw [Map.rename_refl_entries]
    cases a with
    | none => simp [List.map_take, List.map_map, Function.comp_def]
    | some x => simp [List.map_take, List.map_map, Function.comp_def, List.filter_map]
  refine ⟨fun u => Members.ren_weight π s.mem u, fun t => ?_, fun a l => hpage s.stakes a _, fun u a l => ?_,
    fun u => ren_getClaims π s u, ho, fun c hc => ?_⟩
  · cases t <;> rfl
  · refine Prod.ext ?_ (Members.ren_weight π s.mem u)
    have : (s.ren π).stakes.filter (fun _ v => decide (v = π u)) =
        (s.stakes.filter (fun _ v => decide (v = u))).rename (Equiv.refl Nat) π := by
      refine Map.ext_get fun k => ?_
      rw [Map.get_filter]
      have h2 := Map.get_rename (s.stakes.filter (fun _ v => decide (v = u))) (Equiv.refl Nat) π k
      rw [Map.get_filter] at h2
      refine Eq.trans ?_ h2.symm
      rw [show (s.ren π).stakes.get k = (s.stakes.get k).map π from Map.get_rename s.stakes (Equiv.refl Nat) π k]
      cases s.stakes.get k with
      | none => rfl
      | some v =>
        simp only [Option.map_some, Option.filter_some, EmbeddingLike.apply_eq_iff_eq]
        split <;> rfl
    show (((s.ren π).stakes.filter (fun _ v => decide (v = π u))).page a _).map (·.1) = _
    rw [this]
    exact hpage _ a _
  · rw [ren_exec π s c hc]
    cases exec s c.env c.msg with
    | ok t => simp [Except.map, Except.toBool]
    | error e => simp [Except.map, Except.toBool]

/-- The sample history with users 1 and 2 exchanged. -/
example : (∀ c ∈ smp, SendersKept (swap2 1 2) c) ∧
    queryUserStake (run smpInit (smp.map (Call.ren (swap2 1 2)))) 2 none none = ([101], 1) ∧
    queryUserStake (run smpInit smp) 1 none none = ([101], 1) ∧
    queryUserStake (run smpInit (smp.map (Call.ren (swap2 1 2)))) 1 none none = ([103], 1) := by
  refine ⟨?_, by decide +kernel, by decide +kernel, by decide +kernel⟩
  intro c hc t h hm
  simp only [smp, List.mem_cons, List.not_mem_nil, or_false] at hc
  rcases hc with rfl | rfl | rfl | rfl | rfl | rfl | rfl | rfl | rfl | rfl <;> first | rfl | (cases hm)

end Verif.Nft
