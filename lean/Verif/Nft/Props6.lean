import Verif.Nft.Props5
import Verif.Staking.Props6

/-!
# NFT staking: the date does not matter (C170)
-/

set_option linter.unusedSimpArgs false

namespace Verif.Nft
open Verif
open Verif.Staking (Duration ReleaseAt releaseAt At InRange yearLater)

/-! ## Specification -/

/-- A claim with its release date moved forward. -/
def Claim.fwd (d : Forward) (c : Claim) : Claim := { c with release := c.release.fwd d }

/-- A message attached to an NFT, with the release date in it moved forward. -/
def Hook.fwd (d : Forward) : Hook → Hook
  | .stake u => .stake u
  | .addClaim u r => .addClaim u (r.fwd d)
  | .unknown => .unknown

/-- A message with the release date in it moved forward. -/
def Msg.fwd (d : Forward) : Msg → Msg
  | .receiveNft t h => .receiveNft t (h.fwd d)
  | m => m

/-- A call made later. -/
def Call.fwd (d : Forward) (c : Call) : Call := ⟨⟨c.env.env.fwd d, c.env.proxyNft⟩, c.msg.fwd d, c.delivered⟩

/-- The unlocking periods that a history sets. -/
def Sets (h : List Call) (u : Duration) : Prop := ∃ c ∈ h, c.msg = .updateUnlocking (some u)

/-! ## The state moved forward -/

/-- The state moved forward. -/
def State.fwd (d : Forward) (s : State) : State :=
  { s with mem := s.mem.fwd d, claims := s.claims.rename (Equiv.refl Nat) (Claim.fwd d) }

/-- A result moved forward. -/
def resFwd (d : Forward) (r : State × List Out) : State × List Out := (r.1.fwd d, r.2)

theorem fwd_init {d : Forward} (hd : d.Whole) (b : Block) (nft : NftAddr) (u : Duration) (hooks : List Addr)
    (bh bs : List (Nat × Nat)) :
    (init b nft u hooks bh bs).fwd d =
      init (b.fwd d) nft u hooks (cpFwd d.blocks bh) (cpFwd (d.nanos / 10 ^ 9) bs) := by
  have h : ((Members.empty.saveCheckpoints bh bs).saveTotal 0 b).fwd d =
      (Members.empty.saveCheckpoints (cpFwd d.blocks bh) (cpFwd (d.nanos / 10 ^ 9) bs)).saveTotal 0 (b.fwd d) := by
    rw [← Members.fwd_saveTotal hd, Members.fwd_checkpoints]
    rfl
  unfold init State.fwd
  dsimp only
  rw [← h]
  rfl

theorem fwd_addClaim (d : Forward) (s : State) (u : Addr) (l : List Nat) (r : ReleaseAt) :
    addClaim (s.fwd d) u l (r.fwd d) = (addClaim s u l r).map (State.fwd d) := by
  unfold addClaim
  rw [show (s.fwd d).nextClaim = s.nextClaim from rfl]
  cases cadd64 s.nextClaim 1 with
  | error e => rfl
  | ok n =>
    refine congrArg Except.ok ?_
    symm
    unfold State.fwd
    congr 1
    exact Map.rename_set s.claims (Equiv.refl Nat) (Claim.fwd d) _ _

theorem fwd_getClaims (d : Forward) (s : State) (u : Addr) :
    getClaims (s.fwd d) u = (getClaims s u).map (Claim.fwd d) := by
  unfold getClaims
  show ((s.claims.rename (Equiv.refl Nat) (Claim.fwd d)).values).filter _ = _
  rw [Map.rename_refl_values, List.filter_map]
  rfl

theorem fwd_isReleasable (d : Forward) (c : Claim) (b : Block) : isReleasable (c.fwd d) (b.fwd d) = isReleasable c b := by
  obtain ⟨i, u, a, r⟩ := c
  cases r <;> simp [isReleasable, Claim.fwd, ReleaseAt.fwd, Block.fwd]

theorem fwd_getReleasable (d : Forward) (s : State) (b : Block) (u : Addr) :
    getReleasable (s.fwd d) (b.fwd d) u = (getReleasable s b u).map (Claim.fwd d) := by
  have := fwd_getClaims d s u
  unfold getClaims at this
  unfold getReleasable
  rw [this, List.filter_map]
  congr 1
  exact List.filter_congr fun c _ => fwd_isReleasable d c b

theorem fwd_stakeNft {d : Forward} (hd : d.Whole) (s : State) (e : Env) (t : Nat) (u : Addr) :
    stakeNft (s.fwd d) (e.fwd d) t u = (stakeNft s e t u).map (resFwd d) := by
  unfold stakeNft
  rw [show (e.fwd d).restricted u = e.restricted u from rfl, show (s.fwd d).stakes = s.stakes from rfl]
  split
  · rfl
  split
  · rfl
  rw [show (s.fwd d).mem = s.mem.fwd d from rfl, Members.fwd_incWeight]
  cases s.mem.incWeight u 1 with
  | error x => rfl
  | ok r =>
    show (do let m2 ← (r.1.fwd d).incTotal 1 (e.block.fwd d); _) = Except.map (resFwd d) (do let m2 ← r.1.incTotal 1 e.block; _)
    rw [Members.fwd_incTotal hd]
    cases r.1.incTotal 1 e.block <;> rfl

theorem fwd_unstake {d : Forward} (hd : d.Whole) (s : State) (e : Env) (l : List Nat)
    (hr : InRange d s.unlocking e.block) : unstake (s.fwd d) (e.fwd d) l = (unstake s e l).map (resFwd d) := by
  unfold unstake
  dsimp only
  rw [show (s.fwd d).mem = s.mem.fwd d from rfl, show (e.fwd d).sender = e.sender from rfl,
    show (s.fwd d).stakes = s.stakes from rfl, Members.fwd_decWeight]
  cases l.foldlM (takeStake e.sender) s.stakes with
  | error x => rfl
  | ok st =>
    show (do let r ← Except.map _ (s.mem.decWeight e.sender l.length); _) =
      Except.map (resFwd d) (do let r ← s.mem.decWeight e.sender l.length; _)
    cases s.mem.decWeight e.sender l.length with
    | error x => rfl
    | ok r =>
      show (do let m2 ← (r.1.fwd d).decTotal l.length (e.block.fwd d); _) =
        Except.map (resFwd d) (do let m2 ← r.1.decTotal l.length e.block; _)
      rw [Members.fwd_decTotal hd]
      cases r.1.decTotal l.length e.block with
      | error x => rfl
      | ok m2 =>
        let s2 : State := { s with stakes := st, mem := m2 }
        show (do let s1 ← addClaim (s2.fwd d) e.sender l (releaseAt s.unlocking (e.block.fwd d)); _) =
          Except.map (resFwd d) (do let s1 ← addClaim s2 e.sender l (releaseAt s.unlocking e.block); _)
        rw [Staking.fwd_releaseAt hr, fwd_addClaim]
        cases addClaim s2 e.sender l (releaseAt s.unlocking e.block) <;> rfl

theorem fwd_removes (d : Forward) : ∀ (l : List Claim) (m : Map Nat Claim),
    (l.map (Claim.fwd d)).foldl (fun m c => m.remove c.id) (m.rename (Equiv.refl Nat) (Claim.fwd d)) =
      (l.foldl (fun m c => m.remove c.id) m).rename (Equiv.refl Nat) (Claim.fwd d)
  | [], _ => rfl
  | c :: t, m => by
    rw [List.map_cons, List.foldl_cons, List.foldl_cons, ← fwd_removes d t]
    congr 1
    exact (Map.rename_remove m (Equiv.refl Nat) (Claim.fwd d) c.id).symm

theorem fwd_claim (d : Forward) (s : State) (e : Env) (u : Option Addr) :
    claim (s.fwd d) (e.fwd d) u = (claim s e u).map (resFwd d) := by
  unfold claim
  rw [show (s.fwd d).nft = s.nft from rfl]
  split
  · rfl
  · dsimp only
    rw [show (e.fwd d).sender = e.sender from rfl, show (e.fwd d).block = e.block.fwd d from rfl, fwd_getReleasable]
    split
    · rfl
    · refine congrArg Except.ok (Prod.ext ?_ ?_)
      · exact congrArg (fun x => ({ s.fwd d with claims := x } : State)) (fwd_removes d _ s.claims)
      · show List.map _ (((getReleasable s e.block (u.getD e.sender)).map (Claim.fwd d)).flatMap (·.nfts)) = List.map _ _
        rw [List.flatMap_map]
        rfl

theorem fwd_exec {d : Forward} (hd : d.Whole) (s : State) (c : Call) (hr : InRange d s.unlocking c.env.env.block) :
    exec (s.fwd d) (c.fwd d).env (c.fwd d).msg = (exec s c.env c.msg).map (resFwd d) := by
  obtain ⟨⟨e, px⟩, m, x⟩ := c
  cases m with
  | receiveNft t h =>
    show receiveNft (s.fwd d) ⟨e.fwd d, px⟩ t (h.fwd d) = Except.map (resFwd d) (receiveNft s ⟨e, px⟩ t h)
    unfold receiveNft
    rw [show nftContract (s.fwd d) px = nftContract s px from rfl]
    cases nftContract s px with
    | none => rfl
    | some c =>
      dsimp only
      rw [show (e.fwd d).sender = e.sender from rfl]
      split
      · rfl
      cases h with
      | stake u => exact fwd_stakeNft hd { s with nft := .cw721 c } e t u
      | addClaim u r =>
        show addNftClaim (({ s with nft := .cw721 c } : State).fwd d) t u (r.fwd d) = _
        unfold addNftClaim
        rw [fwd_addClaim]
        dsimp only
        cases addClaim { s with nft := .cw721 c } u [t] r <;> rfl
      | unknown => rfl
  | unstake l => exact fwd_unstake hd s e l hr
  | claim u => exact fwd_claim d s e u
  | updateUnlocking p =>
    show updateUnlocking (s.fwd d) (e.fwd d) p = (updateUnlocking s e p).map (resFwd d)
    unfold updateUnlocking
    rw [show (e.fwd d).sender = e.sender from rfl, show (e.fwd d).controller = e.controller from rfl]
    split <;> rfl
  | addHook h =>
    show (do let m ← (s.mem.fwd d).addHook (e.fwd d) h; _) = Except.map _ (do let m ← s.mem.addHook e h; _)
    rw [Members.fwd_addHook]
    cases s.mem.addHook e h <;> rfl
  | removeHook h =>
    show (do let m ← (s.mem.fwd d).removeHook (e.fwd d) h; _) = Except.map _ (do let m ← s.mem.removeHook e h; _)
    rw [Members.fwd_removeHook]
    cases s.mem.removeHook e h <;> rfl

theorem fwd_step {d : Forward} (hd : d.Whole) (s : State) (c : Call) (hr : InRange d s.unlocking c.env.env.block) :
    step (s.fwd d) (c.fwd d) = resFwd d (step s c) := by
  unfold step
  rw [fwd_exec hd s c hr]
  cases exec s c.env c.msg with
  | error e => rfl
  | ok r =>
    show (if c.delivered then resFwd d r else (s.fwd d, [])) = resFwd d (if c.delivered then r else (s, []))
    split <;> rfl

theorem fwd_run {d : Forward} (hd : d.Whole) (P : Duration → Prop) : ∀ (h : List Call) (s : State),
    Reachable s → P s.unlocking → (∀ p, Sets h p → P p) → (∀ c ∈ h, ∀ p, P p → InRange d p c.env.env.block) →
    run (s.fwd d) (h.map (Call.fwd d)) = (run s h).fwd d ∧
    sent (s.fwd d) (h.map (Call.fwd d)) = sent s h ∧ P (run s h).unlocking
  | [], _, _, hs, _, _ => ⟨rfl, rfl, hs⟩
  | c :: t, s, hq, hs, hP, hr => by
    have hs' : P (step s c).1.unlocking := by
      by_cases h : (step s c).1.unlocking = s.unlocking
      · rw [h]; exact hs
      · obtain ⟨_, p, hp, h2⟩ := C27_nft_only_controller hq c h
        rw [h2]; exact hP p ⟨c, List.mem_cons_self, hp⟩
    have ih := fwd_run hd P t (step s c).1 (reachable_step hq c) hs'
      (fun p ⟨x, hx, hp⟩ => hP p ⟨x, List.mem_cons_of_mem _ hx, hp⟩) (fun x hx => hr x (List.mem_cons_of_mem _ hx))
    have h1 := fwd_step hd s c (hr c List.mem_cons_self _ hs)
    rw [List.map_cons]
    show run (step (s.fwd d) (c.fwd d)).1 _ = _ ∧
      (step (s.fwd d) (c.fwd d)).2 ++ sent (step (s.fwd d) (c.fwd d)).1 _ = (step s c).2 ++ _ ∧ _
    rw [h1]
    exact ⟨ih.1, congrArg _ ih.2.1, ih.2.2⟩

/-! ## C170 -/

/-- NFT staking: a history that takes place later, by any number of blocks and whole seconds, goes as it did. Every
message is answered as before, with the same error if it is refused; the same NFTs and notifications are sent; weights and
staked NFTs are the same, total weights are the same at the moments moved forward, and claims are the same but for their
release dates, which are moved forward as well. The release dates must stay below 2^64. -/
theorem C170_nft {d : Forward} (hd : d.Whole) (b : Block) (nft : NftAddr) (u : Duration) (hooks : List Addr)
    (bh bs : List (Nat × Nat)) (h : List Call)
    (hr : ∀ c ∈ h, ∀ p, p = u ∨ Sets h p → InRange d p c.env.env.block) :
    let s0 := init b nft u hooks bh bs
    let s0' := init (b.fwd d) nft u hooks (cpFwd d.blocks bh) (cpFwd (d.nanos / 10 ^ 9) bs)
    let s := run s0 h
    let s' := run s0' (h.map (Call.fwd d))
    (∀ v, queryWeight s' v = queryWeight s v) ∧
    (∀ t, queryTotal s' (t.fwd d) = queryTotal s t) ∧
    (∀ a l, queryStaked s' a l = queryStaked s a l) ∧
    (∀ v a l, queryUserStake s' v a l = queryUserStake s v a l) ∧
    (∀ v, getClaims s' v = (getClaims s v).map (Claim.fwd d)) ∧
    (∀ v b, getReleasable s' (b.fwd d) v = (getReleasable s b v).map (Claim.fwd d)) ∧
    sent s0' (h.map (Call.fwd d)) = sent s0 h ∧
    ∀ c : Call, (∀ p, p = u ∨ Sets h p → InRange d p c.env.env.block) →
      ((exec s' (c.fwd d).env (c.fwd d).msg).toBool = (exec s c.env c.msg).toBool ∧
      ∀ e, exec s' (c.fwd d).env (c.fwd d).msg = .error e ↔ exec s c.env c.msg = .error e) := by
  intro s0 s0' s s'
  obtain ⟨hs, ho, hp⟩ := fwd_run hd (fun p => p = u ∨ Sets h p) h s0 ⟨b, nft, u, hooks, bh, bs, [], rfl⟩ (.inl rfl)
    (fun p hp => .inr hp) hr
  rw [show s0.fwd d = s0' from fwd_init hd b nft u hooks bh bs] at hs ho
  have hs' : s' = s.fwd d := hs
  rw [hs']
  refine ⟨fun v => rfl, fun t => ?_, fun _ _ => rfl, fun _ _ _ => rfl, fun v => fwd_getClaims d s v,
    fun v b => fwd_getReleasable d s b v, ho, fun c hc => ?_⟩
  · cases t with
    | height x => exact Members.fwd_totalAtHeight d s.mem x
    | time x => exact Members.fwd_totalAtTime hd s.mem x
    | never => rfl
  · rw [fwd_exec hd s c (hc _ hp)]
    cases exec s c.env c.msg with
    | ok t => simp [Except.map, Except.toBool]
    | error e => simp [Except.map, Except.toBool]

/-- The sample history a year later. -/
example : yearLater.Whole ∧ (∀ c ∈ smp, ∀ p, p = .time 100 ∨ Sets smp p → InRange yearLater p c.env.env.block) ∧
    sent smpInit smp ≠ [] ∧
    (getClaims (run (init ⟨10 + 5256000, (10 + 31536000) * 10 ^ 9⟩ (.ics721 4) (.time 100) [7, 8] [] [])
      (smp.map (Call.fwd yearLater))) 1).map (·.release) = [.timestamp (31536114 * 10 ^ 9)] ∧
    (getClaims (run smpInit smp) 1).map (·.release) = [.timestamp (114 * 10 ^ 9)] := by
  refine ⟨⟨31536000, by decide +kernel⟩, ?_, by decide +kernel, by decide +kernel, by decide +kernel⟩
  intro c hc p hp
  have hp' : p = .time 100 := by
    rcases hp with rfl | ⟨x, hx, hm⟩
    · rfl
    · simp only [smp, List.mem_cons, List.not_mem_nil, or_false] at hx
      rcases hx with rfl | rfl | rfl | rfl | rfl | rfl | rfl | rfl | rfl | rfl <;> cases hm
  subst hp'
  simp only [smp, List.mem_cons, List.not_mem_nil, or_false] at hc
  rcases hc with rfl | rfl | rfl | rfl | rfl | rfl | rfl | rfl | rfl | rfl <;> (unfold InRange; decide +kernel)

end Verif.Nft
