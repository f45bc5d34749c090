import Verif.Membership.Clock
import Verif.Staking.Props5

/-!
# Token and denom staking: the date does not matter (C170)
-/

set_option linter.unusedSimpArgs false

namespace Verif.Staking
open Verif

/-! ## Specification -/

/-- A release date moved forward. -/
def ReleaseAt.fwd (d : Forward) : ReleaseAt → ReleaseAt
  | .height h => .height (h + d.blocks)
  | .timestamp t => .timestamp (t + d.nanos)

/-- A claim with its release date moved forward. -/
def Claim.fwd (d : Forward) (c : Claim) : Claim := { c with release := c.release.fwd d }

/-- A message attached to tokens, with the release dates in it moved forward. -/
def Hook.fwd (d : Forward) : Hook → Hook
  | .stake u => .stake u
  | .addStakes l => .addStakes l
  | .addClaims l => .addClaims (l.map (fun c => { c with release := c.release.fwd d }))
  | .unknown => .unknown

/-- A message with the release dates in it moved forward. -/
def Msg.fwd (d : Forward) : Msg → Msg
  | .receive a h => .receive a (h.fwd d)
  | m => m

/-- A call made later. -/
def Call.fwd (d : Forward) (c : Call) : Call := ⟨c.env.fwd d, c.msg.fwd d, c.delivered⟩

/-- A moment moved forward. -/
def At.fwd (d : Forward) : At → At
  | .height h => .height (h + d.blocks)
  | .time t => .time (t + d.nanos)
  | .never => .never

/-- A release date computed after setting the clock forward stays below 2^64. -/
def InRange (d : Forward) (u : Duration) (b : Block) : Prop :=
  match u with
  | .height n => b.height + d.blocks + n < 2 ^ 64
  | .time n => b.time + d.nanos + n * 10 ^ 9 < 2 ^ 64

/-- The unlocking periods that a history sets. -/
def Sets (h : List Call) (u : Duration) : Prop := ∃ c ∈ h, c.msg = .updateUnlocking (some u)

/-! ## The state moved forward -/

/-- The state moved forward. -/
def State.fwd (d : Forward) (s : State) : State :=
  { s with mem := s.mem.fwd d, claims := s.claims.rename (Equiv.refl Nat) (Claim.fwd d) }

/-- A result moved forward. -/
def resFwd (d : Forward) (r : State × List Out) : State × List Out := (r.1.fwd d, r.2)

theorem fwd_init {d : Forward} (hd : d.Whole) (b : Block) (asset : Addr) (u : Duration) (hooks : List Addr)
    (bh bs : List (Nat × Nat)) :
    (init b asset u hooks bh bs).fwd d =
      init (b.fwd d) asset u hooks (cpFwd d.blocks bh) (cpFwd (d.nanos / 10 ^ 9) bs) := by
  have h : ((Members.empty.saveCheckpoints bh bs).saveTotal 0 b).fwd d =
      (Members.empty.saveCheckpoints (cpFwd d.blocks bh) (cpFwd (d.nanos / 10 ^ 9) bs)).saveTotal 0 (b.fwd d) := by
    rw [← Members.fwd_saveTotal hd, Members.fwd_checkpoints]
    rfl
  unfold init State.fwd
  dsimp only
  rw [← h]
  rfl

theorem fwd_releaseAt {d : Forward} {u : Duration} {b : Block} (h : InRange d u b) :
    releaseAt u (b.fwd d) = (releaseAt u b).fwd d := by
  cases u with
  | height n =>
    have h' : b.height + d.blocks + n < 2 ^ 64 := h
    unfold releaseAt ReleaseAt.fwd Block.fwd wadd64 M64
    dsimp only
    rw [Nat.mod_eq_of_lt (by omega), Nat.mod_eq_of_lt (by omega)]
    congr 1
    omega
  | time n =>
    have h' : b.time + d.nanos + n * 10 ^ 9 < 2 ^ 64 := h
    unfold releaseAt ReleaseAt.fwd Block.fwd wadd64 M64
    dsimp only
    rw [Nat.mod_eq_of_lt (a := n * 10 ^ 9) (by omega), Nat.mod_eq_of_lt (by omega), Nat.mod_eq_of_lt (by omega)]
    congr 1
    omega

theorem fwd_addClaim (d : Forward) (s : State) (u : Addr) (a : Nat) (r : ReleaseAt) :
    addClaim (s.fwd d) u a (r.fwd d) = (addClaim s u a r).map (State.fwd d) := by
  unfold addClaim
  rw [show (s.fwd d).nextClaim = s.nextClaim from rfl]
  cases cadd64 s.nextClaim 1 with
  | error e => rfl
  | ok n =>
    refine congrArg Except.ok ?_
    symm
    unfold State.fwd
    congr 1
    exact Map.rename_set s.claims (Equiv.refl Nat) (Claim.fwd d) _ _

theorem fwd_getClaims (d : Forward) (s : State) (u : Addr) :
    getClaims (s.fwd d) u = (getClaims s u).map (Claim.fwd d) := by
  unfold getClaims
  show ((s.claims.rename (Equiv.refl Nat) (Claim.fwd d)).values).filter _ = _
  rw [Map.rename_refl_values, List.filter_map]
  rfl

theorem fwd_isReleasable (d : Forward) (c : Claim) (b : Block) : isReleasable (c.fwd d) (b.fwd d) = isReleasable c b := by
  obtain ⟨i, u, a, r⟩ := c
  cases r <;> simp [isReleasable, Claim.fwd, ReleaseAt.fwd, Block.fwd]

theorem fwd_getReleasable (d : Forward) (s : State) (b : Block) (u : Addr) :
    getReleasable (s.fwd d) (b.fwd d) u = (getReleasable s b u).map (Claim.fwd d) := by
  unfold getReleasable
  rw [fwd_getClaims, List.filter_map]
  congr 1
  exact List.filter_congr fun c _ => fwd_isReleasable d c b

theorem fwd_stakeFor {d : Forward} (hd : d.Whole) (s : State) (e : Env) (u : Addr) (a : Nat) :
    stakeFor (s.fwd d) (e.fwd d) u a = (stakeFor s e u a).map (resFwd d) := by
  unfold stakeFor
  rw [show (e.fwd d).restricted u = e.restricted u from rfl]
  split
  · rfl
  rw [show (s.fwd d).mem = s.mem.fwd d from rfl, Members.fwd_incWeight]
  cases s.mem.incWeight u a with
  | error x => rfl
  | ok r =>
    show (do let m2 ← (r.1.fwd d).incTotal a (e.block.fwd d); _) = _
    rw [Members.fwd_incTotal hd]
    show _ = Except.map (resFwd d) (do let m2 ← r.1.incTotal a e.block; _)
    cases r.1.incTotal a e.block <;> rfl

/-- Accumulator of the loop of `addStakes`. -/
def accFwd (d : Forward) (x : Members × Nat × List WeightChange) : Members × Nat × List WeightChange :=
  (x.1.fwd d, x.2.1, x.2.2)

theorem fwd_addStake (d : Forward) (e : Env) (x : Members × Nat × List WeightChange) (p : Addr × Nat) :
    addStake (e.fwd d) (accFwd d x) p = (addStake e x p).map (accFwd d) := by
  unfold addStake
  dsimp only
  rw [show (e.fwd d).restricted p.1 = e.restricted p.1 from rfl]
  split
  · rfl
  split
  · rfl
  show (do let new ← cadd128 (x.1.weight p.1) p.2; _) = _
  cases cadd128 (x.1.weight p.1) p.2 with
  | error y => rfl
  | ok new =>
    show (do let sum ← cadd128 x.2.1 p.2; _) = Except.map (accFwd d) (do let sum ← cadd128 x.2.1 p.2; _)
    cases cadd128 x.2.1 p.2 <;> rfl

theorem fwd_addStakesL (d : Forward) (e : Env) : ∀ (l : List (Addr × Nat)) (x : Members × Nat × List WeightChange),
    l.foldlM (addStake (e.fwd d)) (accFwd d x) = (l.foldlM (addStake e) x).map (accFwd d)
  | [], _ => rfl
  | p :: t, x => by
    rw [List.foldlM_cons, List.foldlM_cons, fwd_addStake]
    cases addStake e x p with
    | error y => rfl
    | ok x1 => exact fwd_addStakesL d e t x1

theorem fwd_addStakes {d : Forward} (hd : d.Whole) (s : State) (e : Env) (a : Nat) (l : List (Addr × Nat)) :
    addStakes (s.fwd d) (e.fwd d) a l = (addStakes s e a l).map (resFwd d) := by
  unfold addStakes
  have h := fwd_addStakesL d e l (s.mem, 0, [])
  rw [show accFwd d (s.mem, 0, []) = ((s.fwd d).mem, 0, []) from rfl] at h
  rw [h]
  cases l.foldlM (addStake e) (s.mem, 0, []) with
  | error y => rfl
  | ok r =>
    show (if r.2.1 ≠ a then _ else _) = Except.map (resFwd d) (if r.2.1 ≠ a then _ else _)
    split
    · rfl
    show (do let m2 ← (r.1.fwd d).incTotal r.2.1 (e.block.fwd d); _) =
      Except.map (resFwd d) (do let m2 ← r.1.incTotal r.2.1 e.block; _)
    rw [Members.fwd_incTotal hd]
    cases r.1.incTotal r.2.1 e.block <;> rfl

theorem fwd_addTokenClaim (d : Forward) (x : State × Nat) (c : UserClaim) :
    addTokenClaim (x.1.fwd d, x.2) { c with release := c.release.fwd d } =
      (addTokenClaim x c).map (fun r => (r.1.fwd d, r.2)) := by
  unfold addTokenClaim
  dsimp only
  rw [fwd_addClaim]
  cases addClaim x.1 c.user c.amount c.release with
  | error e => rfl
  | ok s1 =>
    show (do let sum ← cadd128 x.2 c.amount; _) = Except.map _ (do let sum ← cadd128 x.2 c.amount; _)
    cases cadd128 x.2 c.amount <;> rfl

theorem fwd_addTokenClaimsL (d : Forward) : ∀ (l : List UserClaim) (x : State × Nat),
    (l.map (fun c => { c with release := c.release.fwd d })).foldlM addTokenClaim (x.1.fwd d, x.2) =
      (l.foldlM addTokenClaim x).map (fun r => (r.1.fwd d, r.2))
  | [], _ => rfl
  | c :: t, x => by
    rw [List.map_cons, List.foldlM_cons, List.foldlM_cons, fwd_addTokenClaim]
    cases addTokenClaim x c with
    | error e => rfl
    | ok x1 => exact fwd_addTokenClaimsL d t x1

theorem fwd_addTokenClaims (d : Forward) (s : State) (a : Nat) (l : List UserClaim) :
    addTokenClaims (s.fwd d) a (l.map (fun c => { c with release := c.release.fwd d })) =
      (addTokenClaims s a l).map (resFwd d) := by
  unfold addTokenClaims
  rw [fwd_addTokenClaimsL d l (s, 0)]
  cases l.foldlM addTokenClaim (s, 0) with
  | error e => rfl
  | ok r =>
    show (if r.2 ≠ a then _ else _) = Except.map (resFwd d) (if r.2 ≠ a then _ else _)
    split <;> rfl

theorem fwd_unstake {d : Forward} (hd : d.Whole) (s : State) (e : Env) (a : Nat) (hr : InRange d s.unlocking e.block) :
    unstake (s.fwd d) (e.fwd d) a = (unstake s e a).map (resFwd d) := by
  unfold unstake
  dsimp only
  rw [show (s.fwd d).mem = s.mem.fwd d from rfl, show (e.fwd d).sender = e.sender from rfl,
    show (s.mem.fwd d).weight e.sender = s.mem.weight e.sender from rfl, Members.fwd_decWeight]
  split
  · rfl
  cases s.mem.decWeight e.sender a with
  | error x => rfl
  | ok r =>
    show (do let m2 ← (r.1.fwd d).decTotal a (e.block.fwd d); _) =
      Except.map (resFwd d) (do let m2 ← r.1.decTotal a e.block; _)
    rw [Members.fwd_decTotal hd]
    cases r.1.decTotal a e.block with
    | error x => rfl
    | ok m2 =>
      show (do let s1 ← addClaim (({ s with mem := m2 } : State).fwd d) e.sender a (releaseAt s.unlocking (e.block.fwd d)); _) =
        Except.map (resFwd d) (do let s1 ← addClaim { s with mem := m2 } e.sender a (releaseAt s.unlocking e.block); _)
      rw [fwd_releaseAt hr, fwd_addClaim]
      cases addClaim { s with mem := m2 } e.sender a (releaseAt s.unlocking e.block) <;> rfl

theorem fwd_takeClaim (d : Forward) (x : State × Nat) (c : Claim) :
    takeClaim (x.1.fwd d, x.2) (c.fwd d) = (takeClaim x c).map (fun r => (r.1.fwd d, r.2)) := by
  unfold takeClaim
  show (do let sum ← cadd128 x.2 c.amount; _) = Except.map _ (do let sum ← cadd128 x.2 c.amount; _)
  cases cadd128 x.2 c.amount with
  | error e => rfl
  | ok sum =>
    refine congrArg (fun y => Except.ok (y, sum)) ?_
    symm
    unfold State.fwd
    congr 1
    exact Map.rename_remove x.1.claims (Equiv.refl Nat) (Claim.fwd d) c.id

theorem fwd_takeClaims (d : Forward) : ∀ (l : List Claim) (x : State × Nat),
    (l.map (Claim.fwd d)).foldlM takeClaim (x.1.fwd d, x.2) = (l.foldlM takeClaim x).map (fun r => (r.1.fwd d, r.2))
  | [], _ => rfl
  | c :: t, x => by
    rw [List.map_cons, List.foldlM_cons, List.foldlM_cons, fwd_takeClaim]
    cases takeClaim x c with
    | error e => rfl
    | ok x1 => exact fwd_takeClaims d t x1

theorem fwd_claim (d : Forward) (s : State) (e : Env) (u : Option Addr) :
    claim (s.fwd d) (e.fwd d) u = (claim s e u).map (resFwd d) := by
  unfold claim
  dsimp only
  rw [show (e.fwd d).sender = e.sender from rfl, show (e.fwd d).block = e.block.fwd d from rfl, fwd_getReleasable,
    fwd_takeClaims d _ (s, 0)]
  split
  · rfl
  · cases (getReleasable s e.block (u.getD e.sender)).foldlM takeClaim (s, 0) <;> rfl

theorem fwd_exec {d : Forward} (hd : d.Whole) (k : Kind) (s : State) (c : Call) (hr : InRange d s.unlocking c.env.block) :
    exec k (s.fwd d) (c.fwd d).env (c.fwd d).msg = (exec k s c.env c.msg).map (resFwd d) := by
  obtain ⟨e, m, x⟩ := c
  cases m with
  | receive a h =>
    show (if k = .token then receive (s.fwd d) (e.fwd d) a (h.fwd d) else _) = Except.map _ (if k = .token then _ else _)
    split
    · unfold receive
      rw [show (e.fwd d).sender = e.sender from rfl, show (s.fwd d).asset = s.asset from rfl]
      split
      · rfl
      cases h with
      | stake u => exact fwd_stakeFor hd s e u a
      | addStakes l => exact fwd_addStakes hd s e a l
      | addClaims l => exact fwd_addTokenClaims d s a l
      | unknown => rfl
    · rfl
  | stakeDenom f u =>
    show (if k = .denom then stakeDenom (s.fwd d) (e.fwd d) f u else _) = Except.map _ (if k = .denom then _ else _)
    split
    · unfold stakeDenom
      split
      · rw [show (s.fwd d).asset = s.asset from rfl]
        split
        · rfl
        · exact fwd_stakeFor hd s e _ _
      · rfl
    · rfl
  | unstake a => exact fwd_unstake hd s e a hr
  | claim u => exact fwd_claim d s e u
  | updateUnlocking p =>
    show updateUnlocking (s.fwd d) (e.fwd d) p = (updateUnlocking s e p).map (resFwd d)
    unfold updateUnlocking
    rw [show (e.fwd d).sender = e.sender from rfl, show (e.fwd d).controller = e.controller from rfl]
    split <;> rfl
  | addHook h =>
    show (do let m ← (s.mem.fwd d).addHook (e.fwd d) h; _) = Except.map _ (do let m ← s.mem.addHook e h; _)
    rw [Members.fwd_addHook]
    cases s.mem.addHook e h <;> rfl
  | removeHook h =>
    show (do let m ← (s.mem.fwd d).removeHook (e.fwd d) h; _) = Except.map _ (do let m ← s.mem.removeHook e h; _)
    rw [Members.fwd_removeHook]
    cases s.mem.removeHook e h <;> rfl

theorem fwd_step {d : Forward} (hd : d.Whole) (k : Kind) (s : State) (c : Call) (hr : InRange d s.unlocking c.env.block) :
    step k (s.fwd d) (c.fwd d) = resFwd d (step k s c) := by
  unfold step
  rw [fwd_exec hd k s c hr]
  cases exec k s c.env c.msg with
  | error e => rfl
  | ok r =>
    show (if c.delivered then resFwd d r else (s.fwd d, [])) = resFwd d (if c.delivered then r else (s, []))
    split <;> rfl

theorem fwd_run {d : Forward} (hd : d.Whole) (k : Kind) (P : Duration → Prop) : ∀ (h : List Call) (s : State),
    Reachable k s → P s.unlocking → (∀ p, Sets h p → P p) → (∀ c ∈ h, ∀ p, P p → InRange d p c.env.block) →
    run k (s.fwd d) (h.map (Call.fwd d)) = (run k s h).fwd d ∧
    sent k (s.fwd d) (h.map (Call.fwd d)) = sent k s h ∧ P (run k s h).unlocking
  | [], _, _, hs, _, _ => ⟨rfl, rfl, hs⟩
  | c :: t, s, hq, hs, hP, hr => by
    have hs' : P (step k s c).1.unlocking := by
      by_cases h : (step k s c).1.unlocking = s.unlocking
      · rw [h]; exact hs
      · obtain ⟨_, p, hp, h2⟩ := C27_only_controller hq c h
        rw [h2]; exact hP p ⟨c, List.mem_cons_self, hp⟩
    have ih := fwd_run hd k P t (step k s c).1 (reachable_step hq c) hs'
      (fun p ⟨x, hx, hp⟩ => hP p ⟨x, List.mem_cons_of_mem _ hx, hp⟩) (fun x hx => hr x (List.mem_cons_of_mem _ hx))
    have h1 := fwd_step hd k s c (hr c List.mem_cons_self _ hs)
    rw [List.map_cons]
    show run k (step k (s.fwd d) (c.fwd d)).1 _ = _ ∧
      (step k (s.fwd d) (c.fwd d)).2 ++ sent k (step k (s.fwd d) (c.fwd d)).1 _ = (step k s c).2 ++ _ ∧ _
    rw [h1]
    exact ⟨ih.1, congrArg _ ih.2.1, ih.2.2⟩

/-! ## C170 -/

/-- Token and denom staking: a history that takes place later, by any number of blocks and whole seconds, goes as it did.
Every message is answered as before, with the same error if it is refused; the same payments and notifications are sent;
weights are the same, total weights are the same at the moments moved forward, and claims are the same but for their
release dates, which are moved forward as well. The release dates must stay below 2^64. -/
theorem C170_staking {d : Forward} (hd : d.Whole) (k : Kind) (b : Block) (asset : Addr) (u : Duration) (hooks : List Addr)
    (bh bs : List (Nat × Nat)) (h : List Call)
    (hr : ∀ c ∈ h, ∀ p, p = u ∨ Sets h p → InRange d p c.env.block) :
    let s0 := init b asset u hooks bh bs
    let s0' := init (b.fwd d) asset u hooks (cpFwd d.blocks bh) (cpFwd (d.nanos / 10 ^ 9) bs)
    let s := run k s0 h
    let s' := run k s0' (h.map (Call.fwd d))
    (∀ v, queryWeight s' v = queryWeight s v) ∧
    (∀ t, queryTotal s' (t.fwd d) = queryTotal s t) ∧
    (∀ v, getClaims s' v = (getClaims s v).map (Claim.fwd d)) ∧
    (∀ v b, getReleasable s' (b.fwd d) v = (getReleasable s b v).map (Claim.fwd d)) ∧
    sent k s0' (h.map (Call.fwd d)) = sent k s0 h ∧
    ∀ c : Call, (∀ p, p = u ∨ Sets h p → InRange d p c.env.block) →
      ((exec k s' (c.fwd d).env (c.fwd d).msg).toBool = (exec k s c.env c.msg).toBool ∧
      ∀ e, exec k s' (c.fwd d).env (c.fwd d).msg = .error e ↔ exec k s c.env c.msg = .error e) := by
  intro s0 s0' s s'
  obtain ⟨hs, ho, hp⟩ := fwd_run hd k (fun p => p = u ∨ Sets h p) h s0 ⟨b, asset, u, hooks, bh, bs, [], rfl⟩ (.inl rfl) (fun p hp => .inr hp) hr
  rw [show s0.fwd d = s0' from fwd_init hd b asset u hooks bh bs] at hs ho
  have hs' : s' = s.fwd d := hs
  rw [hs']
  refine ⟨fun v => rfl, fun t => ?_, fun v => fwd_getClaims d s v, fun v b => fwd_getReleasable d s b v, ho, fun c hc => ?_⟩
  · cases t with
    | height x => exact Members.fwd_totalAtHeight d s.mem x
    | time x => exact Members.fwd_totalAtTime hd s.mem x
    | never => rfl
  · rw [fwd_exec hd k s c (hc _ hp)]
    cases exec k s c.env c.msg with
    | ok t => simp [Except.map, Except.toBool]
    | error e => simp [Except.map, Except.toBool]

/-- The sample history a year later: 5 256 000 blocks, 31 536 000 seconds. -/
def yearLater : Forward := ⟨5256000, 31536000 * 10 ^ 9⟩

example : yearLater.Whole ∧ (∀ c ∈ smpToken, ∀ p, p = .time 100 ∨ Sets smpToken p → InRange yearLater p c.env.block) ∧
    sent .token smpInit smpToken ≠ [] ∧
    (getClaims (run .token (init ⟨10 + 5256000, (10 + 31536000) * 10 ^ 9⟩ 5 (.time 100) [7, 8] [] [])
      (smpToken.map (Call.fwd yearLater))) 1).map (·.release) = [.timestamp (31536113 * 10 ^ 9)] ∧
    (getClaims (run .token smpInit smpToken) 1).map (·.release) = [.timestamp (113 * 10 ^ 9)] := by
  refine ⟨⟨31536000, by decide +kernel⟩, ?_, by decide +kernel, by decide +kernel, by decide +kernel⟩
  intro c hc p hp
  have hp' : p = .time 100 := by
    rcases hp with rfl | ⟨x, hx, hm⟩
    · rfl
    · simp only [smpToken, List.mem_cons, List.not_mem_nil, or_false] at hx
      rcases hx with rfl | rfl | rfl | rfl | rfl | rfl | rfl <;> cases hm
  subst hp'
  simp only [smpToken, List.mem_cons, List.not_mem_nil, or_false] at hc
  rcases hc with rfl | rfl | rfl | rfl | rfl | rfl | rfl <;> (unfold InRange; decide +kernel)

/-- Half a second makes a difference to the totals of the past: with it, the two changes below fall into different
seconds, and the total at the second of the later one is then the one before that change. -/
theorem C170_half_second_witness :
    let h : List Call := [⟨⟨⟨11, 10 ^ 9 * 20 + 400000000⟩, 5, 9, fun _ => false⟩, .receive 100 (.stake 1), true⟩,
      ⟨⟨⟨12, 10 ^ 9 * 20 + 600000000⟩, 1, 9, fun _ => false⟩, .unstake 40, true⟩]
    let d : Forward := ⟨0, 500000000⟩
    queryTotal (run .token smpInit h) (.time (10 ^ 9 * 20 + 600000000)) = 0 ∧
    queryTotal (run .token (init (Block.fwd d ⟨10, 10 * 10 ^ 9⟩) 5 (.time 100) [7, 8] [] []) (h.map (Call.fwd d)))
      (.time (10 ^ 9 * 20 + 600000000 + 500000000)) = 100 := by decide +kernel

/-- Near the end of the range of the clock a release date comes out in the past: the tokens unstaked are then paid at
once, without the unlocking period. -/
theorem C170_wrap_witness :
    let h : List Call := [⟨smpEnv 11 5, .receive 100 (.stake 1), true⟩, ⟨smpEnv 12 1, .unstake 40, true⟩,
      ⟨smpEnv 12 1, .claim none, true⟩]
    let d : Forward := ⟨0, 18446744000 * 10 ^ 9⟩
    d.Whole ∧ (sent .token smpInit h).getLast? = some (.pay 1 0) ∧
    (sent .token (init (Block.fwd d ⟨10, 10 * 10 ^ 9⟩) 5 (.time 100) [7, 8] [] []) (h.map (Call.fwd d))).getLast? =
      some (.pay 1 40) := by
  refine ⟨⟨18446744000, by decide +kernel⟩, by decide +kernel, by decide +kernel⟩

end Verif.Staking
