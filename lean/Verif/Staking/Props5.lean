import Verif.Membership.Rename
import Verif.Staking.Props4

/-!
# Token and denom staking: all users are treated alike (C168)
-/

set_option linter.unusedSimpArgs false

namespace Verif.Staking
open Verif

/-! ## Specification -/

/-- A claim with another name for its user. -/
def Claim.ren (π : Renaming) (c : Claim) : Claim := { c with user := π c.user }

/-- A message attached to tokens, with other names for the users. -/
def Hook.ren (π : Renaming) : Hook → Hook
  | .stake u => .stake (π u)
  | .addStakes l => .addStakes (l.map (fun p => (π p.1, p.2)))
  | .addClaims l => .addClaims (l.map (fun c => { c with user := π c.user }))
  | .unknown => .unknown

/-- A message with other names for the users; the hook contracts keep theirs. -/
def Msg.ren (π : Renaming) : Msg → Msg
  | .receive a h => .receive a (h.ren π)
  | .stakeDenom f u => .stakeDenom f (u.map π)
  | .unstake a => .unstake a
  | .claim u => .claim (u.map π)
  | .updateUnlocking p => .updateUnlocking p
  | .addHook h => .addHook h
  | .removeHook h => .removeHook h

/-- A call with other names for the users. -/
def Call.ren (π : Renaming) (c : Call) : Call := ⟨c.env.ren π, c.msg.ren π, c.delivered⟩

/-- The contracts that send tokens to the staking contract keep their names. -/
def SendersKept (π : Renaming) (c : Call) : Prop := ∀ a h, c.msg = .receive a h → π c.env.sender = c.env.sender

/-! ## The renamed state -/

/-- The state with other names for the users. -/
def State.ren (π : Renaming) (s : State) : State :=
  { s with mem := s.mem.ren π, claims := s.claims.rename (Equiv.refl Nat) (Claim.ren π) }

/-- A result with other names for the users. -/
def resRen (π : Renaming) (r : State × List Out) : State × List Out := (r.1.ren π, r.2.map (Out.ren π))

theorem ren_init (π : Renaming) (b : Block) (asset : Addr) (u : Duration) (hooks : List Addr) (bh bs : List (Nat × Nat)) :
    (init b asset u hooks bh bs).ren π = init b asset u hooks bh bs := rfl

theorem ren_addClaim (π : Renaming) (s : State) (u : Addr) (a : Nat) (r : ReleaseAt) :
    addClaim (s.ren π) (π u) a r = (addClaim s u a r).map (State.ren π) := by
  unfold addClaim
  rw [show (s.ren π).nextClaim = s.nextClaim from rfl]
  cases cadd64 s.nextClaim 1 with
  | error e => rfl
  | ok n =>
    refine congrArg Except.ok ?_
    symm
    unfold State.ren
    congr 1
    exact Map.rename_set s.claims (Equiv.refl Nat) (Claim.ren π) _ _

theorem ren_getClaims (π : Renaming) (s : State) (u : Addr) :
    getClaims (s.ren π) (π u) = (getClaims s u).map (Claim.ren π) := by
  unfold getClaims
  show ((s.claims.rename (Equiv.refl Nat) (Claim.ren π)).values).filter _ = _
  rw [Map.rename_refl_values, List.filter_map]
  congr 1
  refine List.filter_congr fun c _ => ?_
  show decide (π c.user = π u) = decide (c.user = u)
  simp

theorem ren_getReleasable (π : Renaming) (s : State) (b : Block) (u : Addr) :
    getReleasable (s.ren π) b (π u) = (getReleasable s b u).map (Claim.ren π) := by
  unfold getReleasable
  rw [ren_getClaims, List.filter_map]
  rfl

theorem ren_stakeFor (π : Renaming) (s : State) (e : Env) (u : Addr) (a : Nat) :
    stakeFor (s.ren π) (e.ren π) (π u) a = (stakeFor s e u a).map (resRen π) := by
  unfold stakeFor
  rw [show (e.ren π).restricted (π u) = e.restricted u from congrArg e.restricted (Equiv.symm_apply_apply π u)]
  split
  · rfl
  rw [show (s.ren π).mem = s.mem.ren π from rfl, Members.ren_weight, Members.ren_incWeight]
  cases s.mem.incWeight u a with
  | error x => rfl
  | ok r =>
    show (do let m2 ← (r.1.ren π).incTotal a e.block; _) = _
    rw [Members.ren_incTotal]
    show _ = Except.map (resRen π) (do let m2 ← r.1.incTotal a e.block; _)
    cases r.1.incTotal a e.block with
    | error x => rfl
    | ok m2 => exact congrArg (fun x => Except.ok (_, x)) (Members.ren_report π m2 [⟨u, s.mem.weight u, r.2⟩])

/-- Accumulator of the loop of `addStakes`. -/
def accRen (π : Renaming) (x : Members × Nat × List WeightChange) : Members × Nat × List WeightChange :=
  (x.1.ren π, x.2.1, x.2.2.map (WeightChange.ren π))

theorem ren_addStake (π : Renaming) (e : Env) (x : Members × Nat × List WeightChange) (p : Addr × Nat) :
    addStake (e.ren π) (accRen π x) (π p.1, p.2) = (addStake e x p).map (accRen π) := by
  unfold addStake
  dsimp only
  rw [show (e.ren π).restricted (π p.1) = e.restricted p.1 from congrArg e.restricted (Equiv.symm_apply_apply π p.1)]
  split
  · rfl
  split
  · rfl
  show (do let new ← cadd128 ((x.1.ren π).weight (π p.1)) p.2; _) = _
  rw [Members.ren_weight]
  cases cadd128 (x.1.weight p.1) p.2 with
  | error y => rfl
  | ok new =>
    show (do let sum ← cadd128 x.2.1 p.2; _) = Except.map (accRen π) (do let sum ← cadd128 x.2.1 p.2; _)
    cases cadd128 x.2.1 p.2 with
    | error y => rfl
    | ok sum =>
      refine congrArg Except.ok ?_
      unfold accRen
      dsimp only
      rw [Members.ren_setWeight, List.map_append]
      rw [Members.ren_weight]
      rfl

theorem ren_addStakesL (π : Renaming) (e : Env) : ∀ (l : List (Addr × Nat)) (x : Members × Nat × List WeightChange),
    (l.map (fun p => (π p.1, p.2))).foldlM (addStake (e.ren π)) (accRen π x) =
      (l.foldlM (addStake e) x).map (accRen π)
  | [], _ => rfl
  | p :: t, x => by
    rw [List.map_cons, List.foldlM_cons, List.foldlM_cons, ren_addStake]
    cases addStake e x p with
    | error y => rfl
    | ok x1 => exact ren_addStakesL π e t x1

theorem ren_addStakes (π : Renaming) (s : State) (e : Env) (a : Nat) (l : List (Addr × Nat)) :
    addStakes (s.ren π) (e.ren π) a (l.map (fun p => (π p.1, p.2))) = (addStakes s e a l).map (resRen π) := by
  unfold addStakes
  have h := ren_addStakesL π e l (s.mem, 0, [])
  rw [show accRen π (s.mem, 0, []) = ((s.ren π).mem, 0, []) from rfl] at h
  rw [h]
  cases l.foldlM (addStake e) (s.mem, 0, []) with
  | error y => rfl
  | ok r =>
    show (if r.2.1 ≠ a then _ else _) = Except.map (resRen π) (if r.2.1 ≠ a then _ else _)
    split
    · rfl
    show (do let m2 ← (r.1.ren π).incTotal r.2.1 e.block; _) = Except.map (resRen π) (do let m2 ← r.1.incTotal r.2.1 e.block; _)
    rw [Members.ren_incTotal]
    cases r.1.incTotal r.2.1 e.block with
    | error y => rfl
    | ok m2 => exact congrArg (fun x => Except.ok (_, x)) (Members.ren_report π m2 r.2.2)

theorem ren_addTokenClaim (π : Renaming) (x : State × Nat) (c : UserClaim) :
    addTokenClaim (x.1.ren π, x.2) { c with user := π c.user } = (addTokenClaim x c).map (fun r => (r.1.ren π, r.2)) := by
  unfold addTokenClaim
  dsimp only
  rw [ren_addClaim]
  cases addClaim x.1 c.user c.amount c.release with
  | error e => rfl
  | ok s1 =>
    show (do let sum ← cadd128 x.2 c.amount; _) = Except.map _ (do let sum ← cadd128 x.2 c.amount; _)
    cases cadd128 x.2 c.amount <;> rfl

theorem ren_addTokenClaimsL (π : Renaming) : ∀ (l : List UserClaim) (x : State × Nat),
    (l.map (fun c => { c with user := π c.user })).foldlM addTokenClaim (x.1.ren π, x.2) =
      (l.foldlM addTokenClaim x).map (fun r => (r.1.ren π, r.2))
  | [], _ => rfl
  | c :: t, x => by
    rw [List.map_cons, List.foldlM_cons, List.foldlM_cons, ren_addTokenClaim]
    cases addTokenClaim x c with
    | error e => rfl
    | ok x1 => exact ren_addTokenClaimsL π t x1

theorem ren_addTokenClaims (π : Renaming) (s : State) (a : Nat) (l : List UserClaim) :
    addTokenClaims (s.ren π) a (l.map (fun c => { c with user := π c.user })) = (addTokenClaims s a l).map (resRen π) := by
  unfold addTokenClaims
  rw [ren_addTokenClaimsL π l (s, 0)]
  cases l.foldlM addTokenClaim (s, 0) with
  | error e => rfl
  | ok r =>
    show (if r.2 ≠ a then _ else _) = Except.map (resRen π) (if r.2 ≠ a then _ else _)
    split <;> rfl

theorem ren_unstake (π : Renaming) (s : State) (e : Env) (a : Nat) :
    unstake (s.ren π) (e.ren π) a = (unstake s e a).map (resRen π) := by
  unfold unstake
  dsimp only
  rw [show (s.ren π).mem = s.mem.ren π from rfl, show (e.ren π).sender = π e.sender from rfl, Members.ren_weight,
    Members.ren_decWeight]
  split
  · rfl
  cases s.mem.decWeight e.sender a with
  | error x => rfl
  | ok r =>
    show (do let m2 ← (r.1.ren π).decTotal a e.block; _) = Except.map (resRen π) (do let m2 ← r.1.decTotal a e.block; _)
    rw [Members.ren_decTotal]
    cases r.1.decTotal a e.block with
    | error x => rfl
    | ok m2 =>
      show (do let s1 ← addClaim (({ s with mem := m2 } : State).ren π) (π e.sender) a (releaseAt s.unlocking e.block); _) =
        Except.map (resRen π) (do let s1 ← addClaim { s with mem := m2 } e.sender a (releaseAt s.unlocking e.block); _)
      rw [ren_addClaim]
      cases addClaim { s with mem := m2 } e.sender a (releaseAt s.unlocking e.block) with
      | error x => rfl
      | ok s1 =>
        exact congrArg (fun x => Except.ok (_, x)) (Members.ren_report π s1.mem [⟨e.sender, s.mem.weight e.sender, r.2⟩])

theorem ren_takeClaim (π : Renaming) (x : State × Nat) (c : Claim) :
    takeClaim (x.1.ren π, x.2) (c.ren π) = (takeClaim x c).map (fun r => (r.1.ren π, r.2)) := by
  unfold takeClaim
  show (do let sum ← cadd128 x.2 c.amount; _) = Except.map _ (do let sum ← cadd128 x.2 c.amount; _)
  cases cadd128 x.2 c.amount with
  | error e => rfl
  | ok sum =>
    refine congrArg (fun y => Except.ok (y, sum)) ?_
    symm
    unfold State.ren
    congr 1
    exact Map.rename_remove x.1.claims (Equiv.refl Nat) (Claim.ren π) c.id

theorem ren_takeClaims (π : Renaming) : ∀ (l : List Claim) (x : State × Nat),
    (l.map (Claim.ren π)).foldlM takeClaim (x.1.ren π, x.2) = (l.foldlM takeClaim x).map (fun r => (r.1.ren π, r.2))
  | [], _ => rfl
  | c :: t, x => by
    rw [List.map_cons, List.foldlM_cons, List.foldlM_cons, ren_takeClaim]
    cases takeClaim x c with
    | error e => rfl
    | ok x1 => exact ren_takeClaims π t x1

theorem ren_getD (π : Renaming) (u : Option Addr) (x : Addr) : (u.map π).getD (π x) = π (u.getD x) := by
  cases u <;> rfl

theorem ren_claim (π : Renaming) (s : State) (e : Env) (u : Option Addr) :
    claim (s.ren π) (e.ren π) (u.map π) = (claim s e u).map (resRen π) := by
  unfold claim
  dsimp only
  rw [show (e.ren π).sender = π e.sender from rfl, ren_getD, show (e.ren π).block = e.block from rfl, ren_getReleasable,
    ren_takeClaims π _ (s, 0)]
  by_cases h : e.sender = u.getD e.sender
  · rw [if_neg (by rw [← h]; simp), if_neg (by rw [← h]; simp)]
    cases (getReleasable s e.block (u.getD e.sender)).foldlM takeClaim (s, 0) <;> rfl
  · rw [if_pos (by simpa using h), if_pos h]
    rfl

theorem ren_exec (π : Renaming) (k : Kind) (s : State) (c : Call) (hc : SendersKept π c) :
    exec k (s.ren π) (c.env.ren π) (c.msg.ren π) = (exec k s c.env c.msg).map (resRen π) := by
  obtain ⟨e, m, d⟩ := c
  cases m with
  | receive a h =>
    show (if k = .token then receive (s.ren π) (e.ren π) a (h.ren π) else _) = Except.map _ (if k = .token then _ else _)
    split
    · unfold receive
      rw [show (e.ren π).sender = e.sender from hc a h rfl, show (s.ren π).asset = s.asset from rfl]
      split
      · rfl
      cases h with
      | stake u => exact ren_stakeFor π s e u a
      | addStakes l => exact ren_addStakes π s e a l
      | addClaims l => exact ren_addTokenClaims π s a l
      | unknown => rfl
    · rfl
  | stakeDenom f u =>
    show (if k = .denom then stakeDenom (s.ren π) (e.ren π) f (u.map π) else _) = Except.map _ (if k = .denom then _ else _)
    split
    · unfold stakeDenom
      split
      · rw [show (s.ren π).asset = s.asset from rfl]
        split
        · rfl
        · rw [show (e.ren π).sender = π e.sender from rfl, ren_getD]
          exact ren_stakeFor π s e _ _
      · rfl
    · rfl
  | unstake a => exact ren_unstake π s e a
  | claim u => exact ren_claim π s e u
  | updateUnlocking p =>
    show updateUnlocking (s.ren π) (e.ren π) p = (updateUnlocking s e p).map (resRen π)
    unfold updateUnlocking Env.ren
    by_cases h : e.sender = e.controller
    · simp [h, Except.map]
      rfl
    · simp [h, Except.map]
  | addHook h =>
    show (do let m ← (s.mem.ren π).addHook (e.ren π) h; _) = Except.map _ (do let m ← s.mem.addHook e h; _)
    rw [Members.ren_addHook]
    cases s.mem.addHook e h <;> rfl
  | removeHook h =>
    show (do let m ← (s.mem.ren π).removeHook (e.ren π) h; _) = Except.map _ (do let m ← s.mem.removeHook e h; _)
    rw [Members.ren_removeHook]
    cases s.mem.removeHook e h <;> rfl

theorem ren_step (π : Renaming) (k : Kind) (s : State) (c : Call) (hc : SendersKept π c) :
    step k (s.ren π) (c.ren π) = resRen π (step k s c) := by
  unfold step
  have h := ren_exec π k s c hc
  show (match exec k (s.ren π) (c.env.ren π) (c.msg.ren π) with | .ok r => if c.delivered then r else _ | .error _ => _) = _
  rw [h]
  cases exec k s c.env c.msg with
  | error e => rfl
  | ok r =>
    show (if c.delivered then resRen π r else (s.ren π, [])) = resRen π (if c.delivered then r else (s, []))
    split <;> rfl

theorem ren_run (π : Renaming) (k : Kind) : ∀ (h : List Call) (s : State), (∀ c ∈ h, SendersKept π c) →
    run k (s.ren π) (h.map (Call.ren π)) = (run k s h).ren π ∧
    sent k (s.ren π) (h.map (Call.ren π)) = (sent k s h).map (Out.ren π)
  | [], _, _ => ⟨rfl, rfl⟩
  | c :: t, s, hc => by
    have ih := ren_run π k t (step k s c).1 (fun x hx => hc x (List.mem_cons_of_mem _ hx))
    have h1 := ren_step π k s c (hc c List.mem_cons_self)
    rw [List.map_cons]
    show run k (step k (s.ren π) (c.ren π)).1 _ = _ ∧
      (step k (s.ren π) (c.ren π)).2 ++ sent k (step k (s.ren π) (c.ren π)).1 _ = ((step k s c).2 ++ _).map (Out.ren π)
    rw [h1, List.map_append]
    exact ⟨ih.1, congrArg _ ih.2⟩

/-! ## C168 -/

/-- Token and denom staking: if all the users in a history get other names, then every message is answered as before,
with the same error if it is refused; everyone has under the new name the weight and the claims there were under the old
one, the total weights are the same, and the same notifications and payments were sent, with the new names. -/
theorem C168_staking (π : Renaming) (k : Kind) (b : Block) (asset : Addr) (d : Duration) (hooks : List Addr)
    (bh bs : List (Nat × Nat)) (h : List Call) (hk : ∀ c ∈ h, SendersKept π c) :
    let s := run k (init b asset d hooks bh bs) h
    let s' := run k (init b asset d hooks bh bs) (h.map (Call.ren π))
    (∀ u, queryWeight s' (π u) = queryWeight s u) ∧
    (∀ t, queryTotal s' t = queryTotal s t) ∧
    (∀ u, getClaims s' (π u) = (getClaims s u).map (Claim.ren π)) ∧
    sent k (init b asset d hooks bh bs) (h.map (Call.ren π)) =
      (sent k (init b asset d hooks bh bs) h).map (Out.ren π) ∧
    ∀ c, SendersKept π c →
      ((exec k s' (c.env.ren π) (c.msg.ren π)).toBool = (exec k s c.env c.msg).toBool ∧
      ∀ e, exec k s' (c.env.ren π) (c.msg.ren π) = .error e ↔ exec k s c.env c.msg = .error e) := by
  intro s s'
  obtain ⟨hs, ho⟩ := ren_run π k h (init b asset d hooks bh bs) hk
  rw [ren_init] at hs ho
  have hs' : s' = s.ren π := hs
  rw [hs']
  refine ⟨fun u => Members.ren_weight π s.mem u, fun t => ?_, fun u => ren_getClaims π s u, ho, fun c hc => ?_⟩
  · cases t <;> rfl
  · rw [ren_exec π k s c hc]
    cases exec k s c.env c.msg with
    | ok t => simp [Except.map, Except.toBool]
    | error e => simp [Except.map, Except.toBool]

/-- The sample history with users 1 and 2 exchanged: the claim of 3 tokens is then paid to user 2. -/
example : (∀ c ∈ smpToken, SendersKept (swap2 1 2) c) ∧
    sent .token smpInit [⟨smpEnv 14 5, .receive 3 (.addClaims [⟨1, 3, .height 20⟩]), true⟩, ⟨smpEnv 40 1, .claim none, true⟩] =
      [.pay 1 3] ∧
    sent .token smpInit ([⟨smpEnv 14 5, .receive 3 (.addClaims [⟨1, 3, .height 20⟩]), true⟩,
      ⟨smpEnv 40 1, .claim none, true⟩].map (Call.ren (swap2 1 2))) = [.pay 2 3] ∧
    queryWeight (run .token smpInit (smpToken.map (Call.ren (swap2 1 2)))) 2 = 70 ∧
    queryWeight (run .token smpInit smpToken) 1 = 70 ∧ queryWeight (run .token smpInit smpToken) 2 = 50 := by
  refine ⟨?_, by decide +kernel, by decide +kernel, by decide +kernel, by decide +kernel, by decide +kernel⟩
  intro c hc a h hm
  simp only [smpToken, List.mem_cons, List.not_mem_nil, or_false] at hc
  rcases hc with rfl | rfl | rfl | rfl | rfl | rfl | rfl <;> first | rfl | (cases hm)

end Verif.Staking
