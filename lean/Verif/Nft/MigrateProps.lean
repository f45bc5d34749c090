import Verif.Nft.Migrate
import Verif.Nft.Props

/-!
# Migration of NFT staking contracts from before version 1.2.0: C135
-/

namespace Verif.Nft
open Verif
open Verif.Staking (Duration)

/-! ### Specification -/

/-- A contract from before version 1.2.0: it has a configuration in the old format, and none in the new one. -/
def Stored.Old (s : Stored) : Prop := s.config = none ∧ s.old ≠ none

/-- Messages with which members stake, unstake and claim, and the controller sets the unlocking period. -/
def Msg.concerns : Msg → Bool
  | .receiveNft _ _ | .unstake _ | .claim _ | .updateUnlocking _ => true
  | .addHook _ | .removeHook _ => false

/-- What `Nft.run` leaves out: all that is sent in a history. -/
def sentBy (s : State) : List Call → List Out
  | [] => []
  | c :: t => (step s c).2 ++ sentBy (step s c).1 t

/-! ### Lemmas -/

theorem exec_without {s : Stored} (h : s.config = none) {e : NEnv} {m : Msg} {r : Stored × List Out}
    (hx : s.exec e m = .ok r) : m.concerns = false ∧ r.2 = [] ∧ r.1.config = none ∧ r.1.old = s.old ∧
      r.1.stakes = s.stakes ∧ r.1.claims = s.claims ∧ ∀ u, r.1.mem.weight u = s.mem.weight u := by
  unfold Stored.exec at hx
  rw [h] at hx
  cases m with
  | addHook a =>
    obtain ⟨x, hm, hr⟩ := bind_ok_iff.1 hx
    cases hr
    refine ⟨rfl, rfl, rfl, rfl, rfl, rfl, fun u => ?_⟩
    unfold Members.addHook at hm
    split at hm
    · cases hm
    · cases hm; rfl
  | removeHook a =>
    obtain ⟨x, hm, hr⟩ := bind_ok_iff.1 hx
    cases hr
    refine ⟨rfl, rfl, rfl, rfl, rfl, rfl, fun u => ?_⟩
    unfold Members.removeHook at hm
    split at hm
    · cases hm
    · cases hm; rfl
  | _ => cases hx

theorem run_without (l : List Call) : ∀ {s : Stored}, s.config = none →
    (s.run l).2 = [] ∧ (s.run l).1.config = none ∧ (s.run l).1.old = s.old ∧ (s.run l).1.stakes = s.stakes ∧
      (s.run l).1.claims = s.claims ∧ ∀ u, (s.run l).1.mem.weight u = s.mem.weight u := by
  induction l with
  | nil => intro s h; exact ⟨rfl, h, rfl, rfl, rfl, fun _ => rfl⟩
  | cons c t ih =>
    intro s h
    have hs : (s.step c).2 = [] ∧ (s.step c).1.config = none ∧ (s.step c).1.old = s.old ∧ (s.step c).1.stakes = s.stakes ∧
        (s.step c).1.claims = s.claims ∧ ∀ u, (s.step c).1.mem.weight u = s.mem.weight u := by
      unfold Stored.step
      split
      · rename_i r hr
        split
        · exact (exec_without h hr).2
        · exact ⟨rfl, h, rfl, rfl, rfl, fun _ => rfl⟩
      · exact ⟨rfl, h, rfl, rfl, rfl, fun _ => rfl⟩
    obtain ⟨h1, h2, h3, h4, h5, h6⟩ := hs
    obtain ⟨k1, k2, k3, k4, k5, k6⟩ := ih h2
    simp only [Stored.run]
    exact ⟨by rw [h1, k1]; rfl, k2, k3.trans h3, k4.trans h4, k5.trans h5, fun u => (k6 u).trans (h6 u)⟩

theorem step_with {s : Stored} {c : Config} (h : s.config = some c) (x : Call) :
    s.step x = (s.after (step (s.withConfig c) x).1, (step (s.withConfig c) x).2) := by
  have hs : s.after (s.withConfig c) = s := by
    cases s
    simp only at h
    subst h
    rfl
  unfold Stored.step Stored.exec step
  rw [h]
  simp only
  cases hx : Nft.exec (s.withConfig c) x.env x.msg with
  | error e => rw [show (Except.error e >>= fun r : State × List Out =>
      (pure (s.after r.1, r.2) : Except Err (Stored × List Out))) = .error e from rfl]; simp only; rw [hs]
  | ok r =>
    simp only [bind, Except.bind, pure, Except.pure]
    split
    · rfl
    · rw [hs]

theorem run_with (l : List Call) : ∀ {s : Stored} {c : Config}, s.config = some c →
    s.run l = (s.after (run (s.withConfig c) l), sentBy (s.withConfig c) l) := by
  induction l with
  | nil =>
    intro s c h
    cases s
    simp only at h
    subst h
    rfl
  | cons x t ih =>
    intro s c h
    have h1 := step_with h x
    have hc : (s.step x).1.config = some ⟨(step (s.withConfig c) x).1.nft, (step (s.withConfig c) x).1.unlocking⟩ := by
      rw [h1]; rfl
    have h2 := ih hc
    simp only [Stored.run, run, sentBy]
    rw [h2, h1]
    rfl

/-! ## C135 -/

/-- C135, what fails: after the migration of a contract from before version 1.2.0 to the present code, no member can stake,
unstake or claim, and the unlocking period cannot be changed, whatever is sent to the contract and whatever passes. All
stakes and claims stay as they are, weights included, and not one NFT is ever sent. -/
theorem C135_stuck {s : Stored} (h : s.Old) (l : List Call) :
    (∀ e m, m.concerns = true → ¬ ∃ r, (s.migrate.run l).1.exec e m = .ok r) ∧
    (s.migrate.run l).2 = [] ∧ (s.migrate.run l).1.stakes = s.stakes ∧ (s.migrate.run l).1.claims = s.claims ∧
    ∀ u, (s.migrate.run l).1.mem.weight u = s.mem.weight u := by
  obtain ⟨h1, h2, _, h4, h5, h6⟩ := run_without l (s := s.migrate) h.1
  refine ⟨fun e m hm hr => ?_, h1, h4, h5, h6⟩
  obtain ⟨r, hr⟩ := hr
  have := (exec_without h2 hr).1
  rw [hm] at this
  cases this

/-- C135, what holds: the conversion that the package provides (and nothing calls) keeps all there is: from then on the
contract is, in every history, the one of the present version with the same collection, unlocking period, stakes, claims
and weights. A further migration changes nothing. -/
theorem C135_converted_partial {s : Stored} {o : OldConfig} (h : s.old = some o) :
    ∃ s', s.convert = .ok s' ∧ ∀ l, ∃ t u,
      t = run ⟨s.mem, s.stakes, s.claims, s.nextClaim, .cw721 o.nft, o.unlocking⟩ l ∧ s'.migrate.run l = (u, sentBy
        ⟨s.mem, s.stakes, s.claims, s.nextClaim, .cw721 o.nft, o.unlocking⟩ l) ∧
      u.config = some ⟨t.nft, t.unlocking⟩ ∧ u.mem = t.mem ∧ u.stakes = t.stakes ∧ u.claims = t.claims ∧
      u.nextClaim = t.nextClaim := by
  refine ⟨{ s with config := some ⟨.cw721 o.nft, o.unlocking⟩ }, ?_, fun l => ⟨_, _, rfl,
    run_with l (c := ⟨.cw721 o.nft, o.unlocking⟩) rfl, rfl, rfl, rfl, rfl, rfl⟩⟩
  unfold Stored.convert
  rw [h]

/-! ### Examples -/

/-- A contract from before version 1.2.0, with NFTs 101 and 102 of user 1 staked. -/
def smpOld : Stored :=
  let s := run (init ⟨10, 10 * 10 ^ 9⟩ (.cw721 5) (.time 100) [7] [] [])
    [⟨smpEnv 11 5, .receiveNft 101 (.stake 1), true⟩, ⟨smpEnv 11 5, .receiveNft 102 (.stake 1), true⟩]
  ⟨some ⟨5, .time 100⟩, none, s.mem, s.stakes, s.claims, s.nextClaim⟩

/-- What the user sends: unstake and claim. -/
def smpLeave : List Call := [⟨smpEnv 20 1, .unstake [101, 102], true⟩, ⟨smpEnv 200 1, .claim none, true⟩]

/-- The user gets nothing after the migration, and both NFTs after the conversion. -/
example : smpOld.Old ∧ smpOld.migrate.mem.weight 1 = 2 ∧ ((smpOld.migrate.run smpLeave).1.stakes.get 101 = some 1) ∧
    (smpOld.migrate.run smpLeave).2 = [] ∧
    (smpOld.convert.toOption.map (fun s => (s.migrate.run smpLeave).2.filter (fun o => match o with | .sendNft _ _ => true | _ => false))) =
      some [.sendNft 1 101, .sendNft 1 102] :=
  ⟨⟨by decide +kernel, by decide +kernel⟩, by decide +kernel, by decide +kernel, by decide +kernel, by decide +kernel⟩

end Verif.Nft
