import Verif.Dao.Props13
import Verif.Distributor.Props11

/-!
# The contracts of a DAO together: the limit on distributions, whatever happens in the DAO (C183)
-/

set_option linter.unusedSimpArgs false

namespace Verif.Dao
open Verif
open Verif.Distributor (claimable owedOf indexOf)

/-! ### Specification -/

/-- Who sends the message with which `x` distributes an asset: `x`, with coins, or the token to which `x` sent the order. -/
def payer (x : Addr) : AssetInfo → Addr
  | .cw20 t => t
  | _ => x

/-- The message with which an asset is distributed among the members. There is none for cw1155 tokens. -/
def distribution (n : Nat) : AssetInfo → Msg
  | .native d => .dist (.distributeNative [(d, n)])
  | .cw20 _ => .dist (.receiveCw20 true n)
  | .cw1155 _ _ => .dist (.distributeNative [])

/-- A message is refused by its contract. -/
def Refused (c : Cfg) (e : Ext) (w : World) (x : Addr) (m : Msg) : Prop := ∀ r, handle c e w x m ≠ .ok r

/-! ### Lemmas -/

/-- The index of an asset does not fall, and keeps its range. -/
def Rises (a : AssetInfo) (d d' : Distributor.State) : Prop :=
  indexOf d a ≤ indexOf d' a ∧ (indexOf d a < M128 → indexOf d' a < M128)

theorem Rises.refl (a : AssetInfo) (d : Distributor.State) : Rises a d d := ⟨le_refl _, id⟩

theorem Rises.trans {a : AssetInfo} {d d1 d2 : Distributor.State} (h : Rises a d d1) (h1 : Rises a d1 d2) : Rises a d d2 :=
  ⟨le_trans h.1 h1.1, fun hh => h1.2 (h.2 hh)⟩

theorem exec_rises {d : Distributor.State} {e : Distributor.Env} {m : Distributor.Msg}
    {x : Distributor.State × List Distributor.Out} (h : Distributor.exec d e m = .ok x) (a : AssetInfo) : Rises a d x.1 := by
  obtain ⟨inc, h1, _, _, h4, _⟩ := Distributor.exec_index h a
  exact ⟨by omega, h4⟩

theorem updateDist_rises {c : Cfg} {e : Ext} (a : AssetInfo) : ∀ (l : List Controller.Sub) {d d' : Distributor.State},
    updateDist c e d l = .ok d' → Rises a d d' := by
  intro l
  induction l with
  | nil =>
    intro d d' h
    cases h
    exact Rises.refl _ _
  | cons s t ih =>
    intro d d' h
    cases s with
    | distributor m =>
      simp only [updateDist] at h
      obtain ⟨r, h1, h2⟩ := bind_ok_iff.1 h
      exact (exec_rises h1 a).trans (ih h2)
    | _ => cases h

theorem deliver_rises {c : Cfg} {e : Ext} {f : Addr} (a : AssetInfo) : ∀ (l : List Out) {w : World} {r : World × List Item},
    deliver c e f w l = .ok r → Rises a w.dist r.1.dist := by
  intro l
  induction l with
  | nil =>
    intro w r h
    cases h
    exact Rises.refl _ _
  | cons o t ih =>
    intro w r h
    cases o with
    | notify x l' =>
      simp only [deliver] at h
      split at h
      · obtain ⟨r1, _, h⟩ := bind_ok_iff.1 h
        obtain ⟨d, h1, h⟩ := bind_ok_iff.1 h
        exact (updateDist_rises a _ h1).trans (ih h)
      · cases h
        exact Rises.refl _ _
    | _ =>
      cases h
      exact Rises.refl _ _

theorem handle_rises {c : Cfg} {e : Ext} {w : World} {x : Addr} {m : Msg} {r : World × List Item} (a : AssetInfo)
    (h : handle c e w x m = .ok r) : Rises a w.dist r.1.dist := by
  cases m with
  | ctl m =>
    simp only [handle, bind_ok_iff, pure_ok_iff] at h
    obtain ⟨_, _, h⟩ := h
    rw [← h]
    exact Rises.refl _ _
  | gov m =>
    simp only [handle, bind_ok_iff, pure_ok_iff] at h
    obtain ⟨_, _, h⟩ := h
    rw [← h]
    exact Rises.refl _ _
  | dist m =>
    simp only [handle, bind_ok_iff, pure_ok_iff] at h
    obtain ⟨_, h1, h⟩ := h
    rw [← h]
    exact exec_rises h1 a
  | mem m =>
    simp only [handle, bind_ok_iff] at h
    obtain ⟨_, _, h⟩ := h
    have h1 := deliver_rises a _ h
    exact h1
  | council m =>
    simp only [handle, bind_ok_iff] at h
    obtain ⟨_, _, h⟩ := h
    have h1 := deliver_rises a _ h
    exact h1

theorem Exec.rises {c : Cfg} {w w' : World} {q : List Item} (a : AssetInfo) (h : Exec c w q w') : Rises a w.dist w'.dist := by
  induction h with
  | nil => exact Rises.refl _ _
  | call e _ hr _ _ i1 i2 => exact ((handle_rises a hr).trans i1).trans i2
  | actions e _ hr _ _ i1 i2 => exact ((handle_rises a hr).trans i1).trans i2
  | failed _ i => exact i
  | deposit _ _ _ i1 i2 => exact Rises.trans i1 i2
  | other _ _ _ i1 i2 => exact i1.trans i2

theorem Later.rises {c : Cfg} {w w' : World} (a : AssetInfo) (h : Later c w w') : Rises a w.dist w'.dist := by
  induction h with
  | refl => exact Rises.refl _ _
  | tx _ _ hx ih => exact ih.trans (hx.rises a)
  | block _ _ _ ih => exact ih

theorem Reachable.index {c : Cfg} {w : World} (a : AssetInfo) (h : Reachable c w) : indexOf w.dist a < M128 := by
  induction h with
  | init h =>
    obtain ⟨m, l, hl⟩ := h.dist
    rw [Distributor.init_index hl a]
    decide
  | tx _ _ hx ih => exact (hx.rises a).2 ih
  | block _ _ _ ih => exact ih

/-- The message in the distributor. -/
def distributionMsg (n : Nat) : AssetInfo → Distributor.Msg
  | .cw20 _ => .receiveCw20 true n
  | .native d => .distributeNative [(d, n)]
  | .cw1155 _ _ => .distributeNative []

theorem giving_eq {e : Ext} {x : Addr} {n : Nat} {a : AssetInfo} (ha : ∀ c i, a ≠ .cw1155 c i) :
    Distributor.giving (e.denv x) n a = ⟨e.denv (payer x a), distributionMsg n a, true⟩ := by
  cases a with
  | native d => rfl
  | cw20 t => rfl
  | cw1155 c i => exact (ha c i rfl).elim

theorem distribution_eq (n : Nat) (a : AssetInfo) : distribution n a = .dist (distributionMsg n a) := by
  cases a <;> rfl

/-- When a distribution is accepted. -/
theorem refused_iff {c : Cfg} {e : Ext} {w : World} {x : Addr} {a : AssetInfo} (ha : ∀ c i, a ≠ .cw1155 c i) {n : Nat} :
    Refused c e w (payer x a) (distribution n a) ↔
    ¬ (Distributor.Allowed (e.denv x) a ∧ w.dist.total ≠ 0 ∧ indexOf w.dist a + n * ONE / w.dist.total < M128) := by
  rw [← Distributor.giving_iff (s := w.dist) (e := e.denv x) (n := n) ha, giving_eq ha, distribution_eq]
  constructor
  · rintro h ⟨_, r, hr⟩
    refine h ({ w with dist := r.1 }, r.2.map (fun _ => .other)) ?_
    simp only [handle]
    exact bind_ok_iff.2 ⟨r, hr, rfl⟩
  · intro h r hr
    simp only [handle] at hr
    obtain ⟨r1, h1, _⟩ := bind_ok_iff.1 hr
    exact h ⟨rfl, r1, h1⟩

theorem distribution_quiet {s : Distributor.State} {e : Distributor.Env} {n : Nat} {a : AssetInfo}
    {r : Distributor.State × List Distributor.Out} (h : Distributor.exec s e (distributionMsg n a) = .ok r) : r.2 = [] := by
  cases a <;>
  · simp only [distributionMsg, Distributor.exec] at h
    obtain ⟨_, _, h2⟩ := bind_ok_iff.1 h
    rw [← pure_ok_iff.1 h2]

/-! ## C183 -/

/-- **What does not fit once never fits again.** In a DAO whose members' stakes are their reward weights, let a distribution of an
allowed asset be refused although somebody has a stake that counts. Whatever happens in the DAO, it is refused, and so are larger
ones, at every later time at which the stakes of all are no larger. -/
theorem C183_forever {c : Cfg} (hw : c.Wf) (ht : c.Tame) {w w' : World} (h : Reachable c w)
    (hag : ∀ u, (w.dist.weights.get u).getD 0 = w.mem.weight u) {a : AssetInfo} (ha : ∀ c i, a ≠ .cw1155 c i) {e : Ext} {x : Addr}
    {n : Nat} (hal : Distributor.Allowed (e.denv x) a) (hs : allStakes w ≠ 0)
    (hr : Refused c e w (payer x a) (distribution n a))
    (hl : Later c w w') (hle : allStakes w' ≤ allStakes w) (e' : Ext) (x' : Addr) {n' : Nat} (hn : n ≤ n') :
    Refused c e' w' (payer x' a) (distribution n' a) := by
  rw [← (C125_all_staked hw ht h hag .refl).1] at hs hle
  rw [← (C125_all_staked hw ht h hag hl).1] at hle
  rw [refused_iff ha] at hr ⊢
  rintro ⟨_, h0, h1⟩
  refine hr ⟨hal, hs, ?_⟩
  have h2 := (hl.rises a).1
  have h3 : n * ONE / w.dist.total ≤ n' * ONE / w'.dist.total := Nat.div_le_div (Nat.mul_le_mul_right _ hn) hle h0
  omega

/-- **A first member can end the rewards of a DAO, at no cost.** In a DAO whose members' stakes are their reward weights, let one
member have a stake of one unit, and nobody else any that counts. There is an amount of an allowed asset that anyone, so this
member, can distribute, of which the member can claim back all. Then, whatever happens in the DAO, no distribution of that asset of
one unit or more for each unit of the stakes is ever accepted. -/
theorem C183_sabotage {c : Cfg} (hw : c.Wf) (ht : c.Tame) {w : World} (h : Reachable c w)
    (hag : ∀ u, (w.dist.weights.get u).getD 0 = w.mem.weight u) {a : AssetInfo} (ha : ∀ c i, a ≠ .cw1155 c i) {u x : Addr}
    (hx : c.outsider (payer x a)) (hu : stakeOf w u = 1) (hs : allStakes w = 1) {e : Ext}
    (hal : Distributor.Allowed (e.denv x) a)
    (hb : owedOf w.dist a + 10 ^ 18 * (2 ^ 128 / 10 ^ 18) < 10 ^ 18 * 2 ^ 128)
    (room : w.gov.pollCount + 1 < 2 ^ 64) :
    ∃ n w1, n ≤ 2 ^ 128 / 10 ^ 18 ∧ Exec c w [.call (payer x a) (distribution n a)] w1 ∧
      claimable w1.dist u a = claimable w.dist u a + n ∧
      ∀ w', Later c w1 w' → ∀ (e' : Ext) (x' : Addr) (n' : Nat), allStakes w' ≤ n' →
        Refused c e' w' (payer x' a) (distribution n' a) := by
  have hd := h.dist hw ht
  have htot := (C125_all_staked hw ht h hag .refl).1
  rw [hs] at htot
  have heff : Distributor.effective w.dist u = 1 := by
    rw [effective_stake hd.inv (hag u), hu]
  obtain ⟨n, hn, hacc, hcl, hfull⟩ := Distributor.alone_state hd.inv (h.index a) ha hal heff htot hb
  rw [giving_eq ha] at hacc hcl hfull
  obtain ⟨_, r, hr⟩ := hacc
  have hst : (Distributor.step w.dist ⟨e.denv (payer x a), distributionMsg n a, true⟩).1 = r.1 := by
    rcases Distributor.step_cases w.dist ⟨e.denv (payer x a), distributionMsg n a, true⟩ with ⟨y, hy, _, he, _⟩ | ⟨_, hno⟩
    · rw [he]
      rw [hr] at hy
      cases hy
      rfl
    · exact (hno ⟨rfl, r, hr⟩).elim
  rw [hst] at hcl hfull
  have hex : Exec c w [.call (payer x a) (distribution n a)] { w with dist := r.1 } := by
    refine .call (subs := []) e room ?_ (.nil _) (.nil _)
    rw [distribution_eq]
    simp only [handle]
    exact bind_ok_iff.2 ⟨r, hr, by rw [distribution_quiet hr]; rfl⟩
  refine ⟨n, _, hn, hex, hcl, ?_⟩
  intro w' hl e' x' n' hle
  have hl1 : Later c w { w with dist := r.1 } := .tx .refl hx hex
  have hag1 := fun v => hl1.dist hw ht h v (hag v)
  rw [← (C125_all_staked hw ht (hl1.reachable h) hag1 hl).1] at hle
  rw [refused_iff ha]
  rintro ⟨_, h0, h1⟩
  have h3 := (hl.rises a).1
  have h5 : ONE ≤ n' * ONE / w'.dist.total := by
    rw [Nat.le_div_iff_mul_le (Nat.pos_of_ne_zero h0), Nat.mul_comm]
    exact Nat.mul_le_mul_right _ hle
  have h3 : indexOf r.1 a ≤ indexOf w'.dist a := h3
  omega

/-- Member 10 staked one coin, and is the only member. The hypotheses of `C183_sabotage` hold, in a DAO just founded. -/
example : ∃ n w1, n ≤ 2 ^ 128 / 10 ^ 18 ∧ Exec sampleCfg (sampleRun [stake 10 1]) [.call 10 (distribution n (.native 5))] w1 ∧
    claimable w1.dist 10 (.native 5) = claimable (sampleRun [stake 10 1]).dist 10 (.native 5) + n ∧
    ∀ w', Later sampleCfg w1 w' → ∀ (e' : Ext) (x' : Addr) (n' : Nat), allStakes w' ≤ n' →
      Refused sampleCfg e' w' x' (distribution n' (.native 5)) := by
  have hag : ∀ u, ((sampleRun [stake 10 1]).dist.weights.get u).getD 0 = (sampleRun [stake 10 1]).mem.weight u := by
    intro u
    have h1 : (sampleRun [stake 10 1]).dist.weights = (sampleRun [stake 10 1]).mem.mem.weights := by decide +kernel
    rw [h1, Member.weight_eq]
    rfl
  exact C183_sabotage sampleCfg_wf sampleCfg_tame (sampleRun_reachable _) hag (a := .native 5) (by simp) (u := 10) (x := 10)
    (by decide +kernel) (by decide +kernel) (by decide +kernel) (e := rewardExt) (Or.inr (by decide))
    (by rw [Distributor.owed_empty (by decide +kernel)]; decide) (by decide +kernel)

/-- Member 10 staked one coin and distributed and claimed 340 coins of 18 decimals; then member 11 staked one coin. -/
def usedUp : World := sampleRun [stake 10 1, .tx rewardExt 10 (distribution (340 * 10 ^ 18) (.native 5)), stake 11 1,
  .tx rewardExt 10 (.dist (.claim 10 [5] []))]

/-- Hypotheses of `C183_forever`: ten coins of 18 decimals for the two members are refused now, and for ever while no more
is staked. -/
example : Reachable sampleCfg usedUp ∧ (∀ u, (usedUp.dist.weights.get u).getD 0 = usedUp.mem.weight u) ∧
    Distributor.Allowed (rewardExt.denv 10) (.native 5) ∧ allStakes usedUp = 2 ∧
    Refused sampleCfg rewardExt usedUp 10 (distribution (10 * 10 ^ 18) (.native 5)) := by
  refine ⟨sampleRun_reachable _, ?_, Or.inr (by decide), by decide +kernel, ?_⟩
  · intro u
    have h1 : usedUp.dist.weights = usedUp.mem.mem.weights := by decide +kernel
    rw [h1, Member.weight_eq]
    rfl
  · refine (refused_iff (x := 10) (a := .native 5) (by simp)).2 ?_
    rintro ⟨_, _, h⟩
    exact absurd h (by decide +kernel)

end Verif.Dao
