import Verif.Dao.Spec
import Verif.Staking.Lemmas2
import Verif.Nft.Lemmas
import Verif.Multisig.Lemmas

/-!
# Membership contracts of a DAO: weights and reports
-/

namespace Verif.Dao
open Verif
open Verif.Staking (Explains)

/-- The contract's own invariant. -/
def Member.Good : Member → Prop
  | .staking _ s => Staking.Inv s
  | .nft s => Nft.Inv s
  | .multisig s => Multisig.Inv s

/-- All the values of a snapshot fit 128 bits. -/
def Bounded (s : Snap) : Prop :=
  (∀ v, s.cur = some v → v < M128) ∧ ∀ k v, s.log.get k = some (some v) → v < M128

theorem Bounded.loadAt {s : Snap} (h : Bounded s) (k : Nat) : s.loadAt k < M128 := by
  unfold Snap.loadAt Snap.mayLoadAt
  cases hf : s.log.entries.find? (fun p => decide (k ≤ p.1)) with
  | none =>
    cases hc : s.cur with
    | none => simp only [Option.getD_none]; decide
    | some v => exact h.1 v hc
  | some p =>
    obtain ⟨j, o⟩ := p
    cases o with
    | none => simp only [Option.getD_none]; decide
    | some v =>
      have := List.mem_of_find?_eq_some hf
      exact h.2 j v (Map.get_eq_some_iff.2 this)

theorem Bounded.save {s : Snap} (h : Bounded s) {v : Nat} (hv : v < M128) (k : Nat) : Bounded (s.save v k) := by
  refine ⟨fun x hx => ?_, fun j x hx => ?_⟩
  · rw [Snap.cur_save] at hx
    cases hx; exact hv
  · unfold Snap.save at hx
    by_cases hk : s.log.has k = true
    · simp only [hk, if_true] at hx
      exact h.2 j x hx
    · have hk : s.log.has k = false := by simpa using hk
      simp only [hk, Bool.false_eq_true, if_false] at hx
      by_cases hj : k = j
      · subst hj
        simp only [Map.get_set_self, Option.some.injEq] at hx
        exact h.1 x hx
      · exact h.2 j x (by simpa [Map.get_set, hj] using hx)

/-- Invariant of the membership contract of a DAO. -/
structure Member.Ok (me : Addr) (x : Member) : Prop where
  good : x.Good
  hooks : x.mem.hooks = Map.empty.set me ()
  small : x.mem.wsum < M128
  snap : Bounded x.mem.bySeconds

theorem Member.weight_eq (x : Member) (u : Addr) : x.weight u = x.mem.weight u := by
  cases x <;> rfl

theorem Member.total_never (x : Member) : x.total .never = x.mem.total := by
  cases x <;> rfl

theorem Member.Good.cur {x : Member} (h : x.Good) :
    x.mem.byHeight.cur = some x.mem.wsum ∧ x.mem.bySeconds.cur = some x.mem.wsum := by
  cases x with
  | staking k s => exact ⟨Staking.Inv.height h, Staking.Inv.seconds h⟩
  | nft s =>
    have h : Nft.Inv s := h
    refine ⟨?_, ?_⟩
    · show s.mem.byHeight.cur = some s.mem.wsum
      rw [h.height, h.wsum]
    · show s.mem.bySeconds.cur = some s.mem.wsum
      rw [h.seconds, h.wsum]
  | multisig s => exact ⟨Multisig.Inv.height h, Multisig.Inv.seconds h⟩

theorem Member.Ok.total {self : Addr} {x : Member} (h : x.Ok self) : x.total .never = x.mem.wsum := by
  rw [Member.total_never]
  unfold Members.total Snap.load
  rw [h.good.cur.1]
  rfl

theorem Member.Ok.weight_le {self : Addr} {x : Member} (h : x.Ok self) (u : Addr) :
    x.weight u ≤ x.total .never := by
  rw [h.total, Member.weight_eq]
  exact Members.weight_le_wsum _ _

theorem report_single {m : Members} {self : Addr} (h : m.hooks = Map.empty.set self ()) (l : List WeightChange) :
    m.report l = [.notify self l] := by
  unfold Members.report
  rw [h]
  rfl

/-- What a successful message does to the weights. -/
structure Member.Reported (me : Addr) (x x' : Member) (outs : List Out) : Prop where
  ok : x'.Ok me
  type : x'.daoType = x.daoType
  report : (∃ l, outs = [.notify me l] ∧ Explains x.weight l x'.weight ∧ ∀ c ∈ l, c.new ≤ x'.weight c.user) ∨
    ((∀ o ∈ outs, ∀ h l, o ≠ .notify h l) ∧ ∀ u, x'.weight u = x.weight u)

theorem explains_mono : ∀ (l : List WeightChange) {w w' : Addr → Nat}, Explains w l w' → (∀ c ∈ l, c.old < c.new) →
    (∀ u, w u ≤ w' u) ∧ ∀ c ∈ l, c.new ≤ w' c.user := by
  intro l
  induction l with
  | nil => intro w w' h _; exact ⟨fun u => le_of_eq (h u).symm, fun c hc => (by cases hc)⟩
  | cons c t ih =>
    intro w w' h hl
    obtain ⟨h1, h2⟩ := h
    obtain ⟨h3, h4⟩ := ih h2 (fun x hx => hl x (List.mem_cons_of_mem _ hx))
    have hc := hl c List.mem_cons_self
    have h5 : c.new ≤ w' c.user := by have := h3 c.user; rwa [if_pos rfl] at this
    refine ⟨fun u => ?_, fun x hx => ?_⟩
    · by_cases hu : u = c.user
      · subst hu; rw [← h1]; omega
      · have := h3 u; rwa [if_neg hu] at this
    · rcases List.mem_cons.1 hx with rfl | hx
      · exact h5
      · exact h4 x hx

theorem explains_frame : ∀ (l : List WeightChange) {w w' : Addr → Nat}, Explains w l w' → ∀ u,
    (∀ c ∈ l, c.user ≠ u) → w' u = w u := by
  intro l
  induction l with
  | nil => intro w w' h u _; exact h u
  | cons c t ih =>
    intro w w' h u hu
    have := ih h.2 u (fun x hx => hu x (List.mem_cons_of_mem _ hx))
    rwa [if_neg (fun hh => hu c List.mem_cons_self hh.symm)] at this

theorem explains_nodup : ∀ (l : List WeightChange) {w w' : Addr → Nat}, Explains w l w' → (l.map (·.user)).Nodup →
    ∀ c ∈ l, c.new ≤ w' c.user := by
  intro l
  induction l with
  | nil => intro w w' _ _ c hc; cases hc
  | cons c t ih =>
    intro w w' h hn x hx
    have hn' := List.nodup_cons.1 hn
    rcases List.mem_cons.1 hx with rfl | hx
    · have := explains_frame t h.2 x.user (fun y hy he => hn'.1 (List.mem_map.2 ⟨y, hy, he⟩))
      rw [if_pos rfl] at this
      exact le_of_eq this.symm
    · exact ih h.2 hn'.2 x hx

/-- The weight sum is what was saved last. -/
theorem wsum_of_saved {m m' : Members} {v : Nat} {b : Block} (h : m'.byHeight.cur = some m'.wsum)
    (hm : m' = m.saveTotal v b) : m'.wsum = v := by
  rw [hm] at h ⊢
  have : (some v : Option Nat) = some (m.saveTotal v b).wsum := h
  exact (Option.some.inj this).symm

theorem explains_one {w w' : Addr → Nat} {u : Addr} {n : Nat} (h : ∀ v, w' v = if v = u then n else w v) :
    Explains w [⟨u, w u, n⟩] w' ∧ ∀ c ∈ [(⟨u, w u, n⟩ : WeightChange)], c.new ≤ w' c.user := by
  refine ⟨⟨rfl, h⟩, fun c hc => ?_⟩
  rw [List.mem_singleton.1 hc]
  show n ≤ w' u
  rw [h, if_pos rfl]

theorem explains_setAll (l : List (Addr × Nat)) (hd : Multisig.Distinct l) (m : Members) :
    Explains m.weight (l.map (fun p => ⟨p.1, m.weight p.1, p.2⟩)) (Multisig.setAll m l).weight := by
  induction l generalizing m with
  | nil => exact fun u => rfl
  | cons p t ih =>
    have hd' := List.nodup_cons.1 hd
    have hne : ∀ q ∈ t, q.1 ≠ p.1 := fun q hq he => hd'.1 (List.mem_map.2 ⟨q, hq, he⟩)
    have h1 := ih hd'.2 (m.setWeight p.1 p.2)
    rw [Multisig.changes_setWeight _ _ _ _ hne] at h1
    refine ⟨rfl, ?_⟩
    have hw : (fun u => if u = p.1 then p.2 else m.weight u) = (m.setWeight p.1 p.2).weight := by
      funext u
      rw [Members.weight_setWeight]
    show Explains (fun u => if u = p.1 then p.2 else m.weight u) _ _
    rw [hw]
    exact h1

theorem Fit_small {m : Members} {t : Nat} {l : List (Addr × Nat)} (hd : Multisig.Distinct l) (ht : t = m.wsum)
    (hs : m.wsum < M128) (hf : Multisig.Fit m t l) : (Multisig.setAll m l).wsum < M128 := by
  induction l generalizing m t with
  | nil => exact hs
  | cons p l ih =>
    have hd' := List.nodup_cons.1 hd
    have hne : ∀ q ∈ l, q.1 ≠ p.1 := fun q hq he => hd'.1 (List.mem_map.2 ⟨q, hq, he⟩)
    have hle : m.weight p.1 ≤ t := by rw [ht]; exact Members.weight_le_wsum _ _
    obtain ⟨h1, h2⟩ := (Multisig.runs_cons hne hle).1 hf
    have hw := Members.wsum_setWeight m p.1 p.2
    have he : t - m.weight p.1 + p.2 = (m.setWeight p.1 p.2).wsum := by omega
    exact ih (m := m.setWeight p.1 p.2) hd'.2 he (by omega) h2

theorem Member.staking_ok {self : Addr} {k : Staking.Kind} {s : Staking.State} {e : Env} {m : Staking.Msg}
    {r : Staking.State × List Out} (hx : (Member.staking k s).Ok self) (he : e.controller = self)
    (ht : e.sender = self → (MemberMsg.staking m).tame = true) (h : Staking.exec k s e m = .ok r) :
    Member.Reported self (.staking k s) (.staking k r.1) r.2 := by
  have hi : Staking.Inv s := hx.good
  have hi' := (Staking.effect_exec hi h).inv
  have hooks : s.mem.hooks = Map.empty.set self () := hx.hooks
  have small : s.mem.wsum < M128 := hx.small
  have ty : ∀ s', (Member.staking k s').daoType = (Member.staking k s).daoType := by
    intro s'; cases k <;> rfl
  have stk : ∀ {u : Addr} {a : Nat} {r : Staking.State × List Out}, Staking.Inv r.1 →
      Staking.stakeFor s e u a = .ok r → Member.Reported self (.staking k s) (.staking k r.1) r.2 := by
    intro u a r hi' h
    obtain ⟨_, _, h2, rfl⟩ := Staking.stakeFor_ok_iff.1 h
    refine ⟨⟨hi', hooks, ?_, hx.snap.save h2 _⟩, ty _, Or.inl ⟨_, report_single hooks _, ?_⟩⟩
    · have := wsum_of_saved hi'.height rfl
      exact lt_of_eq_of_lt this h2
    · apply explains_one
      intro v
      exact Members.weight_setWeight _ _ _ _
  have same : ∀ {s' : Staking.State} {outs : List Out}, Staking.Inv s' → s'.mem = s.mem →
      (∀ o ∈ outs, ∀ h l, o ≠ .notify h l) → Member.Reported self (.staking k s) (.staking k s') outs := by
    intro s' outs h1 h2 h3
    refine ⟨⟨h1, ?_, ?_, ?_⟩, ty _, Or.inr ⟨h3, fun u => ?_⟩⟩
    · show s'.mem.hooks = _
      rw [h2]; exact hooks
    · show s'.mem.wsum < _
      rw [h2]; exact small
    · show Bounded s'.mem.bySeconds
      rw [h2]; exact hx.snap
    · show s'.mem.weight u = s.mem.weight u
      rw [h2]
  cases m with
  | receive a hk =>
    simp only [Staking.exec] at h
    split at h
    · unfold Staking.receive at h
      rw [ite_ok_iff] at h
      obtain ⟨_, h⟩ := h
      cases hk with
      | stake u => exact stk hi' h
      | addStakes l =>
        obtain ⟨_, h2, _, m1, ch, rfl, _, _, hf, hex, hup⟩ := Staking.addStakes_ok h
        refine ⟨⟨hi', hf.2.2.trans hooks, ?_, ?_⟩, ty _, Or.inl ⟨_, report_single hooks _, hex, (explains_mono _ hex hup).2⟩⟩
        · have := wsum_of_saved hi'.height rfl
          exact lt_of_eq_of_lt this h2
        · show Bounded (m1.bySeconds.save _ _)
          rw [hf.2.1]
          exact hx.snap.save h2 _
      | addClaims l =>
        obtain ⟨h1, _, h3⟩ := Staking.addTokenClaims_ok h
        rw [h1]
        refine same hi' ?_ (fun o ho => (by cases ho))
        have key : ∀ (l : List Staking.UserClaim) (x y : Staking.State × Nat),
            l.foldlM Staking.addTokenClaim x = .ok y → y.1.mem = x.1.mem := by
          intro l
          induction l with
          | nil => intro x y h; cases h; rfl
          | cons c t ih =>
            intro x y h
            rw [foldlM_cons_ok_iff] at h
            obtain ⟨z, h4, h5⟩ := h
            rw [ih z y h5]
            unfold Staking.addTokenClaim at h4
            simp only [bind_ok_iff, Staking.addClaim_ok_iff, pure_ok_iff] at h4
            obtain ⟨_, ⟨_, rfl⟩, _, _, rfl⟩ := h4
            rfl
        exact key l _ _ h3
      | unknown => cases h
    · cases h
  | stakeDenom f u =>
    simp only [Staking.exec] at h
    split at h
    · unfold Staking.stakeDenom at h
      split at h
      · rw [ite_ok_iff] at h
        exact stk hi' h.2
      · cases h
    · cases h
  | unstake a =>
    obtain ⟨h1, h2, _, rfl⟩ := Staking.unstake_ok_iff.1 h
    have h3 : s.mem.total - a < M128 := by have := hi.total; omega
    refine ⟨⟨hi', hooks, ?_, hx.snap.save h3 _⟩, ty _, Or.inl ⟨_, report_single hooks _, ?_⟩⟩
    · have := wsum_of_saved hi'.height rfl
      exact lt_of_eq_of_lt this h3
    · apply explains_one
      intro v
      exact Members.weight_setWeight _ _ _ _
  | claim u =>
    obtain ⟨_, _, rfl⟩ := (Staking.claim_ok_iff hi).1 h
    refine same hi' rfl ?_
    intro o ho hh l
    rw [List.mem_singleton.1 ho]
    intro hc; cases hc
  | updateUnlocking p =>
    obtain ⟨_, rfl⟩ := Staking.updateUnlocking_ok_iff.1 h
    exact same hi' rfl (fun o ho => (by cases ho))
  | addHook a =>
    simp only [Staking.exec, bind_ok_iff, Members.addHook, ite_ok_iff, ne_eq, Classical.not_not] at h
    obtain ⟨_, ⟨h1, _⟩, _⟩ := h
    exact absurd (ht (h1.trans he)) (by simp [MemberMsg.tame])
  | removeHook a =>
    simp only [Staking.exec, bind_ok_iff, Members.removeHook, ite_ok_iff, ne_eq, Classical.not_not] at h
    obtain ⟨_, ⟨h1, _⟩, _⟩ := h
    exact absurd (ht (h1.trans he)) (by simp [MemberMsg.tame])

theorem Member.nft_ok {self : Addr} {s : Nft.State} {e : Nft.NEnv} {m : Nft.Msg} {r : Nft.State × List Out}
    (hx : (Member.nft s).Ok self) (he : e.env.controller = self)
    (ht : e.env.sender = self → (MemberMsg.nft m).tame = true) (h : Nft.exec s e m = .ok r) :
    Member.Reported self (.nft s) (.nft r.1) r.2 := by
  have hi : Nft.Inv s := hx.good
  have hi' := (Nft.effect_exec hi h).inv
  have hooks : s.mem.hooks = Map.empty.set self () := hx.hooks
  have small : s.mem.wsum < M128 := hx.small
  have ht0 : s.mem.total = s.mem.wsum := by
    unfold Members.total Snap.load
    rw [hi.height, hi.wsum]; rfl
  have saved : ∀ {m : Members} {st : Nft.State} {v : Nat} {b : Block}, Nft.Inv st → st.mem = m.saveTotal v b →
      st.mem.wsum = v := by
    intro m st v b h1 h2
    exact wsum_of_saved (m' := st.mem) (by rw [h1.height, h1.wsum]) h2
  have same : ∀ {s' : Nft.State} {outs : List Out}, Nft.Inv s' → s'.mem = s.mem →
      (∀ o ∈ outs, ∀ h l, o ≠ .notify h l) → Member.Reported self (.nft s) (.nft s') outs := by
    intro s' outs h1 h2 h3
    refine ⟨⟨h1, ?_, ?_, ?_⟩, rfl, Or.inr ⟨h3, fun u => ?_⟩⟩
    · show s'.mem.hooks = _
      rw [h2]; exact hooks
    · show s'.mem.wsum < _
      rw [h2]; exact small
    · show Bounded s'.mem.bySeconds
      rw [h2]; exact hx.snap
    · show s'.mem.weight u = s.mem.weight u
      rw [h2]
  cases m with
  | receiveNft t hk =>
    simp only [Nft.exec] at h
    obtain ⟨_, ⟨u, rfl, h1⟩ | ⟨u, d, rfl, h1⟩⟩ := Nft.receiveNft_ok_iff.1 h
    · obtain ⟨_, _, _, h2, rfl⟩ := Nft.stakeNft_ok_iff.1 h1
      refine ⟨⟨hi', hooks, ?_, hx.snap.save h2 _⟩, rfl, Or.inl ⟨_, report_single hooks _, ?_⟩⟩
      · have := saved hi' rfl
        exact lt_of_eq_of_lt this h2
      · apply explains_one
        intro v
        exact Members.weight_setWeight _ _ _ _
    · obtain ⟨_, rfl⟩ := Nft.addNftClaim_ok_iff.1 h1
      exact same hi' rfl (fun o ho => (by cases ho))
  | unstake l =>
    obtain ⟨_, _, _, h2, _, rfl⟩ := Nft.unstake_ok_iff.1 h
    have h3 : s.mem.total - l.length < M128 := by omega
    refine ⟨⟨hi', hooks, ?_, hx.snap.save h3 _⟩, rfl, Or.inl ⟨_, report_single hooks _, ?_⟩⟩
    · have := saved hi' rfl
      exact lt_of_eq_of_lt this h3
    · apply explains_one
      intro v
      exact Members.weight_setWeight _ _ _ _
  | claim u =>
    obtain ⟨_, _, rfl⟩ := (Nft.claim_ok_iff hi).1 h
    refine same hi' rfl ?_
    intro o ho hh l
    obtain ⟨t, _, rfl⟩ := List.mem_map.1 ho
    intro hc; cases hc
  | updateUnlocking p =>
    obtain ⟨_, rfl⟩ := Nft.updateUnlocking_ok_iff.1 h
    exact same hi' rfl (fun o ho => (by cases ho))
  | addHook a =>
    simp only [Nft.exec, bind_ok_iff, Members.addHook, ite_ok_iff, ne_eq, Classical.not_not] at h
    obtain ⟨_, ⟨h1, _⟩, _⟩ := h
    exact absurd (ht (h1.trans he)) (by simp [MemberMsg.tame])
  | removeHook a =>
    simp only [Nft.exec, bind_ok_iff, Members.removeHook, ite_ok_iff, ne_eq, Classical.not_not] at h
    obtain ⟨_, ⟨h1, _⟩, _⟩ := h
    exact absurd (ht (h1.trans he)) (by simp [MemberMsg.tame])

theorem multisig_hooks {s : Members} (hi : Multisig.Inv s) {e : Env} {m : Multisig.Msg} {r : Members × List Out}
    (hs : s.wsum < M128) (hb : Bounded s.bySeconds) (hn : ∀ a, m ≠ .addHook a ∧ m ≠ .removeHook a)
    (h : Multisig.exec s e m = .ok r) :
    Multisig.Inv r.1 ∧ Bounded r.1.bySeconds ∧ r.1.hooks = s.hooks ∧ r.1.wsum < M128 ∧ ∃ l, r.2 = s.report l := by
  have hi' := (Multisig.effect_exec hi h).inv
  have hsec := (Multisig.effect_exec hi h).bySeconds
  suffices hsuf : r.1.hooks = s.hooks ∧ r.1.wsum < M128 ∧ ∃ l, r.2 = s.report l by
    refine ⟨hi', ?_, hsuf⟩
    rcases hsec with hsec | ⟨v, hsec⟩
    · rw [hsec]; exact hb
    · have hc := hi'.seconds
      rw [hsec] at hc
      rw [hsec]
      apply hb.save
      have : (some v : Option Nat) = some r.1.wsum := hc
      rw [Option.some.inj this]
      exact hsuf.2.1
  cases m with
  | updateMembers l =>
    obtain ⟨_, hd, hf, rfl⟩ := (Multisig.updateMembers_ok_iff hi).1 h
    exact ⟨(Multisig.setAll_frame s l).2.2, Fit_small hd hi.total hs hf, _, rfl⟩
  | setMembers l =>
    obtain ⟨_, hd, hl, rfl⟩ := Multisig.setMembers_ok_iff.1 h
    refine ⟨(Multisig.setAll_frame _ l).2.2, ?_, _, rfl⟩
    show Members.wsum (Multisig.setAll { s with weights := Map.empty } l) < M128
    rw [Multisig.wsum_cleared s l hd]; exact hl
  | addHook a => exact absurd rfl (hn a).1
  | removeHook a => exact absurd rfl (hn a).2

theorem Member.multisig_ok {self : Addr} {s : Members} {e : Env} {m : Multisig.Msg}
    {r : Members × List Out} (hx : (Member.multisig s).Ok self) (he : e.controller = self)
    (ht : e.sender = self → (MemberMsg.multisig m).tame = true) (h : Multisig.exec s e m = .ok r) :
    Member.Reported self (.multisig s) (.multisig r.1) r.2 := by
  have hi : Multisig.Inv s := hx.good
  have hooks : s.hooks = Map.empty.set self () := hx.hooks
  cases m with
  | updateMembers l =>
    obtain ⟨h1, h0, h2, h3, _⟩ := multisig_hooks hi hx.small hx.snap (by intro a; constructor <;> intro h <;> cases h) h
    obtain ⟨_, hd, hf, rfl⟩ := (Multisig.updateMembers_ok_iff hi).1 h
    exact ⟨⟨h1, h2.trans hooks, h3, h0⟩, rfl, Or.inl ⟨_, report_single hooks _, explains_setAll l hd s,
      explains_nodup _ (explains_setAll l hd s) (by rw [List.map_map]; exact hd)⟩⟩
  | setMembers l =>
    obtain ⟨h1, _⟩ := Multisig.setMembers_ok_iff.1 h
    exact absurd (ht (h1.trans he)) (by simp [MemberMsg.tame])
  | addHook a =>
    simp only [Multisig.exec, bind_ok_iff, Members.addHook, ite_ok_iff, ne_eq, Classical.not_not] at h
    obtain ⟨_, ⟨h1, _⟩, _⟩ := h
    exact absurd (ht (h1.trans he)) (by simp [MemberMsg.tame])
  | removeHook a =>
    simp only [Multisig.exec, bind_ok_iff, Members.removeHook, ite_ok_iff, ne_eq, Classical.not_not] at h
    obtain ⟨_, ⟨h1, _⟩, _⟩ := h
    exact absurd (ht (h1.trans he)) (by simp [MemberMsg.tame])

/-- Any message to the membership contract. -/
theorem Member.exec_ok {self : Addr} {x : Member} {e : Nft.NEnv} {m : MemberMsg} {r : Member × List Out}
    (hx : x.Ok self) (he : e.env.controller = self) (ht : e.env.sender = self → m.tame = true)
    (h : x.exec e m = .ok r) : Member.Reported self x r.1 r.2 := by
  cases x with
  | staking k s =>
    cases m with
    | staking m =>
      simp only [Member.exec, bind_ok_iff, pure_ok_iff] at h
      obtain ⟨r1, h1, rfl⟩ := h
      exact Member.staking_ok hx he ht h1
    | nft m => cases h
    | multisig m => cases h
  | nft s =>
    cases m with
    | nft m =>
      simp only [Member.exec, bind_ok_iff, pure_ok_iff] at h
      obtain ⟨r1, h1, rfl⟩ := h
      exact Member.nft_ok hx he ht h1
    | staking m => cases h
    | multisig m => cases h
  | multisig s =>
    cases m with
    | multisig m =>
      simp only [Member.exec, bind_ok_iff, pure_ok_iff] at h
      obtain ⟨r1, h1, rfl⟩ := h
      exact Member.multisig_ok hx he ht h1
    | staking m => cases h
    | nft m => cases h

/-! ### New contracts -/

theorem initLoop_small : ∀ (l : List (Addr × Nat)) {x y : Members × Nat}, x.2 < M128 →
    l.foldlM Multisig.initOne x = .ok y → y.2 < M128
  | [], x, y, hx => by rw [foldlM_nil_ok_iff]; rintro rfl; exact hx
  | p :: l, x, y, hx => by
    rw [foldlM_cons_ok_iff]
    rintro ⟨a, h1, h2⟩
    obtain ⟨_, h3, rfl⟩ := Multisig.initOne_ok_iff.1 h1
    exact initLoop_small l (x := (_, _)) h3 h2

theorem multisig_init_ok {b : Block} {l : List (Addr × Nat)} {self : Addr} {s : Members}
    (h : Multisig.init b (some l) [self] [] [] = .ok s) :
    Multisig.Inv s ∧ s.hooks = Map.empty.set self () ∧ s.wsum < M128 ∧ Bounded s.bySeconds := by
  have hi := Multisig.inv_init h
  refine ⟨hi, ?_⟩
  unfold Multisig.init at h
  simp only [bind_ok_iff, pure_ok_iff, Multisig.saveInitial, Multisig.dedup_ok_iff] at h
  obtain ⟨m, ⟨d, ⟨_, rfl⟩, a, h2, rfl⟩, rfl⟩ := h
  obtain ⟨h3, _, _, h4⟩ := Multisig.initLoop d (by rfl) h2
  have hs := initLoop_small d (by show (0 : Nat) < M128; decide) h2
  have hb : Bounded Snap.empty := ⟨fun v hv => (by cases hv), fun k v hv => (by cases hv)⟩
  refine ⟨?_, ?_, ?_⟩
  · unfold Members.saveHooks
    simp only [List.foldl_cons, List.foldl_nil, Members.saveTotal_hooks, h4]
    rw [(Multisig.setAll_frame _ d).2.2]
    rfl
  · show a.1.wsum < M128
    rw [← h3]; exact hs
  · show Bounded (a.1.bySeconds.save _ _)
    rw [h4, (Multisig.setAll_frame _ d).2.1]
    exact hb.save hs _

theorem bounded_zero (k : Nat) : Bounded (Snap.empty.save 0 k) :=
  Bounded.save ⟨fun v hv => (by cases hv), fun k v hv => (by cases hv)⟩ (by decide) k

theorem Member.total_lt {me : Addr} {x : Member} (h : x.Ok me) (t : Nat) : x.total (.time t) < M128 := by
  cases x with
  | staking k s => exact h.snap.loadAt _
  | nft s => exact h.snap.loadAt _
  | multisig s => exact h.snap.loadAt _

theorem Member.fresh_ok {c : Cfg} {b : Block} {x : Member} (h : x.fresh c b) : x.Ok c.self := by
  cases x with
  | staking k s =>
    obtain ⟨asset, u, rfl⟩ := h
    exact ⟨Staking.inv_init _ _ _ _ _ _, rfl, by show (0 : Nat) < M128; decide, bounded_zero b.seconds⟩
  | nft s =>
    obtain ⟨n, u, rfl⟩ := h
    exact ⟨Nft.inv_init _ _ _ _ _ _, rfl, by show (0 : Nat) < M128; decide, bounded_zero b.seconds⟩
  | multisig s =>
    obtain ⟨l, h⟩ := h
    obtain ⟨h1, h2, h3, h4⟩ := multisig_init_ok h
    exact ⟨h1, h2, h3, h4⟩

end Verif.Dao
