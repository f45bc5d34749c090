import Verif.Dao.Props33
import Verif.Dao.Props39

/-!
# Lemmas: several changes of a stake within a block (for C176)
-/

set_option linter.unusedSimpArgs false

namespace Verif.Distributor
open Verif

/-- The rewards of `u`, who had the weight `w`, are brought up to date. -/
structure Brought (u : Addr) (w : Nat) (L M : Ledger) : Prop where
  idx : M.idx = L.idx
  never : ∀ a, L.idx.get a = none → M.dist.get (toLex (u, a)) = L.dist.get (toLex (u, a))
  now : ∀ a, L.idx.get a ≠ none → ∃ r, L.amt u w a = .ok r ∧ M.dist.get (toLex (u, a)) = some ⟨L.global a, r⟩

theorem reward_small {g : Nat} {d : Option Dist} {w r : Nat} (h : reward g d w = .ok r) : r < M128 := by
  unfold reward at h
  obtain ⟨x, _, h⟩ := bind_ok_iff.1 h
  obtain ⟨h1, rfl⟩ := cadd128_ok.1 h
  exact h1

theorem reward_again {g w r : Nat} (h : r < M128) : reward g (some ⟨g, r⟩) w = .ok r := by
  unfold reward
  refine bind_ok_iff.2 ⟨0, ?_, ?_⟩
  · unfold newReward
    refine bind_ok_iff.2 ⟨0, csub_ok.2 ⟨le_refl _, by simp⟩, ?_⟩
    simp [M128]
  · exact cadd128_ok.2 ⟨by simpa using h, by simp⟩

theorem refresh_brought {s : State} (hc : Core s) {u : Addr} {x : Ledger × Ledger} (h : refresh s u = .ok x) :
    Brought u (effective s u) s.native x.1 ∧ Brought u (effective s u) s.cw20 x.2 := by
  have key : ∀ {L : Ledger}, L.Ok s.effective → s.effective.get u = none → Brought u 0 L (L.initUser u) := by
    intro L hok hu
    have hd : ∀ a, L.dist.get (toLex (u, a)) = none := by
      intro a
      cases hx : L.dist.get (toLex (u, a)) with
      | none => rfl
      | some d =>
        have := (hok u a d hx).2.1
        rw [Map.has, hu] at this
        cases this
    obtain ⟨h1, _, h3, h4⟩ := Ledger.init_ok hd
    refine ⟨h1, fun a ha => by rw [h3 a ha, hd a], fun a ha => ⟨0, ?_, h4 a ha⟩⟩
    unfold Ledger.amt
    rw [hd a]
    unfold reward
    refine bind_ok_iff.2 ⟨0, ?_, cadd128_ok.2 ⟨by simp [M128], by simp⟩⟩
    unfold newReward
    exact bind_ok_iff.2 ⟨L.global a, csub_ok.2 ⟨by simp, by simp⟩, by simp [M128]⟩
  have key2 : ∀ {L M : Ledger} {w : Nat}, L.settle u w = .ok M → Brought u w L M := by
    intro L M w h
    obtain ⟨h1, _, h3, h4⟩ := Ledger.settle_ok h
    exact ⟨h1, h3, h4⟩
  unfold refresh at h
  unfold effective
  cases hu : s.effective.get u with
  | none =>
    rw [hu] at h
    cases h
    exact ⟨key hc.native hu, key hc.cw20 hu⟩
  | some w =>
    rw [hu] at h
    obtain ⟨n, h1, h⟩ := bind_ok_iff.1 h
    obtain ⟨c, h2, h⟩ := bind_ok_iff.1 h
    cases h
    exact ⟨key2 h1, key2 h2⟩

theorem Brought.same_right {u : Addr} {w : Nat} {L M N : Ledger} (h : Brought u w L M) (hs : M.Same (· = u) N) : Brought u w L N := by
  refine ⟨by rw [← hs.idx]; exact h.idx, fun a ha => ?_, fun a ha => ?_⟩
  · rw [← hs.dist u a rfl]; exact h.never a ha
  · obtain ⟨r, h1, h2⟩ := h.now a ha
    exact ⟨r, h1, by rw [← hs.dist u a rfl]; exact h2⟩

theorem Brought.same_left {u : Addr} {w : Nat} {L M N : Ledger} (h : Brought u w L M) (hs : L.Same (· = u) N) : Brought u w N M := by
  refine ⟨by rw [← hs.idx]; exact h.idx, fun a ha => ?_, fun a ha => ?_⟩
  · rw [← hs.dist u a rfl]; exact h.never a (by rw [hs.idx]; exact ha)
  · obtain ⟨r, h1, h2⟩ := h.now a (by rw [hs.idx]; exact ha)
    refine ⟨r, ?_, by rw [h2]; unfold Ledger.global; rw [hs.idx]⟩
    unfold Ledger.amt Ledger.global at h1 ⊢
    rw [← hs.idx, ← hs.dist u a rfl]
    exact h1

/-- Bringing rewards up to date a second time changes nothing. -/
theorem Brought.again {u : Addr} {w w' : Nat} {L M N : Ledger} (h : Brought u w L M) (h' : Brought u w' M N) : Brought u w L N := by
  refine ⟨h'.idx.trans h.idx, fun a ha => ?_, fun a ha => ?_⟩
  · rw [h'.never a (by rw [h.idx]; exact ha)]; exact h.never a ha
  · obtain ⟨r, h1, h2⟩ := h.now a ha
    obtain ⟨r', h3, h4⟩ := h'.now a (by rw [h.idx]; exact ha)
    have hg : M.global a = L.global a := Ledger.global_congr h.idx a
    rw [hg] at h4
    unfold Ledger.amt at h3
    rw [h2, hg, reward_again (reward_small h1)] at h3
    cases h3
    exact ⟨r, h1, h4⟩

theorem Brought.unique {u : Addr} {w : Nat} {L M N : Ledger} (h : Brought u w L M) (h' : Brought u w L N) : M.Same (· = u) N := by
  refine ⟨h.idx.trans h'.idx.symm, ?_⟩
  rintro v a rfl
  by_cases ha : L.idx.get a = none
  · rw [h.never a ha, h'.never a ha]
  · obtain ⟨r, h1, h2⟩ := h.now a ha
    obtain ⟨r', h3, h4⟩ := h'.now a ha
    rw [h1] at h3
    cases h3
    rw [h2, h4]

end Verif.Distributor

namespace Verif.Dao
open Verif

/-- The message stakes something, or unstakes something. -/
def moves (x : Signed) : Bool :=
  match x.msg with
  | .mem (.staking (.receive _ (.stake _))) => true
  | .mem (.staking (.stakeDenom _ _)) => true
  | .mem (.staking (.unstake _)) => true
  | _ => false

/-- What concerns `u`, after `u`'s stake was changed. -/
structure Net (c : Cfg) (u : Addr) (w w1 : World) : Prop where
  votes : ∀ i, w1.gov.votes.get (Gov.vkey u i) =
    Gov.newVote w.gov ⟨w.block.time, c.self, .updateVotes u (w1.mem.weight u)⟩ i (w.gov.votes.get (Gov.vkey u i))
  native : Distributor.Brought u (Distributor.effective w.dist u) w.dist.native w1.dist.native
  cw20 : Distributor.Brought u (Distributor.effective w.dist u) w.dist.cw20 w1.dist.cw20
  eff : w1.dist.effective.get u = some (Distributor.effWeight (w1.mem.weight u) w.dist.min)
  weight : w1.dist.weights.get u = some (w1.mem.weight u)
  entry : w1.mem.mem.weights.get u = some (w1.mem.weight u)

/-- What concerns `u`, while other members' stakes are changed. -/
structure Off (u : Addr) (w w1 : World) : Prop extends Own u w w1 where
  entry : w1.mem.mem.weights.get u = w.mem.mem.weights.get u

theorem newVote_again (s : Gov.State) (t : Nat) (a u : Addr) (n m i : Nat) (o : Option Gov.Vote) :
    Gov.newVote s ⟨t, a, .updateVotes u m⟩ i (Gov.newVote s ⟨t, a, .updateVotes u n⟩ i o) =
      Gov.newVote s ⟨t, a, .updateVotes u m⟩ i o := by
  unfold Gov.newVote
  by_cases h : a = s.admin
  · simp only [h, if_true]
    split
    · cases o <;> rfl
    · rfl
  · simp only [h, if_false]

theorem newVote_same (s : Gov.State) (t : Nat) (a u : Addr) (n i : Nat) (o : Option Gov.Vote)
    (h : ∀ v, o = some v → Gov.openAt s t i → v.amount = n) : Gov.newVote s ⟨t, a, .updateVotes u n⟩ i o = o := by
  unfold Gov.newVote
  by_cases ha : a = s.admin
  · simp only [ha, if_true]
    split
    · rename_i hop
      cases o with
      | none => rfl
      | some v =>
        simp only [Option.map_some]
        rw [← h v rfl hop]
    · rfl
  · simp only [ha, if_false]

/-- The stakes, after a stake or an unstake of `u`. -/
structure Stakes (u : Addr) (b : Block) (s s1 : Staking.State) : Prop where
  own : s1.mem.weights.get u = some (s1.mem.weight u)
  others : ∀ v, v ≠ u → s1.mem.weights.get v = s.mem.weights.get v
  height : s1.mem.byHeight = s.mem.byHeight.save s1.mem.total b.height
  seconds : s1.mem.bySeconds = s.mem.bySeconds.save s1.mem.total b.seconds
  hooks : s1.mem.hooks = s.mem.hooks
  rest : s1.asset = s.asset ∧ s1.unlocking = s.unlocking

theorem Does.stakes {c : Cfg} {k : Staking.Kind} {s s1 : Staking.State} {x : Signed} {u : Addr} {w w1 : World}
    {items : List Item} (h : Does c k s s1 x u w w1 items) (hm : w.mem = .staking k s) (hu : whose x = some u) (hx : moves x = true)
    (hb : Base c w) : Stakes u w.block s s1 := by
  have hok : (Member.staking k s).Ok c.self := hm ▸ hb.mem
  rcases h.staked with ⟨h1, _⟩ | ⟨d, h1, h2, h3⟩
  · exfalso
    obtain ⟨e, a, m⟩ := x
    unfold stakingCall at h1
    unfold moves at hx
    cases m with
    | mem m => cases m <;> first | cases hx; done | (cases h1; done)
    | _ => cases hx
  · have hc : Staking.concerns d ≠ none := by rw [concerns_call h1, hu]; exact Option.some_ne_none _
    obtain ⟨y, y1, _, y2, _⟩ := Staking.accepted_act hok.good hc h2
    have hyu : y.user = u := by
      have := Staking.acts_user y1
      rw [concerns_call h1, hu] at this
      exact (Option.some.inj this).symm
    have hblk : d.env.block = w.block ∧ x.msg = .mem (.staking d.msg) := by
      unfold stakingCall at h1
      split at h1
      · rename_i m hm'
        cases h1
        exact ⟨rfl, hm'⟩
      · cases h1
    have m1 : s1.mem = ((Staking.abs s).eff d.env.block y).mem := by rw [h3]; exact congrArg Staking.Abs.mem y2
    have m2 : s1.asset = s.asset := by rw [h3]; exact (congrArg Staking.Abs.asset y2).trans Staking.eff_asset
    have m3 : s1.unlocking = s.unlocking := by
      rw [h3]
      refine (congrArg Staking.Abs.unlocking y2).trans ?_
      cases y <;> rfl
    rw [hblk.1] at m1
    have fin : ∀ n t : Nat, s1.mem = (s.mem.setWeight u n).saveTotal t w.block → Stakes u w.block s s1 := by
      intro n t hz
      refine ⟨?_, fun v hv => ?_, ?_, ?_, ?_, m2, m3⟩
      · unfold Members.weight
        rw [hz]
        simp [Members.setWeight, Members.saveTotal, Map.get_set_self]
      · rw [hz]
        exact Map.get_set_ne _ _ (fun hh => hv hh.symm)
      · rw [hz]; rfl
      · rw [hz]; rfl
      · rw [hz]; rfl
    cases y with
    | stake v a => cases hyu; exact fin _ _ m1
    | unstake v a => cases hyu; exact fin _ _ m1
    | take v =>
      obtain ⟨⟨o, ho, _⟩, _⟩ := y1
      unfold moves at hx
      rw [hblk.2, ho] at hx
      cases hx

/-- What one such message does for the member it is about. -/
theorem Does.net {c : Cfg} {k : Staking.Kind} {s s1 : Staking.State} {x : Signed} {u : Addr} {w w1 : World}
    {items : List Item} (h : Does c k s s1 x u w w1 items) (hm : w.mem = .staking k s) (hu : whose x = some u) (hx : moves x = true)
    (hb : Base c w) (hb1 : Base c w1) (hd : DistOk c w) : Net c u w w1 := by
  have hst := h.stakes hm hu hx hb
  have hwt : w1.mem.weight u = s1.mem.weight u := by rw [h.mem]; rfl
  have hgm : govMsg x u (s1.mem.weight u) (w.council.weight u) = some (.updateVotes u (s1.mem.weight u)) := by
    obtain ⟨e, a, m⟩ := x
    unfold moves at hx
    unfold govMsg
    cases m with
    | mem m =>
      cases m with
      | staking m => cases m <;> first | rfl | cases hx
      | _ => cases hx
    | _ => cases hx
  have hds : Distributor.updateOne w.dist (u, s1.mem.weight u) = .ok w1.dist := by
    have := h.dist
    obtain ⟨e, a, m⟩ := x
    unfold moves at hx
    unfold DistStep at this
    cases m with
    | mem m =>
      cases m with
      | staking m => cases m <;> first | exact this | cases hx
      | _ => cases hx
    | _ => cases hx
  obtain ⟨y, hy, _, _, he⟩ := Distributor.updateOne_iff.1 hds
  obtain ⟨b1, b2⟩ := Distributor.refresh_brought hd.inv.toCore hy
  refine ⟨fun i => ?_, ?_, ?_, ?_, ?_, ?_⟩
  · rcases h.gov with ⟨e1, _⟩ | ⟨m, e1, e2⟩
    · rw [hgm] at e1; cases e1
    · have ha := h.affects hb hb1 e1 e2
      rw [hgm] at e1
      cases e1
      rw [hwt]
      exact ha.own i
  · rw [he]; exact b1
  · rw [he]; exact b2
  · rw [he, hwt]; exact Map.get_set_self _ _ _
  · rw [he, hwt]; exact Map.get_set_self _ _ _
  · rw [hwt, h.mem]; exact hst.own

theorem Does.off {c : Cfg} {k : Staking.Kind} {s s1 : Staking.State} {x : Signed} {u v : Addr} {w w1 : World}
    {items : List Item} (h : Does c k s s1 x u w w1 items) (hm : w.mem = .staking k s) (hu : whose x = some u) (hx : moves x = true)
    (hb : Base c w) (hb1 : Base c w1) (hv : v ≠ u) : Off v w w1 := by
  refine ⟨h.frame hm hu hb hb1 hv, ?_⟩
  rw [h.mem, hm]
  exact (h.stakes hm hu hx hb).others v hv

theorem Net.then_off {c : Cfg} {u : Addr} {w w1 w2 : World} (h : Net c u w w1) (h' : Off u w1 w2) : Net c u w w2 := by
  have hw := h'.weight
  refine ⟨fun i => ?_, h.native.same_right h'.dist.native, h.cw20.same_right h'.dist.cw20, ?_, ?_, ?_⟩
  · rw [← h'.votes i, h.votes i, hw]
  · rw [← h'.dist.effective, h.eff, hw]
  · rw [← h'.dist.weights, h.weight, hw]
  · rw [h'.entry, h.entry, hw]

theorem Net.then_net {c : Cfg} {u : Addr} {w w1 w2 : World} (h : Net c u w w1) (hf : Fixed w w1) (h' : Net c u w1 w2) : Net c u w w2 := by
  refine ⟨fun i => ?_, h.native.again h'.native, h.cw20.again h'.cw20, ?_, h'.weight, h'.entry⟩
  · rw [h'.votes i, h.votes i, ← hf.gov.newVote, ← hf.rest.2.1, newVote_again]
  · rw [h'.eff, hf.dist.2]

theorem Off.then_net {c : Cfg} {u : Addr} {w w1 w2 : World} (h : Off u w w1) (hf : Fixed w w1) (h' : Net c u w1 w2) : Net c u w w2 := by
  have he : Distributor.effective w1.dist u = Distributor.effective w.dist u := by
    unfold Distributor.effective
    rw [h.dist.effective]
  refine ⟨fun i => ?_, ?_, ?_, ?_, h'.weight, h'.entry⟩
  · rw [h'.votes i, h.votes i, ← hf.gov.newVote, ← hf.rest.2.1]
  · have := h'.native.same_left h.dist.native.symm
    rw [he] at this
    exact this
  · have := h'.cw20.same_left h.dist.cw20.symm
    rw [he] at this
    exact this
  · rw [h'.eff, hf.dist.2]

theorem Off.trans {u : Addr} {w w1 w2 : World} (h : Off u w w1) (h' : Off u w1 w2) : Off u w w2 :=
  ⟨h.toOwn.trans h'.toOwn, h'.entry.trans h.entry⟩

/-- Stakes and unstakes, for a member they are about and for one they are not about. -/
theorem Sequel.net {c : Cfg} (hw : c.Wf) (ht : c.Tame) (u : Addr) : ∀ {l : List Signed} {w w1 : World} {k : Staking.Kind}
    {s : Staking.State}, Reachable c w → w.mem = .staking k s → w.gov.pollCount + 1 < 2 ^ 64 → Valid c l →
    (∀ x ∈ l, moves x = true) → Sequel c w l w1 →
    ((∀ x ∈ l, whose x ≠ some u) → Off u w w1) ∧ ((∃ x ∈ l, whose x = some u) → Net c u w w1)
  | [], w, w1, k, s, h, hm, room, _, _, hs => by
    cases hs
    exact ⟨fun _ => ⟨.rfl' _ _, rfl⟩, fun ⟨x, hx, _⟩ => by cases hx⟩
  | x :: l, w, w2, k, s, h, hm, room, hv, hmv, hs => by
    cases hs with
    | @cons _ w1 _ _ _ _ h1 h2 =>
      obtain ⟨hx, ho⟩ := hv x (by simp)
      obtain ⟨v, hu⟩ := Option.ne_none_iff_exists'.1 hx
      obtain ⟨s1, d, r1, f1, room1⟩ := one_step hw ht h hm room hu ho h1
      have hb := h.base hw ht
      have hb1 := r1.base hw ht
      have hmx := hmv x (by simp)
      obtain ⟨ih1, ih2⟩ := h2.net hw ht u r1 d.mem room1 (fun y hy => hv y (by simp [hy])) (fun y hy => hmv y (by simp [hy]))
      constructor
      · intro hn
        have hne : u ≠ v := fun hh => hn x (by simp) (by rw [hu, hh])
        exact (d.off hm hu hmx hb hb1 hne).trans (ih1 (fun y hy => hn y (by simp [hy])))
      · intro hex
        by_cases hl : ∃ y ∈ l, whose y = some u
        · have h3 := ih2 hl
          by_cases hne : u = v
          · subst hne
            exact (d.net hm hu hmx hb hb1 (h.dist hw ht)).then_net f1 h3
          · exact (d.off hm hu hmx hb hb1 hne).then_net f1 h3
        · have hn : ∀ y ∈ l, whose y ≠ some u := fun y hy he => hl ⟨y, hy, he⟩
          obtain ⟨y, hy, he⟩ := hex
          rcases List.mem_cons.1 hy with rfl | hy
          · have huv : v = u := by rw [hu] at he; exact Option.some.inj he
            subst huv
            exact (d.net hm hu hmx hb hb1 (h.dist hw ht)).then_off (ih1 hn)
          · exact absurd he (hn y hy)

/-- Stakes and unstakes leave the controller alone; the history of the total gets at most one entry. -/
theorem Sequel.total {c : Cfg} (hw : c.Wf) (ht : c.Tame) : ∀ {l : List Signed} {w w1 : World} {k : Staking.Kind}
    {s : Staking.State}, Reachable c w → w.mem = .staking k s → w.gov.pollCount + 1 < 2 ^ 64 → Valid c l →
    (∀ x ∈ l, moves x = true) → Sequel c w l w1 →
    ∃ s1, w1.mem = .staking k s1 ∧ s1.mem.hooks = s.mem.hooks ∧ s1.asset = s.asset ∧ s1.unlocking = s.unlocking ∧
      (l ≠ [] → s1.mem.byHeight = s.mem.byHeight.save s1.mem.total w.block.height ∧
        s1.mem.bySeconds = s.mem.bySeconds.save s1.mem.total w.block.seconds)
  | [], w, w1, k, s, h, hm, room, _, _, hs => by
    cases hs
    exact ⟨s, hm, rfl, rfl, rfl, fun hh => absurd rfl hh⟩
  | x :: l, w, w2, k, s, h, hm, room, hv, hmv, hs => by
    cases hs with
    | @cons _ w1 _ _ _ _ h1 h2 =>
      obtain ⟨hx, ho⟩ := hv x (by simp)
      obtain ⟨v, hu⟩ := Option.ne_none_iff_exists'.1 hx
      obtain ⟨s1, d, r1, f1, room1⟩ := one_step hw ht h hm room hu ho h1
      have hst := d.stakes hm hu (hmv x (by simp)) (h.base hw ht)
      obtain ⟨s2, i1, i2, i3, i4, i5⟩ := h2.total hw ht r1 d.mem room1 (fun y hy => hv y (by simp [hy]))
        (fun y hy => hmv y (by simp [hy]))
      refine ⟨s2, i1, i2.trans hst.hooks, i3.trans hst.rest.1, i4.trans hst.rest.2, fun _ => ?_⟩
      by_cases hl : l = []
      · subst hl
        cases h2
        have := d.mem
        rw [i1] at this
        cases this
        exact ⟨hst.height, hst.seconds⟩
      · obtain ⟨i6, i7⟩ := i5 hl
        rw [i6, i7, hst.height, hst.seconds, ← f1.rest.2.1]
        exact ⟨Staking.save_save _ _ _ _, Staking.save_save _ _ _ _⟩

theorem moves_dist {x : Signed} {u : Addr} {n : Nat} {d d' : Distributor.State} (hx : moves x = true) (h : DistStep x u n d d') :
    Distributor.updateOne d (u, n) = .ok d' := by
  obtain ⟨e, a, m⟩ := x
  unfold moves at hx
  unfold DistStep at h
  cases m with
  | mem m =>
    cases m with
    | staking m => cases m <;> first | exact h | cases hx
    | _ => cases hx
  | _ => cases hx

theorem moves_votes {x : Signed} (hx : moves x = true) (i n : Nat) : ¬ votesFor x i n := by
  rintro ⟨o, h | h, _⟩ <;> simp [moves, h] at hx

/-- Stakes and unstakes leave the controller alone, and nobody's rewards change. -/
theorem Sequel.idle {c : Cfg} (hw : c.Wf) (ht : c.Tame) : ∀ {l : List Signed} {w w1 : World} {k : Staking.Kind}
    {s : Staking.State}, Reachable c w → w.mem = .staking k s → w.gov.pollCount + 1 < 2 ^ 64 → Valid c l →
    (∀ x ∈ l, moves x = true) → Sequel c w l w1 → w1.ctl = w.ctl ∧ Distributor.Quiet w.dist w1.dist
  | [], w, w1, k, s, h, hm, room, _, _, hs => by
    cases hs
    exact ⟨rfl, .refl (h.dist hw ht).inv.toCore⟩
  | x :: l, w, w2, k, s, h, hm, room, hv, hmv, hs => by
    cases hs with
    | @cons _ w1 _ _ _ _ h1 h2 =>
      obtain ⟨hx, ho⟩ := hv x (by simp)
      obtain ⟨v, hu⟩ := Option.ne_none_iff_exists'.1 hx
      obtain ⟨s1, d, r1, f1, room1⟩ := one_step hw ht h hm room hu ho h1
      have hmx := hmv x (by simp)
      obtain ⟨i1, i2⟩ := h2.idle hw ht r1 d.mem room1 (fun y hy => hv y (by simp [hy])) (fun y hy => hmv y (by simp [hy]))
      have hq := (Distributor.updateOne_ok (h.dist hw ht).inv (moves_dist hmx d.dist)).2.1
      refine ⟨i1.trans ?_, hq.trans i2⟩
      rcases (handled hw ht (h.base hw ht) (Or.inl ho) room h1).kind with ⟨_, m', _, e, _⟩ | ⟨_, e, _⟩
      · simp [moves, e] at hmx
      · exact e

end Verif.Dao
