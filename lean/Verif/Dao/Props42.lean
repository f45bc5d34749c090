import Verif.Dao.Props34
import Verif.Dao.Props41

/-!
# The contracts of a DAO together: several stakes and unstakes of NFTs within a block (C179)
-/

set_option linter.unusedSimpArgs false

namespace Verif.Dao.Nfts
open Verif

/-! ## Specification

`Sequel` (C164) are messages accepted one after the other within a block. -/

/-- The messages stake or unstake NFTs, and are sent from outside. -/
def OnlyMoves (c : Cfg) (l : List Signed) : Prop :=
  ∀ x ∈ l, c.outsider x.sender ∧
    ((∃ t u, x.msg = .mem (.nft (.receiveNft t (.stake u)))) ∨ ∃ m, x.msg = .mem (.nft (.unstake m)))

/-- Some message is about the stake of `u`. -/
def concerned (l : List Signed) (u : Addr) : Prop := ∃ x ∈ l, whose x = some u

/-- The same world, but for which NFTs are staked, and for claims of unstaked ones. -/
structure SameButWhich (w t : World) : Prop where
  stakes : ∃ s s', w.mem = .nft s ∧ t.mem = .nft s' ∧ s.mem = s'.mem ∧ s.nft = s'.nft ∧ s.unlocking = s'.unlocking
  polls : w.gov = t.gov
  rewards : w.dist = t.dist
  ctl : w.ctl = t.ctl
  rest : w.council = t.council ∧ w.block = t.block ∧ w.log = t.log

/-! ## Lemmas -/

/-- The message stakes something, or unstakes something. -/
def moves (x : Signed) : Bool :=
  match x.msg with
  | .mem (.nft (.receiveNft _ (.stake _))) => true
  | .mem (.nft (.unstake _)) => true
  | _ => false

theorem moves_or {x : Signed} (h : moves x = true) :
    (∃ t u, x.msg = .mem (.nft (.receiveNft t (.stake u)))) ∨ ∃ m, x.msg = .mem (.nft (.unstake m)) := by
  unfold moves at h
  split at h
  · next t u e => exact Or.inl ⟨t, u, e⟩
  · next m e => exact Or.inr ⟨m, e⟩
  · cases h

theorem OnlyMoves.moves {c : Cfg} {l : List Signed} (h : OnlyMoves c l) : ∀ x ∈ l, moves x = true := by
  intro x hx
  unfold Nfts.moves
  rcases (h x hx).2 with ⟨t, u, e⟩ | ⟨n, e⟩ <;> rw [e]

theorem OnlyMoves.valid {c : Cfg} {l : List Signed} (h : OnlyMoves c l) : Valid c l := by
  intro x hx
  refine ⟨?_, (h x hx).1⟩
  unfold whose
  rcases (h x hx).2 with ⟨t, u, e⟩ | ⟨n, e⟩ <;> rw [e] <;> simp

theorem moves_votes {x : Signed} (hx : moves x = true) (i n : Nat) : ¬ votesFor x i n := by
  rintro ⟨o, h | h, _⟩ <;> simp [moves, h] at hx

theorem moves_dist {x : Signed} {u : Addr} {n : Nat} {d d' : Distributor.State} (hx : moves x = true) (h : DistStep x u n d d') :
    Distributor.updateOne d (u, n) = .ok d' := by
  unfold DistStep at h
  rcases moves_or hx with ⟨t, v, e⟩ | ⟨m, e⟩ <;> rw [e] at h <;> exact h

/-- The stakes, after a stake or an unstake of `u`. -/
structure Stakes (u : Addr) (b : Block) (s s1 : Nft.State) : Prop where
  own : s1.mem.weights.get u = some (s1.mem.weight u)
  others : ∀ v, v ≠ u → s1.mem.weights.get v = s.mem.weights.get v
  height : s1.mem.byHeight = s.mem.byHeight.save s1.mem.total b.height
  seconds : s1.mem.bySeconds = s.mem.bySeconds.save s1.mem.total b.seconds
  hooks : s1.mem.hooks = s.mem.hooks
  rest : s1.nft = s.nft ∧ s1.unlocking = s.unlocking

theorem does_stakes {c : Cfg} {x : Signed} {u : Addr} {w w1 : World} {items : List Item} (h : Does c x u w w1 items)
    (hu : whose x = some u) (hx : moves x = true) (hb : Base c w) (hk : Known w.mem) :
    ∃ s s1, w.mem = .nft s ∧ w1.mem = .nft s1 ∧ Stakes u w.block s s1 := by
  rcases h.mem with ⟨h1, _⟩ | ⟨s, d, h0, h1, h2, h3⟩
  · exfalso
    unfold nftCall at h1
    rcases moves_or hx with ⟨t, v, e⟩ | ⟨m, e⟩ <;> rw [e] at h1 <;> cases h1
  · refine ⟨s, _, h0, h3, ?_⟩
    have hok : (Member.nft s).Ok c.self := h0 ▸ hb.mem
    obtain ⟨a, ha⟩ := hk s h0
    have hc : Nft.concerns d ≠ none := by rw [concerns_call h1, hu]; exact Option.some_ne_none _
    obtain ⟨y, y1, y2⟩ := Nft.actOf_some hc
    obtain ⟨_, _, y3, _⟩ := Nft.accepted_act hok.good ha y1 h2
    have hyu : y.user = u := by
      rw [concerns_call h1, hu] at y2
      exact (Option.some.inj y2).symm
    have hblk : d.env.env.block = w.block := by
      unfold nftCall at h1
      split at h1
      · cases h1; rfl
      · cases h1
    have hmsg := nftCall_msg h1
    have m1 : (Nft.step s d).1.mem = ((Nft.abs s).eff d.env.env.block y).mem := congrArg Nft.Abs.mem y3
    have m2 : (Nft.step s d).1.nft = s.nft := (congrArg Nft.Abs.nft y3).trans (Nft.eff_nft _ _ _)
    have m3 : (Nft.step s d).1.unlocking = s.unlocking := by
      refine (congrArg Nft.Abs.unlocking y3).trans ?_
      cases y <;> rfl
    rw [hblk] at m1
    have fin : ∀ n t : Nat, (Nft.step s d).1.mem = (s.mem.setWeight u n).saveTotal t w.block →
        Stakes u w.block s (Nft.step s d).1 := by
      intro n t hz
      refine ⟨?_, fun v hv => ?_, ?_, ?_, ?_, m2, m3⟩
      · unfold Members.weight
        rw [hz]
        simp [Members.setWeight, Members.saveTotal, Map.get_set_self]
      · rw [hz]
        exact Map.get_set_ne _ _ (fun hh => hv hh.symm)
      · rw [hz]; rfl
      · rw [hz]; rfl
      · rw [hz]; rfl
    cases y with
    | stake v t => cases hyu; exact fin _ _ m1
    | unstake v l => cases hyu; exact fin _ _ m1
    | grant v t r =>
      exfalso
      unfold Nft.actOf at y1
      rcases moves_or hx with ⟨t', v', e⟩ | ⟨m, e⟩ <;> rw [e] at hmsg <;> cases hd : d.msg <;> rw [hd] at hmsg y1 <;>
        cases hmsg <;> cases y1
    | take v =>
      exfalso
      unfold Nft.actOf at y1
      rcases moves_or hx with ⟨t', v', e⟩ | ⟨m, e⟩ <;> rw [e] at hmsg <;> cases hd : d.msg <;> rw [hd] at hmsg y1 <;>
        cases hmsg <;> cases y1

/-- What one such message does for the member it is about. -/
theorem does_net {c : Cfg} {x : Signed} {u : Addr} {w w1 : World} {items : List Item} (h : Does c x u w w1 items)
    (hu : whose x = some u) (hx : moves x = true) (hb : Base c w) (hk : Known w.mem) (hb1 : Base c w1) (hd : DistOk c w) :
    Net c u w w1 := by
  obtain ⟨s, s1, hm, hm1, hst⟩ := does_stakes h hu hx hb hk
  have hgm : govMsg x u (w1.mem.weight u) (w.council.weight u) = some (.updateVotes u (w1.mem.weight u)) := by
    unfold govMsg
    rcases moves_or hx with ⟨t, v, e⟩ | ⟨m, e⟩ <;> rw [e]
  obtain ⟨y, hy, _, _, he⟩ := Distributor.updateOne_iff.1 (moves_dist hx h.dist)
  obtain ⟨b1, b2⟩ := Distributor.refresh_brought hd.inv.toCore hy
  refine ⟨fun i => ?_, ?_, ?_, ?_, ?_, ?_⟩
  · rcases h.gov with ⟨e1, _⟩ | ⟨m, e1, e2⟩
    · rw [hgm] at e1; cases e1
    · have ha := h.affects hb hb1 e1 e2
      rw [hgm] at e1
      cases e1
      exact ha.own i
  · rw [he]; exact b1
  · rw [he]; exact b2
  · rw [he]; exact Map.get_set_self _ _ _
  · rw [he]; exact Map.get_set_self _ _ _
  · rw [hm1]; exact hst.own

theorem does_off {c : Cfg} {x : Signed} {u v : Addr} {w w1 : World} {items : List Item} (h : Does c x u w w1 items)
    (hu : whose x = some u) (hx : moves x = true) (hb : Base c w) (hk : Known w.mem) (hb1 : Base c w1) (hv : v ≠ u) :
    Off v w w1 := by
  obtain ⟨s, s1, hm, hm1, hst⟩ := does_stakes h hu hx hb hk
  refine ⟨h.frame hu hb hb1 hv, ?_⟩
  rw [hm, hm1]
  exact hst.others v hv

theorem net_net {c : Cfg} {u : Addr} {w w1 w2 : World} (h : Net c u w w1) (hf : Fixed w w1) (h' : Net c u w1 w2) : Net c u w w2 := by
  refine ⟨fun i => ?_, h.native.again h'.native, h.cw20.again h'.cw20, ?_, h'.weight, h'.entry⟩
  · rw [h'.votes i, h.votes i, ← hf.gov.newVote, ← hf.rest.2.1, newVote_again]
  · rw [h'.eff, hf.dist.2]

theorem off_net {c : Cfg} {u : Addr} {w w1 w2 : World} (h : Off u w w1) (hf : Fixed w w1) (h' : Net c u w1 w2) : Net c u w w2 := by
  have he : Distributor.effective w1.dist u = Distributor.effective w.dist u := by
    unfold Distributor.effective
    rw [h.dist.effective]
  refine ⟨fun i => ?_, ?_, ?_, ?_, h'.weight, h'.entry⟩
  · rw [h'.votes i, h.votes i, ← hf.gov.newVote, ← hf.rest.2.1]
  · have := h'.native.same_left h.dist.native.symm
    rw [he] at this
    exact this
  · have := h'.cw20.same_left h.dist.cw20.symm
    rw [he] at this
    exact this
  · rw [h'.eff, hf.dist.2]

/-- Stakes and unstakes, for a member they are about and for one they are not about. -/
theorem seq_net {c : Cfg} (hw : c.Wf) (ht : c.Tame) (u : Addr) : ∀ {l : List Signed} {w w1 : World}, Good c w → Valid c l →
    (∀ x ∈ l, moves x = true) → Sequel c w l w1 →
    ((∀ x ∈ l, whose x ≠ some u) → Off u w w1) ∧ ((∃ x ∈ l, whose x = some u) → Net c u w w1)
  | [], w, w1, h, _, _, hs => by
    cases hs
    exact ⟨fun _ => ⟨.rfl' _ _, rfl⟩, fun ⟨x, hx, _⟩ => by cases hx⟩
  | x :: l, w, w2, h, hv, hmv, hs => by
    cases hs with
    | @cons _ w1 _ _ _ _ h1 h2 =>
      obtain ⟨hx, ho⟩ := hv x (by simp)
      obtain ⟨v, hu⟩ := Option.ne_none_iff_exists'.1 hx
      obtain ⟨d, r1, f1⟩ := one_step hw ht h hu ho h1
      have hb := h.reach.base hw ht
      have hb1 := r1.reach.base hw ht
      have hmx := hmv x (by simp)
      obtain ⟨ih1, ih2⟩ := seq_net hw ht u r1 (fun y hy => hv y (by simp [hy])) (fun y hy => hmv y (by simp [hy])) h2
      constructor
      · intro hn
        have hne : u ≠ v := fun hh => hn x (by simp) (by rw [hu, hh])
        exact (does_off d hu hmx hb h.known hb1 hne).trans (ih1 (fun y hy => hn y (by simp [hy])))
      · intro hex
        by_cases hl : ∃ y ∈ l, whose y = some u
        · have h3 := ih2 hl
          by_cases hne : u = v
          · subst hne
            exact net_net (does_net d hu hmx hb h.known hb1 (h.reach.dist hw ht)) f1 h3
          · exact off_net (does_off d hu hmx hb h.known hb1 hne) f1 h3
        · have hn : ∀ y ∈ l, whose y ≠ some u := fun y hy he => hl ⟨y, hy, he⟩
          obtain ⟨y, hy, he⟩ := hex
          rcases List.mem_cons.1 hy with rfl | hy
          · have huv : v = u := by rw [hu] at he; exact Option.some.inj he
            subst huv
            exact (does_net d hu hmx hb h.known hb1 (h.reach.dist hw ht)).then_off (ih1 hn)
          · exact absurd he (hn y hy)

/-- The history of the total gets at most one entry. -/
theorem seq_total {c : Cfg} (hw : c.Wf) (ht : c.Tame) : ∀ {l : List Signed} {w w1 : World} {s : Nft.State}, Good c w →
    w.mem = .nft s → Valid c l → (∀ x ∈ l, moves x = true) → Sequel c w l w1 →
    ∃ s1, w1.mem = .nft s1 ∧ s1.mem.hooks = s.mem.hooks ∧ s1.nft = s.nft ∧ s1.unlocking = s.unlocking ∧
      (l ≠ [] → s1.mem.byHeight = s.mem.byHeight.save s1.mem.total w.block.height ∧
        s1.mem.bySeconds = s.mem.bySeconds.save s1.mem.total w.block.seconds)
  | [], w, w1, s, h, hm, _, _, hs => by
    cases hs
    exact ⟨s, hm, rfl, rfl, rfl, fun hh => absurd rfl hh⟩
  | x :: l, w, w2, s, h, hm, hv, hmv, hs => by
    cases hs with
    | @cons _ w1 _ _ _ _ h1 h2 =>
      obtain ⟨hx, ho⟩ := hv x (by simp)
      obtain ⟨v, hu⟩ := Option.ne_none_iff_exists'.1 hx
      obtain ⟨d, r1, f1⟩ := one_step hw ht h hu ho h1
      obtain ⟨s', s1, e1, e2, hst⟩ := does_stakes d hu (hmv x (by simp)) (h.reach.base hw ht) h.known
      rw [hm] at e1
      cases e1
      obtain ⟨s2, i1, i2, i3, i4, i5⟩ := seq_total hw ht r1 e2 (fun y hy => hv y (by simp [hy]))
        (fun y hy => hmv y (by simp [hy])) h2
      refine ⟨s2, i1, i2.trans hst.hooks, i3.trans hst.rest.1, i4.trans hst.rest.2, fun _ => ?_⟩
      by_cases hl : l = []
      · subst hl
        cases h2
        rw [i1] at e2
        cases e2
        exact ⟨hst.height, hst.seconds⟩
      · obtain ⟨i6, i7⟩ := i5 hl
        rw [i6, i7, hst.height, hst.seconds, ← f1.rest.2.1]
        exact ⟨Staking.save_save _ _ _ _, Staking.save_save _ _ _ _⟩

/-- Stakes and unstakes leave the controller alone, and nobody's rewards change. -/
theorem seq_idle {c : Cfg} (hw : c.Wf) (ht : c.Tame) : ∀ {l : List Signed} {w w1 : World}, Good c w → Valid c l →
    (∀ x ∈ l, moves x = true) → Sequel c w l w1 → w1.ctl = w.ctl ∧ Distributor.Quiet w.dist w1.dist
  | [], w, w1, h, _, _, hs => by
    cases hs
    exact ⟨rfl, .refl (h.reach.dist hw ht).inv.toCore⟩
  | x :: l, w, w2, h, hv, hmv, hs => by
    cases hs with
    | @cons _ w1 _ _ _ _ h1 h2 =>
      obtain ⟨hx, ho⟩ := hv x (by simp)
      obtain ⟨v, hu⟩ := Option.ne_none_iff_exists'.1 hx
      obtain ⟨d, r1, f1⟩ := one_step hw ht h hu ho h1
      have hmx := hmv x (by simp)
      obtain ⟨i1, i2⟩ := seq_idle hw ht r1 (fun y hy => hv y (by simp [hy])) (fun y hy => hmv y (by simp [hy])) h2
      have hq := (Distributor.updateOne_ok (h.reach.dist hw ht).inv (moves_dist hmx d.dist)).2.1
      refine ⟨i1.trans ?_, hq.trans i2⟩
      rcases (handled hw ht (h.reach.base hw ht) (Or.inl ho) h.room h1).kind with ⟨_, m', _, e, _⟩ | ⟨_, e, _⟩
      · simp [moves, e] at hmx
      · exact e

theorem good_of {c : Cfg} {w : World} (h : Reachable c w) {s : Nft.State} {a : Addr} (hm : w.mem = .nft s)
    (hn : s.nft = .cw721 a) (room : w.gov.pollCount + 1 < 2 ^ 64) : Good c w :=
  ⟨h, fun s' hs' => by rw [hm] at hs'; cases hs'; exact ⟨a, hn⟩, room⟩

/-- Votes of a member whose weight ends where it began, apart from votes on open council proposals. -/
theorem back_vote {c : Cfg} (hw : c.Wf) (ht : c.Tame) {w w1 : World} (h : Good c w) {l : List Signed}
    (hl : OnlyMoves c l) (h1 : Sequel c w l w1) {u : Addr} (hsame : w1.mem.weight u = w.mem.weight u) {id : Nat}
    (hg : ∀ i, w.ctl.infos.get id = some i → i.type = .general) :
    Gov.queryPollVoter w1.gov id u = Gov.queryPollVoter w.gov id u := by
  obtain ⟨a1, a2⟩ := seq_net hw ht u h hl.valid hl.moves h1
  unfold Gov.queryPollVoter
  by_cases hu : concerned l u
  · rw [(a2 hu).votes id, hsame]
    refine newVote_same _ _ _ _ _ _ _ (fun v hv hop => ?_)
    obtain ⟨p, hp, hlv, hends⟩ := hop
    have hi : w.ctl.infos.has id = true := by
      rw [(h.reach.base hw ht).ctl.infos id]
      exact Map.has_iff.2 ⟨p, hp⟩
    obtain ⟨i, hi⟩ := Map.has_iff.1 hi
    exact C54_votes_track_weight hw ht h.reach hi (hg i hi) (Controller.queryPoll_ok_iff.2 hp) hlv hends hv
  · exact ((a1 (fun x hx e => hu ⟨x, hx, e⟩)).votes id).symm

end Verif.Dao.Nfts

namespace Verif.Dao
open Verif

/-! ## C179 -/

/-- **Which NFTs are staked does not matter, only how many.** Two histories of stakes and unstakes of NFTs within a block, about
the same members, after which everybody has the same number of NFTs staked: nothing else in the DAO tells them apart, but for
which NFTs are staked and for the claims of the unstaked ones. -/
theorem C179_net {c : Cfg} (hw : c.Wf) (ht : c.Tame) {w w1 w2 : World} (h : Reachable c w) {s : Nft.State} {a : Addr}
    (hm : w.mem = .nft s) (hn : s.nft = .cw721 a) (room : w.gov.pollCount + 1 < 2 ^ 64) {l l' : List Signed}
    (hl : Nfts.OnlyMoves c l) (hl' : Nfts.OnlyMoves c l') (h1 : Sequel c w l w1) (h2 : Sequel c w l' w2)
    (hc : ∀ u, Nfts.concerned l u ↔ Nfts.concerned l' u) (hsame : ∀ u, w1.mem.weight u = w2.mem.weight u) :
    Nfts.SameButWhich w1 w2 := by
  have hg := Nfts.good_of h hm hn room
  have v1 := hl.valid
  have v2 := hl'.valid
  obtain ⟨r1, f1⟩ := Nfts.seq_fixed hw ht hg v1 h1
  obtain ⟨r2, f2⟩ := Nfts.seq_fixed hw ht hg v2 h2
  have hf := f1.symm.trans f2
  have b1 := r1.reach.base hw ht
  have b2 := r2.reach.base hw ht
  have ho : ∀ u, Own u w1 w2 ∧ w1.mem.mem.weights.get u = w2.mem.mem.weights.get u := by
    intro u
    obtain ⟨a1, a2⟩ := Nfts.seq_net hw ht u hg v1 hl.moves h1
    obtain ⟨b1, b2⟩ := Nfts.seq_net hw ht u hg v2 hl'.moves h2
    by_cases hu : Nfts.concerned l u
    · have n1 := a2 hu
      have n2 := b2 ((hc u).1 hu)
      refine ⟨⟨hsame u, fun i => ?_, ⟨⟨?_, n1.native.unique n2.native, n1.cw20.unique n2.cw20⟩, ?_⟩⟩, ?_⟩
      · rw [n1.votes i, n2.votes i, hsame u]
      · rw [n1.eff, n2.eff, hsame u]
      · rw [n1.weight, n2.weight, hsame u]
      · rw [n1.entry, n2.entry, hsame u]
    · have o1 := a1 (fun x hx e => hu ⟨x, hx, e⟩)
      have o2 := b1 (fun x hx e => hu ((hc u).2 ⟨x, hx, e⟩))
      exact ⟨o1.toOwn.symm.trans o2.toOwn, o1.entry.trans o2.entry.symm⟩
  obtain ⟨s1, m1, m2, m3, m4, m5⟩ := Nfts.seq_total hw ht hg hm v1 hl.moves h1
  obtain ⟨s2, n1, n2, n3, n4, n5⟩ := Nfts.seq_total hw ht hg hm v2 hl'.moves h2
  refine ⟨⟨s1, s2, m1, n1, ?_, m3.trans n3.symm, m4.trans n4.symm⟩, ?_, ?_, ?_, hf.rest⟩
  · have hwt : s1.mem.weights = s2.mem.weights := by
      refine Map.ext_get (fun u => ?_)
      have := (ho u).2
      rw [m1, n1] at this
      exact this
    have ht1 : s1.mem.total = s2.mem.total := by
      have e1 := b1.mem.total
      have e2 := b2.mem.total
      rw [Member.total_never, m1] at e1
      rw [Member.total_never, n1] at e2
      change s1.mem.total = s1.mem.wsum at e1
      change s2.mem.total = s2.mem.wsum at e2
      rw [e1, e2]
      unfold Members.wsum
      rw [hwt]
    have hby : s1.mem.byHeight = s2.mem.byHeight ∧ s1.mem.bySeconds = s2.mem.bySeconds := by
      by_cases hn : l = []
      · have hn' : l' = [] := by
          cases l' with
          | nil => rfl
          | cons x t =>
            obtain ⟨u, hu⟩ := Option.ne_none_iff_exists'.1 (v2 x (by simp)).1
            obtain ⟨y, hy, _⟩ := (hc u).2 ⟨x, by simp, hu⟩
            rw [hn] at hy
            cases hy
        subst hn hn'
        cases h1
        cases h2
        rw [m1] at n1
        cases n1
        exact ⟨rfl, rfl⟩
      · have hn' : l' ≠ [] := by
          rintro rfl
          cases l with
          | nil => exact hn rfl
          | cons x t =>
            obtain ⟨u, hu⟩ := Option.ne_none_iff_exists'.1 (v1 x (by simp)).1
            obtain ⟨y, hy, _⟩ := (hc u).1 ⟨x, by simp, hu⟩
            cases hy
        rw [(m5 hn).1, (m5 hn).2, (n5 hn').1, (n5 hn').2, ht1]
        exact ⟨rfl, rfl⟩
    have hh : s1.mem.hooks = s2.mem.hooks := m2.trans n2.symm
    cases hs1 : s1.mem
    cases hs2 : s2.mem
    rw [hs1, hs2] at hwt hby hh
    simp only at hwt hby hh
    rw [hwt, hby.1, hby.2, hh]
  · refine Gov.state_ext b1.ctl.inv b2.ctl.inv hf.gov (fun u i => (ho u).1.votes i) ?_
    intro i p q hp hq n
    obtain ⟨p0, hp0, _, _⟩ := f1.gov.symm.get hp
    rw [Nfts.seq_has hw ht hg v1 h1 p0 p hp0 hp, Nfts.seq_has hw ht hg v2 h2 p0 q hp0 hq]
    refine or_congr Iff.rfl ⟨?_, ?_⟩
    · rintro ⟨x, hx, e⟩; exact absurd e (Nfts.moves_votes (hl.moves x hx) i n)
    · rintro ⟨x, hx, e⟩; exact absurd e (Nfts.moves_votes (hl'.moves x hx) i n)
  · exact Distributor.userParts_ext (fun u => (ho u).1.dist) hf.dist.1 hf.dist.2 (r1.reach.dist hw ht).inv
      (r2.reach.dist hw ht).inv
  · exact (Nfts.seq_idle hw ht hg v1 hl.moves h1).1.trans (Nfts.seq_idle hw ht hg v2 hl'.moves h2).1.symm

/-- Stakes and unstakes of NFTs within a block, after which everybody has as many as before: votes on general proposals, rewards,
the total weight, and everything of the controller and the council are as before. (For votes of the council see C176.) -/
theorem C179_back {c : Cfg} (hw : c.Wf) (ht : c.Tame) {w w1 : World} (h : Reachable c w) {s : Nft.State} {a : Addr}
    (hm : w.mem = .nft s) (hn : s.nft = .cw721 a) (room : w.gov.pollCount + 1 < 2 ^ 64) {l : List Signed}
    (hl : Nfts.OnlyMoves c l) (h1 : Sequel c w l w1) (hsame : ∀ u, w1.mem.weight u = w.mem.weight u) :
    (∀ id i u, w.ctl.infos.get id = some i → i.type = .general →
      Gov.queryPollVoter w1.gov id u = Gov.queryPollVoter w.gov id u) ∧
    (∀ u ds ts, Distributor.queryRewards w1.dist u ds ts = Distributor.queryRewards w.dist u ds ts) ∧
    w1.mem.total .never = w.mem.total .never ∧
    w1.ctl = w.ctl ∧ w1.council = w.council ∧ w1.block = w.block ∧ w1.log = w.log := by
  have hg := Nfts.good_of h hm hn room
  obtain ⟨r1, f1⟩ := Nfts.seq_fixed hw ht hg hl.valid h1
  obtain ⟨i1, i2⟩ := Nfts.seq_idle hw ht hg hl.valid hl.moves h1
  refine ⟨fun id i u hi hty => ?_, fun u ds ts => i2.query u ds ts, ?_, i1, f1.rest.1.symm, f1.rest.2.1.symm, f1.rest.2.2.symm⟩
  · refine Nfts.back_vote hw ht hg hl h1 (hsame u) (fun j hj => ?_)
    rw [hi] at hj
    cases hj
    exact hty
  · rw [(r1.reach.base hw ht).mem.total, (h.base hw ht).mem.total]
    have hs : ∀ u, (w1.mem.mem.weights.get u).getD 0 = (w.mem.mem.weights.get u).getD 0 := by
      intro u
      have := hsame u
      rw [Member.weight_eq, Member.weight_eq] at this
      exact this
    exact Nat.le_antisymm (sum_le_two (b := Map.empty) (fun u => by rw [hs u]; omega))
      (sum_le_two (b := Map.empty) (fun u => by rw [hs u]; omega))

/-! ## Examples -/

/-- An NFT is staked for `u`, and `u` unstakes NFTs. -/
def stakesNft (u : Addr) (t : Nat) : Signed := ⟨sampleExt, 25, .mem (.nft (.receiveNft t (.stake u)))⟩
def unstakesNfts (u : Addr) (l : List Nat) : Signed := ⟨sampleExt, u, .mem (.nft (.unstake l))⟩

/-- User 10, who has three NFTs staked, votes. -/
def collectionVoted : List Step := collectionVoting ++ [.tx sampleExt 10 (.ctl (.castVote 1 .yes))]

/-- The state after that. -/
def collectionNow : World := (runAll sampleCfg collectionGenesis collectionVoted).getD collectionGenesis

theorem collectionNow_reachable : Reachable sampleCfg collectionNow := by
  obtain ⟨w, hw⟩ := Option.isSome_iff_exists.1 (show (runAll sampleCfg collectionGenesis collectionVoted).isSome = true by
    decide +kernel)
  have : collectionNow = w := by unfold collectionNow; rw [hw]; rfl
  rw [this]
  exact runAll_reachable collectionVoted (.init collection_genesis) hw

theorem collectionNow_nft : ∃ s, collectionNow.mem = .nft s ∧ s.nft = .cw721 25 := ⟨_, rfl, by decide +kernel⟩

/-- User 10 unstakes two NFTs and stakes a new one, or just unstakes one: the hypotheses of `C179_net`. -/
example : ∃ w1 w2, Sequel sampleCfg collectionNow [unstakesNfts 10 [5, 6], stakesNft 10 9] w1 ∧
    Sequel sampleCfg collectionNow [unstakesNfts 10 [7]] w2 ∧ (w1.mem.weight 10, w2.mem.weight 10) = (2, 2) ∧ w1.mem ≠ w2.mem ∧
    (Gov.queryPollVoter collectionNow.gov 1 10).map (·.amount) = some 3 ∧
    (Gov.queryPollVoter w1.gov 1 10).map (·.amount) = some 2 ∧ Nfts.SameButWhich w1 w2 := by
  obtain ⟨w1, h1⟩ := Option.isSome_iff_exists.1 (show (inTurn sampleCfg collectionNow
    [unstakesNfts 10 [5, 6], stakesNft 10 9]).isSome = true by decide +kernel)
  obtain ⟨w2, h2⟩ := Option.isSome_iff_exists.1 (show (inTurn sampleCfg collectionNow
    [unstakesNfts 10 [7]]).isSome = true by decide +kernel)
  have s1 := inTurn_sequel h1
  have s2 := inTurn_sequel h2
  have e1 : w1 = (inTurn sampleCfg collectionNow [unstakesNfts 10 [5, 6], stakesNft 10 9]).getD collectionNow := by rw [h1]; rfl
  have e2 : w2 = (inTurn sampleCfg collectionNow [unstakesNfts 10 [7]]).getD collectionNow := by rw [h2]; rfl
  refine ⟨w1, w2, s1, s2, by rw [e1, e2]; decide +kernel, by rw [e1, e2]; decide +kernel, by decide +kernel,
    by rw [e1]; decide +kernel, ?_⟩
  obtain ⟨s, hm, hn⟩ := collectionNow_nft
  have m1 : Nfts.OnlyMoves sampleCfg [unstakesNfts 10 [5, 6], stakesNft 10 9] := by
    intro x hx
    simp only [List.mem_cons, List.not_mem_nil, or_false] at hx
    rcases hx with rfl | rfl
    · exact ⟨by decide, Or.inr ⟨_, rfl⟩⟩
    · exact ⟨by decide, Or.inl ⟨_, _, rfl⟩⟩
  have m2 : Nfts.OnlyMoves sampleCfg [unstakesNfts 10 [7]] := by
    intro x hx
    simp only [List.mem_cons, List.not_mem_nil, or_false] at hx
    subst hx
    exact ⟨by decide, Or.inr ⟨_, rfl⟩⟩
  have c1 : ∀ u, Nfts.concerned [unstakesNfts 10 [5, 6], stakesNft 10 9] u ↔ u = 10 := by
    intro u
    simp [Nfts.concerned, Nfts.whose, stakesNft, unstakesNfts, eq_comm]
  have c2 : ∀ u, Nfts.concerned [unstakesNfts 10 [7]] u ↔ u = 10 := by
    intro u
    simp [Nfts.concerned, Nfts.whose, stakesNft, unstakesNfts, eq_comm]
  have room : collectionNow.gov.pollCount + 1 < 2 ^ 64 := by decide +kernel
  have hg := Nfts.good_of collectionNow_reachable hm hn room
  refine C179_net sampleCfg_wf sampleCfg_tame collectionNow_reachable hm hn room m1 m2 s1 s2
    (fun u => (c1 u).trans (c2 u).symm) (fun u => ?_)
  by_cases hu : u = 10
  · subst hu; rw [e1, e2]; decide +kernel
  · have o1 := (Nfts.seq_net sampleCfg_wf sampleCfg_tame u hg m1.valid m1.moves s1).1 (fun x hx e => hu ((c1 u).1 ⟨x, hx, e⟩))
    have o2 := (Nfts.seq_net sampleCfg_wf sampleCfg_tame u hg m2.valid m2.moves s2).1 (fun x hx e => hu ((c2 u).1 ⟨x, hx, e⟩))
    exact o1.weight.symm.trans o2.weight

/-- User 10 exchanges one NFT for another: the hypotheses of `C179_back`. -/
example : ∃ w1, Sequel sampleCfg collectionNow [unstakesNfts 10 [5], stakesNft 10 9] w1 ∧
    Nfts.OnlyMoves sampleCfg [unstakesNfts 10 [5], stakesNft 10 9] ∧ (∀ u, w1.mem.weight u = collectionNow.mem.weight u) ∧
    (Gov.queryPollVoter w1.gov 1 10).map (·.amount) = some 3 := by
  obtain ⟨w1, h1⟩ := Option.isSome_iff_exists.1 (show (inTurn sampleCfg collectionNow
    [unstakesNfts 10 [5], stakesNft 10 9]).isSome = true by decide +kernel)
  have s1 := inTurn_sequel h1
  have e1 : w1 = (inTurn sampleCfg collectionNow [unstakesNfts 10 [5], stakesNft 10 9]).getD collectionNow := by rw [h1]; rfl
  obtain ⟨s, hm, hn⟩ := collectionNow_nft
  have m1 : Nfts.OnlyMoves sampleCfg [unstakesNfts 10 [5], stakesNft 10 9] := by
    intro x hx
    simp only [List.mem_cons, List.not_mem_nil, or_false] at hx
    rcases hx with rfl | rfl
    · exact ⟨by decide, Or.inr ⟨_, rfl⟩⟩
    · exact ⟨by decide, Or.inl ⟨_, _, rfl⟩⟩
  have c1 : ∀ u, Nfts.concerned [unstakesNfts 10 [5], stakesNft 10 9] u ↔ u = 10 := by
    intro u
    simp [Nfts.concerned, Nfts.whose, stakesNft, unstakesNfts, eq_comm]
  have room : collectionNow.gov.pollCount + 1 < 2 ^ 64 := by decide +kernel
  have hg := Nfts.good_of collectionNow_reachable hm hn room
  refine ⟨w1, s1, m1, fun u => ?_, by rw [e1]; decide +kernel⟩
  by_cases hu : u = 10
  · subst hu; rw [e1]; decide +kernel
  · exact ((Nfts.seq_net sampleCfg_wf sampleCfg_tame u hg m1.valid m1.moves s1).1
      (fun x hx e => hu ((c1 u).1 ⟨x, hx, e⟩))).weight.symm

end Verif.Dao
