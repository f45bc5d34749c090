import Verif.Dao.Period
import Verif.Dao.Props

/-!
# The contracts of a DAO together: what is settled when voting on a proposal ends
-/

set_option linter.unusedSimpArgs false

namespace Verif.Dao
open Verif
open Verif.Controller (Info Sub PType)
open Verif.Staking (At)

/-! ### Specification -/

/-- Total weight of the body that decides on proposals of a type, at a moment: all members, or the council. -/
def bodyTotal (w : World) (t : PType) (a : At) : Nat :=
  match t with
  | .general => w.mem.total a
  | .council => Multisig.queryTotal w.council a

/-! ### Snapshots -/

/-- `s'` comes from `s` by saves at `k`, as far as queries for `k` or before can tell. -/
structure Settled (k : Nat) (s s' : Snap) : Prop where
  upTo : s.upTo k → s'.upTo k
  past : s.upTo k → ∀ H, H ≤ k → s'.loadAt H = s.loadAt H

theorem Settled.refl (k : Nat) (s : Snap) : Settled k s s := ⟨id, fun _ _ _ => rfl⟩

theorem Settled.trans {k : Nat} {s s1 s2 : Snap} (h1 : Settled k s s1) (h2 : Settled k s1 s2) : Settled k s s2 :=
  ⟨fun h => h2.upTo (h1.upTo h), fun h H hH => (h2.past (h1.upTo h) H hH).trans (h1.past h H hH)⟩

theorem Settled.of {k : Nat} {s s' : Snap} (h : s' = s ∨ ∃ v, s' = s.save v k) : Settled k s s' := by
  rcases h with rfl | ⟨v, rfl⟩
  · exact .refl _ _
  · refine ⟨fun h => Snap.upTo_save v h (le_refl k), fun h H hH => ?_⟩
    unfold Snap.loadAt
    rw [Snap.mayLoadAt_save hH h]

theorem Member.total_time (x : Member) (t : Nat) : x.total (.time t) = x.mem.bySeconds.loadAt (t / 10 ^ 9) := by
  cases x <;> rfl

theorem Member.exec_settled {x : Member} (hx : x.Good) {e : Nft.NEnv} {m : MemberMsg} {r : Member × List Out}
    (h : x.exec e m = .ok r) : Settled e.env.block.seconds x.mem.bySeconds r.1.mem.bySeconds := by
  unfold Member.exec at h
  split at h
  · simp only [bind_ok_iff, pure_ok_iff] at h
    obtain ⟨y, h1, rfl⟩ := h
    exact .of (Staking.effect_exec hx h1).bySeconds
  · simp only [bind_ok_iff, pure_ok_iff] at h
    obtain ⟨y, h1, rfl⟩ := h
    exact .of (Nft.effect_exec hx h1).bySeconds
  · simp only [bind_ok_iff, pure_ok_iff] at h
    obtain ⟨y, h1, rfl⟩ := h
    exact .of (Multisig.effect_exec hx h1).bySeconds
  · cases h

/-! ### Polls whose voting is over -/

/-- Polls whose voting is over at `now` are left as they are, and no such poll appears. -/
structure Rests (now : Nat) (g g' : Gov.State) : Prop where
  same : ∀ id p, g.polls.get id = some p → p.endsAt ≤ now → g'.polls.get id = some p
  old : ∀ id p, g'.polls.get id = some p → p.endsAt ≤ now → g.polls.get id = some p

theorem Rests.refl (now : Nat) (g : Gov.State) : Rests now g g := ⟨fun _ _ h _ => h, fun _ _ h _ => h⟩

theorem Rests.trans {now : Nat} {g g1 g2 : Gov.State} (h1 : Rests now g g1) (h2 : Rests now g1 g2) : Rests now g g2 :=
  ⟨fun id p h he => h2.same id p (h1.same id p h he) he, fun id p h he => h1.old id p (h2.old id p h he) he⟩

theorem rests_castVote {g g' : Gov.State} {now j : Nat} {o : Gov.Outcome} {v : Addr} {a : Nat}
    (h : Gov.castVote g now j o v a = .ok g') : Rests now g g' := by
  obtain ⟨_, _, q, hq, _, _, ho, rfl⟩ := Gov.castVote_ok_iff.1 h
  constructor
  · intro id p hp he
    have hj : j ≠ id := by
      rintro rfl
      rw [hp] at hq; cases hq
      omega
    exact (Map.get_set_ne _ _ hj).trans hp
  · intro id p hp he
    simp only [Map.get_set] at hp
    by_cases hj : j = id
    · rw [if_pos hj] at hp
      cases hp
      rw [Gov.terms_endsAt (Gov.terms_recount _ _ _ _)] at he
      omega
    · rw [if_neg hj] at hp
      exact hp

theorem rests_updateVotes {g g' : Gov.State} {now : Nat} {v : Addr} {a : Nat}
    (h : Gov.updateVotes g now v a = .ok g') : Rests now g g' := by
  unfold Gov.updateVotes at h
  refine Gov.foldlM_inv _ (fun x => Rests now g x) ?_ _ _ _ (Rests.refl now g) h
  intro x u x' hx hu
  rcases Gov.updateVote_cases hu with rfl | hc
  · exact hx
  · exact hx.trans (rests_castVote hc)

theorem rests_updateAll {e : Controller.Env} : ∀ (l : List WeightChange) {g g' : Gov.State},
    Controller.updateAllVotes e g l = .ok g' → Rests e.block.time g g' := by
  intro l
  induction l with
  | nil => intro g g' hx; cases hx; exact .refl _ _
  | cons c t ih =>
    intro g g' hx
    unfold Controller.updateAllVotes at hx
    rw [foldlM_cons_ok_iff] at hx
    obtain ⟨g1, h1, h2⟩ := hx
    unfold Gov.exec at h1
    rw [ite_ok_iff] at h1
    exact (rests_updateVotes h1.2).trans (ih h2)

theorem rests_deliver {c : Cfg} {e : Ext} {a : Addr} : ∀ (outs : List Out) {w : World} {r : World × List Item},
    deliver c e a w outs = .ok r → Rests w.block.time w.gov r.1.gov ∧ r.1.council = w.council := by
  intro outs
  induction outs with
  | nil => intro w r h; cases h; exact ⟨.refl _ _, rfl⟩
  | cons o t ih =>
    intro w r h
    cases o with
    | pay x y => cases h; exact ⟨.refl _ _, rfl⟩
    | sendNft x y => cases h; exact ⟨.refl _ _, rfl⟩
    | notify x l =>
      unfold deliver at h
      split at h
      · simp only [bind_ok_iff] at h
        obtain ⟨r1, h1, d, _, h2⟩ := h
        obtain ⟨h3, h4⟩ := ih h2
        refine ⟨Rests.trans ?_ h3, h4⟩
        rcases Controller.weightsChanged_ok_iff.1 h1 with ⟨_, rfl⟩ | ⟨_, _, h5, _⟩
        · exact .refl _ _
        · exact rests_updateAll l h5
      · cases h; exact ⟨.refl _ _, rfl⟩

/-! ### Steps -/

/-- Nothing that is stored comes from the future. -/
structure Timely (w : World) : Prop where
  mem : w.mem.mem.bySeconds.upTo w.block.seconds
  council : w.council.bySeconds.upTo w.block.seconds
  done : ∀ id i b, w.ctl.infos.get id = some i → i.executedAt = some b → b.time ≤ w.block.time

/-- What happens to a proposal whose voting is over: nothing, or it is resolved by the votes cast and the total `n`,
which is not zero. -/
def Ends (now : Nat) (i i' : Info) (p p' : Gov.Poll) (n : Nat) : Prop :=
  p'.terms = p.terms ∧ p'.results = p.results ∧ i'.type = i.type ∧
    ((i'.executedAt = i.executedAt ∧ p'.status = p.status) ∨
      (i.executedAt = none ∧ (∃ b, i'.executedAt = some b ∧ now ≤ b.time ∧ n ≠ 0) ∧ p'.status = p.finalStatus n))

/-- What executions do to the past. -/
structure Settles (w w' : World) : Prop where
  timely : Timely w'
  clock : w.block.time ≤ w'.block.time
  total : ∀ t T, T / 10 ^ 9 ≤ w.block.seconds → bodyTotal w' t (.time T) = bodyTotal w t (.time T)
  closed : ∀ id i p, w.ctl.infos.get id = some i → w.gov.polls.get id = some p → p.endsAt ≤ w.block.time →
    ∃ i' p', w'.ctl.infos.get id = some i' ∧ w'.gov.polls.get id = some p' ∧
      Ends w.block.time i i' p p' (bodyTotal w i.type (.time p.endsAt))
  old : ∀ id p', w'.gov.polls.get id = some p' → p'.endsAt ≤ w.block.time → ∃ p, w.gov.polls.get id = some p ∧ p.terms = p'.terms

theorem finalStatus_congr {p p' : Gov.Poll} (ht : p'.terms = p.terms) (hr : p'.results = p.results) (n : Nat) :
    p'.finalStatus n = p.finalStatus n := by
  obtain ⟨a, b, c, d, e, f, g, h, i, j, k, l⟩ := p
  obtain ⟨a', b', c', d', e', f', g', h', i', j', k', l'⟩ := p'
  simp only [Gov.Poll.terms, Gov.Terms.mk.injEq] at ht
  simp only at hr
  obtain ⟨rfl, rfl, rfl, rfl, rfl, rfl, rfl, rfl, rfl, rfl⟩ := ht
  subst hr
  rfl

theorem Settles.refl {w : World} (h : Timely w) : Settles w w :=
  ⟨h, le_refl _, fun _ _ _ => rfl, fun id i p hi hp _ => ⟨i, p, hi, hp, rfl, rfl, rfl, Or.inl ⟨rfl, rfl⟩⟩, fun _ p h _ => ⟨p, h, rfl⟩⟩

theorem Settles.trans {w w1 w2 : World} (h1 : Settles w w1) (h2 : Settles w1 w2) : Settles w w2 := by
  have hc := h1.clock
  refine ⟨h2.timely, le_trans hc h2.clock, fun t T hT => ?_, ?_, ?_⟩
  · rw [h2.total t T (le_trans hT (Nat.div_le_div_right hc)), h1.total t T hT]
  · intro id i p hi hp he
    obtain ⟨i1, p1, a1, a2, a3, a4, a5, a6⟩ := h1.closed id i p hi hp he
    have he1 : p1.endsAt = p.endsAt := Gov.terms_endsAt a3
    obtain ⟨i2, p2, b1, b2, b3, b4, b5, b6⟩ := h2.closed id i1 p1 a1 a2 (by rw [he1]; exact le_trans he hc)
    refine ⟨i2, p2, b1, b2, b3.trans a3, b4.trans a4, b5.trans a5, ?_⟩
    rw [he1, a5, h1.total _ _ (Nat.div_le_div_right he), finalStatus_congr a3 a4] at b6
    rcases a6 with ⟨a6, a7⟩ | ⟨a6, ⟨b, a7, a8⟩, a9⟩
    · rcases b6 with ⟨b6, b7⟩ | ⟨b6, ⟨b, b7, b8⟩, b9⟩
      · exact Or.inl ⟨b6.trans a6, b7.trans a7⟩
      · exact Or.inr ⟨a6 ▸ b6, ⟨b, b7, le_trans hc b8.1, b8.2⟩, b9⟩
    · rcases b6 with ⟨b6, b7⟩ | ⟨b6, _, _⟩
      · exact Or.inr ⟨a6, ⟨b, b6.trans a7, a8⟩, b7.trans a9⟩
      · rw [a7] at b6; cases b6
  · intro id p' hp' he
    obtain ⟨p1, hp1, ht1⟩ := h2.old id p' hp' (le_trans he hc)
    obtain ⟨p, hp, ht⟩ := h1.old id p1 hp1 (by rw [Gov.terms_endsAt ht1]; exact he)
    exact ⟨p, hp, ht.trans ht1⟩

theorem Settles.of {w w1 : World} (ht : Timely w) (hblk : w1.block = w.block)
    (hm : Settled w.block.seconds w.mem.mem.bySeconds w1.mem.mem.bySeconds)
    (hc : Settled w.block.seconds w.council.bySeconds w1.council.bySeconds)
    (hg : Rests w.block.time w.gov w1.gov)
    (hi : ∀ id p, w.gov.polls.get id = some p → p.endsAt ≤ w.block.time → w1.ctl.infos.get id = w.ctl.infos.get id)
    (hd : ∀ id i b, w1.ctl.infos.get id = some i → i.executedAt = some b → b.time ≤ w.block.time) : Settles w w1 := by
  refine ⟨⟨by rw [hblk]; exact hm.upTo ht.mem, by rw [hblk]; exact hc.upTo ht.council, by rw [hblk]; exact hd⟩,
    by rw [hblk], ?_, ?_, ?_⟩
  · intro t T hT
    cases t with
    | general =>
      show w1.mem.total _ = w.mem.total _
      rw [Member.total_time, Member.total_time, hm.past ht.mem _ hT]
    | council => exact hc.past ht.council _ hT
  · intro id i p h1 h2 he
    exact ⟨i, p, (hi id p h2 he).trans h1, hg.same id p h2 he, rfl, rfl, rfl, Or.inl ⟨rfl, rfl⟩⟩
  · intro id p' hp' he
    exact ⟨p', hg.old id p' hp' he, rfl⟩

theorem totalVotes_eq (c : Cfg) (e : Ext) (w : World) (a : At) (t : PType) :
    Controller.totalVotes (c.env e w) a t = bodyTotal w t a := by
  cases t <;> rfl

/-- One message. -/
theorem Handled.settles {c : Cfg} {e : Ext} {w w1 : World} {a : Addr} {m : Msg} {subs : List Item}
    (hb : Base c w) (hk : Known c a m) (room : w.gov.pollCount + 1 < 2 ^ 64)
    (hr : handle c e w a m = .ok (w1, subs)) (hh : Handled c w a m w1 subs) (h : Timely w) : Settles w w1 := by
  have hblk : w1.block = w.block := hh.block
  cases m with
  | ctl m =>
    obtain ⟨r, hx⟩ := handle_ctl hr
    have hworld := hx.world
    simp only at hworld
    have hexec := hx.exec
    have hm : w1.mem = w.mem := by rw [hworld]
    have hcn : w1.council = w.council := by rw [hworld]
    have hctl : w1.ctl = r.1 := by rw [hworld]
    have hgov : w1.gov = r.2.1 := by rw [hworld]
    have hof : Rests w.block.time w.gov r.2.1 →
        (∀ id p, w.gov.polls.get id = some p → p.endsAt ≤ w.block.time → r.1.infos.get id = w.ctl.infos.get id) →
        (∀ id i b, r.1.infos.get id = some i → i.executedAt = some b →
          ∃ j, w.ctl.infos.get id = some j ∧ j.executedAt = some b) → Settles w w1 := by
      intro h1 h2 h3
      refine Settles.of h hblk (by rw [hm]; exact .refl _ _) (by rw [hcn]; exact .refl _ _) (by rw [hgov]; exact h1)
        (by rw [hctl]; exact h2) ?_
      rw [hctl]
      intro id i b hi hx
      obtain ⟨j, hj, hx⟩ := h3 id i b hi hx
      exact h.done id j b hj hx
    have hsame : Rests w.block.time w.gov r.2.1 → r.1.infos = w.ctl.infos → Settles w w1 := by
      intro h1 h2
      refine hof h1 (fun _ _ _ _ => by rw [h2]) (fun id i b hi hx => ⟨i, by rw [← h2]; exact hi, hx⟩)
    have hcreate : m.isCreate = true → Settles w w1 := by
      intro hm
      obtain ⟨i, cp, h1, _⟩ := Controller.created_exec hm hexec
      obtain ⟨_, h3, h4, h5⟩ := CtlInv.created (e := c.env e w) hb.ctl h1 room
      obtain ⟨_, hend, h6⟩ := Gov.createPoll_ok_iff.1 h1.poll
      rw [wadd64_of_lt room] at h6
      have hend : w.block.time < cp.endsAt := hend
      have hinf : r.1.infos = w.ctl.infos.set (w.gov.pollCount + 1) i := by
        rw [h1.state, h3]; rfl
      refine hof ⟨?_, ?_⟩ ?_ ?_
      · intro id p hp _
        rw [h6]
        refine (Map.get_set_ne _ _ ?_).trans hp
        rintro rfl
        rw [h4] at hp; cases hp
      · intro id p hp he
        rw [h6] at hp
        simp only [Map.get_set] at hp
        by_cases hid : w.gov.pollCount + 1 = id
        · rw [if_pos hid] at hp
          cases hp
          simp only at he
          omega
        · rw [if_neg hid] at hp; exact hp
      · intro id p hp _
        rw [hinf]
        refine Map.get_set_ne _ _ ?_
        rintro rfl
        rw [h4] at hp; cases hp
      · intro id j b hj hx
        rw [hinf, Map.get_set] at hj
        by_cases hid : w.gov.pollCount + 1 = id
        · rw [if_pos hid] at hj
          cases hj
          rw [h1.fresh] at hx; cases hx
        · rw [if_neg hid] at hj
          exact ⟨j, hj, hx⟩
    cases m with
    | createProposal p f => exact hcreate rfl
    | createWithNft p l => exact hcreate rfl
    | createCouncil p => exact hcreate rfl
    | receive f a p => exact hcreate rfl
    | castVote id o =>
      simp only [Controller.exec, bind_ok_iff, pure_ok_iff] at hexec
      obtain ⟨r1, h1, rfl⟩ := hexec
      obtain ⟨_, _, i, p, q, hi, _, hp, hadm, hg, hq, hs⟩ := Controller.castVote_ok_iff.1 h1
      have hopen : w.block.time < p.endsAt := by
        obtain ⟨_, _, q', hq', _, _, hlt, _⟩ := Gov.castVote_ok_iff.1 hg
        rw [hp] at hq'; cases hq'
        exact hlt
      have hv : r1.1.infos = w.ctl.infos ∨ ∃ x, r1.1.infos = w.ctl.infos.set id { i with earliest := some x } := by
        rw [hs]
        unfold Controller.voted
        split
        · unfold Controller.restartCooldown
          split
          · exact Or.inr ⟨_, rfl⟩
          · exact Or.inl rfl
        · exact Or.inl rfl
      rcases hv with hv | ⟨x, hv⟩
      · exact hsame (rests_castVote hg) hv
      · refine hof (rests_castVote hg) ?_ ?_
        · intro j q hq he
          show r1.1.infos.get j = _
          rw [hv]
          refine Map.get_set_ne _ _ ?_
          rintro rfl
          rw [hp] at hq; cases hq
          omega
        · intro j k b hk hx
          change r1.1.infos.get j = _ at hk
          rw [hv, Map.get_set] at hk
          by_cases hid : id = j
          · subst hid
            rw [if_pos rfl] at hk
            cases hk
            exact ⟨i, hi, hx⟩
          · rw [if_neg hid] at hk
            exact ⟨k, hk, hx⟩
    | castCouncilVote id o =>
      simp only [Controller.exec, bind_ok_iff, pure_ok_iff] at hexec
      obtain ⟨r1, h1, rfl⟩ := hexec
      obtain ⟨_, _, _, i, hi, hty, hadm, hg, hs⟩ := Controller.castCouncilVote_ok_iff.1 h1
      exact hsame (rests_castVote hg) (by show r1.1.infos = _; rw [hs])
    | execute id =>
      simp only [Controller.exec] at hexec
      obtain ⟨_, i, p, hi, hp, hno, _, hne, _, _, rfl⟩ := Controller.executeProposal_ok_iff.1 hexec
      have hinf : w1.ctl.infos = w.ctl.infos.set id { i with executedAt := some w.block } := by rw [hctl]; rfl
      have hpol : w1.gov.polls = w.gov.polls.set id
          { p with status := p.finalStatus (Controller.endTotal (c.env e w) p i.type) } := by rw [hgov]; rfl
      refine ⟨⟨by rw [hblk, hm]; exact h.mem, by rw [hblk, hcn]; exact h.council, ?_⟩, by rw [hblk], ?_, ?_, ?_⟩
      · intro j k b hk hx
        rw [hinf, Map.get_set] at hk
        rw [hblk]
        by_cases hid : id = j
        · rw [if_pos hid] at hk
          cases hk
          cases hx
          exact le_refl _
        · rw [if_neg hid] at hk
          exact h.done j k b hk hx
      · intro t T _
        cases t with
        | general => unfold bodyTotal; rw [hm]
        | council => unfold bodyTotal; rw [hcn]
      · intro j k q hk hq he
        by_cases hid : id = j
        · subst hid
          rw [hi] at hk; cases hk
          rw [hp] at hq; cases hq
          have hend : Controller.endTotal (c.env e w) p i.type = bodyTotal w i.type (.time p.endsAt) := by
            unfold Controller.endTotal
            rw [if_pos (show p.endsAt ≤ (c.env e w).block.time from he), totalVotes_eq]
          refine ⟨{ i with executedAt := some w.block },
            { p with status := p.finalStatus (Controller.endTotal (c.env e w) p i.type) },
            by rw [hinf, Map.get_set_self], by rw [hpol, Map.get_set_self], rfl, rfl, rfl,
            Or.inr ⟨hno, ⟨_, rfl, le_refl _, hend ▸ hne⟩, ?_⟩⟩
          show p.finalStatus _ = _
          rw [hend]
        · exact ⟨k, q, by rw [hinf]; exact (Map.get_set_ne _ _ hid).trans hk,
            by rw [hpol]; exact (Map.get_set_ne _ _ hid).trans hq, rfl, rfl, rfl, Or.inl ⟨rfl, rfl⟩⟩
      · intro j q hq he
        rw [hpol, Map.get_set] at hq
        by_cases hid : id = j
        · subst hid
          rw [if_pos rfl] at hq
          cases hq
          exact ⟨p, hp, rfl⟩
        · rw [if_neg hid] at hq
          exact ⟨q, hq, rfl⟩
    | weightsChanged l =>
      simp only [Controller.exec, bind_ok_iff, pure_ok_iff] at hexec
      obtain ⟨r1, h1, rfl⟩ := hexec
      rcases Controller.weightsChanged_ok_iff.1 h1 with ⟨_, rfl⟩ | ⟨_, _, h3, _⟩
      · exact hsame (.refl _ _) rfl
      · exact hsame (rests_updateAll l h3) rfl
    | executeActions id =>
      simp only [Controller.exec, bind_ok_iff, pure_ok_iff] at hexec
      obtain ⟨r1, h1, rfl⟩ := hexec
      obtain ⟨_, i, _, h2⟩ := Controller.executeActions_ok_iff.1 h1
      refine hsame (.refl _ _) ?_
      show r1.1.infos = _
      rw [(Controller.actAll_ok _ h2).1.same]
    | deployInitial =>
      simp only [Controller.exec, bind_ok_iff, pure_ok_iff] at hexec
      obtain ⟨r1, h1, rfl⟩ := hexec
      obtain ⟨_, _, rfl⟩ := Controller.deployInitial_ok_iff.1 h1
      exact hsame (.refl _ _) rfl
  | gov m =>
    exfalso
    simp only [handle, bind_ok_iff] at hr
    obtain ⟨g, h1, _⟩ := hr
    unfold Gov.exec at h1
    rw [ite_ok_iff] at h1
    have hadm := hb.ctl.gov.admin
    rcases hk with hk | ⟨_, hk | ⟨id, hk⟩⟩
    · exact h1.1 (fun hh => hk.1 (hh.trans hadm))
    · cases hk
    · cases hk
  | dist m =>
    simp only [handle, bind_ok_iff, pure_ok_iff] at hr
    obtain ⟨r, h1, h2⟩ := hr
    cases h2
    exact Settles.of h rfl (.refl _ _) (.refl _ _) (.refl _ _) (fun _ _ _ _ => rfl) h.done
  | mem m =>
    simp only [handle, bind_ok_iff] at hr
    obtain ⟨x, hx, hd⟩ := hr
    obtain ⟨h1, h2⟩ := rests_deliver _ hd
    obtain ⟨h3, _⟩ := deliver_plain _ hd
    have h4 : w1.mem = x.1 := deliver_mem _ hd
    simp only at h1 h2 h3
    refine Settles.of h hblk ?_ (by rw [h2]; exact .refl _ _) h1 (fun _ _ _ _ => by rw [h3]) (by rw [h3]; exact h.done)
    rw [h4]
    exact Member.exec_settled hb.mem.good hx
  | council m =>
    simp only [handle, bind_ok_iff] at hr
    obtain ⟨x, hx, hd⟩ := hr
    obtain ⟨h1, h2⟩ := rests_deliver _ hd
    obtain ⟨h3, _⟩ := deliver_plain _ hd
    have h4 : w1.mem = w.mem := deliver_mem _ hd
    simp only at h1 h2 h3
    refine Settles.of h hblk (by rw [h4]; exact .refl _ _) ?_ h1 (fun _ _ _ _ => by rw [h3]) (by rw [h3]; exact h.done)
    rw [h2]
    exact .of (Multisig.effect_exec hb.council.1 hx).bySeconds

theorem settles_cases {c : Cfg} : Cases c (fun w _ w' => Timely w → Settles w w') := by
  refine ⟨fun _ _ h => .refl h, ?_, ?_, fun _ _ _ _ _ _ h => h, ?_, ?_⟩
  · intro w w1 w2 w3 a m subs rest e hb b2 b3 m2 m3 hk room hr hh p2 p3 h
    have hk : Known c a m := by
      rcases hk with hk | ⟨hk, hm⟩
      · exact Or.inl hk
      · exact Or.inr ⟨hk, Or.inl hm⟩
    have h1 := hh.settles hb hk room hr h
    have h2 := p2 h1.timely
    exact h1.trans (h2.trans (p3 h2.timely))
  · intro w w1 w2 w3 id subs rest e hb b2 b3 m2 m3 room hr hh p2 p3 h
    have h1 := hh.settles hb (Or.inr ⟨rfl, Or.inr ⟨id, rfl⟩⟩) room hr h
    have h2 := p2 h1.timely
    exact h1.trans (h2.trans (p3 h2.timely))
  · intro w w1 w2 id t calls rest hb b1 b2 hcl m1 m2 p1 p2 h
    have h1 : Settles w w1 := by
      obtain ⟨a1, a2, a3, a4, a5⟩ := p1 ⟨h.mem, h.council, h.done⟩
      exact ⟨a1, a2, a3, a4, a5⟩
    exact h1.trans (p2 h1.timely)
  · intro w w1 w2 calls rest hb b1 b2 hcl m1 m2 p1 p2 h
    have h1 := p1 h
    exact h1.trans (p2 h1.timely)

theorem Timely.block {w : World} {b : Block} (h : Timely w) (ht : w.block.time ≤ b.time) :
    Settles w { w with block := b } := by
  have hs : w.block.seconds ≤ b.seconds := Nat.div_le_div_right ht
  exact ⟨⟨Snap.upTo_mono h.mem hs, Snap.upTo_mono h.council hs, fun id i x hi hx => le_trans (h.done id i x hi hx) ht⟩, ht,
    fun _ _ _ => rfl, fun id i p hi hp _ => ⟨i, p, hi, hp, rfl, rfl, rfl, Or.inl ⟨rfl, rfl⟩⟩, fun _ p h _ => ⟨p, h, rfl⟩⟩

theorem Genesis.timely {c : Cfg} {w : World} (h : Genesis c w) : Timely w := by
  have key : ∀ {j : Nat}, j = w.block.seconds ∨ j ∈ ([] : List (Nat × Nat)).map (·.2) → j ≤ w.block.seconds := by
    rintro j (rfl | h)
    · exact le_refl _
    · cases h
  refine ⟨?_, ?_, ?_⟩
  · have hm := h.mem
    intro j hj
    cases hx : w.mem with
    | staking k s =>
      rw [hx] at hm hj
      obtain ⟨asset, u, rfl⟩ := hm
      exact key (Staking.init_logs.2 hj)
    | nft s =>
      rw [hx] at hm hj
      obtain ⟨n, u, rfl⟩ := hm
      exact key (Nft.init_logs.2 hj)
    | multisig s =>
      rw [hx] at hm hj
      obtain ⟨l, hl⟩ := hm
      exact key ((Multisig.init_logs hl).2 hj)
  · obtain ⟨l, hl⟩ := h.council
    intro j hj
    exact key ((Multisig.init_logs hl).2 hj)
  · obtain ⟨cfg, spec, tr, hc⟩ := h.ctl
    obtain ⟨_, _, h3⟩ := Controller.init_ok hc
    intro id i b hi
    rw [h3] at hi; cases hi

theorem Reachable.timely {c : Cfg} (hw : c.Wf) (ht : c.Tame) {w : World} (h : Reachable c w) : Timely w := by
  induction h with
  | init h => exact h.timely
  | @tx w w1 a m h ha hx ih =>
    obtain ⟨_, _, hl⟩ := hx.induct hw ht settles_cases
      (fun i hi => by rw [List.mem_singleton.1 hi]; exact Or.inl ha) (h.base hw ht)
    exact (hl ih).timely
  | block _ _ htm ih => exact (ih.block htm).timely

theorem Later.settles {c : Cfg} (hw : c.Wf) (ht : c.Tame) {w w' : World} (hr : Reachable c w) (h : Later c w w') :
    Settles w w' := by
  induction h with
  | refl => exact .refl (hr.timely hw ht)
  | tx h ha hx ih =>
    obtain ⟨_, _, hl⟩ := hx.induct hw ht settles_cases
      (fun i hi => by rw [List.mem_singleton.1 hi]; exact Or.inl ha) ((h.reachable hr).base hw ht)
    exact ih.trans (hl ih.timely)
  | block h _ htm ih => exact ih.trans (ih.timely.block htm)

/-- The total at a time of a later second than the current one is the current total. -/
theorem bodyTotal_ahead {c : Cfg} {w : World} (hb : Base c w) (h : Timely w) {T : Nat} (hT : w.block.seconds < T / 10 ^ 9)
    (t : PType) : bodyTotal w t (.time T) = bodyTotal w t .never := by
  cases t with
  | general =>
    show w.mem.total _ = w.mem.total _
    rw [Member.total_time, hb.mem.total]
    unfold Snap.loadAt
    rw [Snap.mayLoadAt_of_lt (fun k hk => lt_of_le_of_lt (h.mem k hk) hT), hb.mem.good.cur.2]
    rfl
  | council =>
    show w.council.bySeconds.loadAt _ = w.council.total
    unfold Snap.loadAt Members.total Snap.load
    rw [Snap.mayLoadAt_of_lt (fun k hk => lt_of_le_of_lt (h.council k hk) hT), hb.council.1.height, hb.council.1.seconds]

/-! ### Votes and totals -/

/-- The sum of the four tallies of a poll. -/
def castOf (p : Gov.Poll) : Nat := p.votesFor .yes + p.votesFor .no + p.votesFor .abstain + p.votesFor .veto

theorem castOf_congr {p p' : Gov.Poll} (h : p'.results = p.results) : castOf p' = castOf p := by
  unfold castOf Gov.Poll.votesFor
  rw [h]

theorem castOf_eq {c : Cfg} (hw : c.Wf) (ht : c.Tame) {w : World} (h : Reachable c w) {id : Nat} {i : Info}
    (hi : w.ctl.infos.get id = some i) (hg : i.type = .general) {p : Gov.Poll} (hp : w.gov.polls.get id = some p) :
    castOf p = Gov.votedTotal w.gov id := by
  have hq := Controller.queryPoll_ok_iff.2 hp
  unfold castOf
  rw [C54_tallies_exact hw ht h hi hg hq, C54_tallies_exact hw ht h hi hg hq, C54_tallies_exact hw ht h hi hg hq,
    C54_tallies_exact hw ht h hi hg hq, ← Gov.votedTotal_eq]

/-- Votes on general proposals that end on a whole second and are not resolved before are at most the total at the end. -/
def Cap (w : World) : Prop :=
  ∀ id i p, w.ctl.infos.get id = some i → w.gov.polls.get id = some p → i.type = .general → 10 ^ 9 ∣ p.endsAt →
    p.endsAt ≤ w.block.time → (∀ b, i.executedAt = some b → p.endsAt ≤ b.time) → castOf p ≤ w.mem.total (.time p.endsAt)

theorem Settles.cap {c : Cfg} {w w1 : World} (hb : Base c w) (h : Settles w w1) (hblk : w1.block = w.block) (hc : Cap w) :
    Cap w1 := by
  intro id i1 p1 hi1 hp1 hg hd he hx
  rw [hblk] at he
  obtain ⟨p, hp, htm⟩ := h.old id p1 hp1 he
  have hend : p.endsAt = p1.endsAt := Gov.terms_endsAt htm
  obtain ⟨i, hi⟩ : ∃ i, w.ctl.infos.get id = some i :=
    Map.has_iff.1 (by rw [hb.ctl.infos]; exact Map.has_iff.2 ⟨p, hp⟩)
  obtain ⟨i', p', a1, a2, a3, a4, a5, a6⟩ := h.closed id i p hi hp (by rw [hend]; exact he)
  rw [hi1] at a1; cases a1
  rw [hp1] at a2; cases a2
  have hle := hc id i p hi hp (a5.symm.trans hg) (by rw [hend]; exact hd) (by rw [hend]; exact he) (by
    intro b hb'
    rw [hend]
    rcases a6 with ⟨a6, _⟩ | ⟨a6, _⟩
    · exact hx b (a6.trans hb')
    · rw [a6] at hb'; cases hb')
  rw [castOf_congr a4]
  refine le_trans hle (le_of_eq ?_)
  rw [hend]
  exact (h.total .general _ (Nat.div_le_div_right he)).symm

theorem Reachable.cap {c : Cfg} (hw : c.Wf) (ht : c.Tame) {w : World} (h : Reachable c w) : Cap w := by
  induction h with
  | @init w h =>
    obtain ⟨cfg, spec, tr, hc⟩ := h.ctl
    obtain ⟨_, _, h3⟩ := Controller.init_ok hc
    intro id i p hi
    rw [h3] at hi; cases hi
  | @tx w w1 a m h ha hx ih =>
    obtain ⟨_, hm, hl⟩ := hx.induct hw ht settles_cases
      (fun i hi => by rw [List.mem_singleton.1 hi]; exact Or.inl ha) (h.base hw ht)
    exact (hl (h.timely hw ht)).cap (h.base hw ht) hm.block ih
  | @block w b h hh htm ih =>
    intro id i p hi hp hg hd he hx
    by_cases hnow : p.endsAt ≤ w.block.time
    · exact ih id i p hi hp hg hd hnow hx
    · push Not at hnow
      have hb := h.base hw ht
      have htl := h.timely hw ht
      have hno : i.executedAt = none := by
        cases hxe : i.executedAt with
        | none => rfl
        | some y =>
          have h1 := hx y hxe
          have h2 := htl.done id i y hi hxe
          omega
      have hlive : p.live := (hb.ctl.ended id i p hi hp).1 hno
      have hle := C54_votes_bounded hw ht h hi hg (Controller.queryPoll_ok_iff.2 hp) hlive hnow
      have hs : w.block.seconds < p.endsAt / 10 ^ 9 := by
        obtain ⟨k, hk⟩ := hd
        unfold Block.seconds
        rw [hk] at hnow ⊢
        rw [Nat.mul_div_cancel_left _ (by decide)]
        exact Nat.div_lt_of_lt_mul hnow
      rw [castOf_eq hw ht h hi hg hp]
      refine le_trans hle (le_of_eq ?_)
      exact (bodyTotal_ahead hb htl hs .general).symm

end Verif.Dao
