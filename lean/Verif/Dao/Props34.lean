import Verif.Dao.Props33
import Verif.Nft.Props4

/-!
# The contracts of a DAO together: the order of messages within a block in NFT and multisig DAOs (C166)
-/

set_option linter.unusedSimpArgs false

namespace Verif.Dao.Nfts
open Verif

/-! ## Specification -/

/-- The member a message is about: who votes, in general or as a member of the council, who claims rewards, for whom an NFT is
staked or a claim of an NFT is imported, who unstakes or claims NFTs. Other messages are about no single member. -/
def whose (x : Signed) : Option Addr :=
  match x.msg with
  | .ctl (.castVote _ _) => some x.sender
  | .ctl (.castCouncilVote _ _) => some x.sender
  | .dist (.claim u _ _) => some u
  | .mem (.nft (.receiveNft _ (.stake u))) => some u
  | .mem (.nft (.receiveNft _ (.addClaim u _))) => some u
  | .mem (.nft (.unstake _)) => some x.sender
  | .mem (.nft (.claim _)) => some x.sender
  | _ => none

/-- The same messages, in an order that keeps the order of the messages about each member. -/
def Interleaved (l l' : List Signed) : Prop :=
  ∀ u, l.filter (fun x => decide (whose x = some u)) = l'.filter (fun x => decide (whose x = some u))

/-- No NFT is unstaked by one member and staked for another. -/
def Apart (l : List Signed) : Prop :=
  ∀ x ∈ l, ∀ y ∈ l, whose x ≠ whose y → ∀ t u m, x.msg = .mem (.nft (.receiveNft t (.stake u))) →
    y.msg = .mem (.nft (.unstake m)) → t ∉ m

/-- The same contracts but for the cooldowns of proposals; what is staked is not compared. -/
structure SameRest (w t : World) : Prop where
  polls : w.gov = t.gov
  rewards : w.dist = t.dist
  rest : w.council = t.council ∧ w.block = t.block ∧ w.log = t.log
  ctl : SameButCooldown w.ctl t.ctl
  fixed : w.ctl.config.early = false → w.ctl = t.ctl

/-! ## What a message about a member does -/

/-- The collection is known, if members stake NFTs. -/
def Known (m : Member) : Prop := ∀ s, m = .nft s → ∃ a, s.nft = .cw721 a

/-- The call of the membership contract. -/
def nftCall (c : Cfg) (b : Block) (x : Signed) : Option Nft.Call :=
  match x.msg with
  | .mem (.nft m) => some ⟨⟨⟨b, x.sender, c.self, x.ext.restricted⟩, x.ext.proxy⟩, m, true⟩
  | _ => none

/-- The new weight of the member. -/
def newWeight (x : Signed) (n : Nat) : Nat :=
  match x.msg with
  | .mem (.nft (.receiveNft _ (.stake _))) => n + 1
  | .mem (.nft (.unstake l)) => n - l.length
  | _ => n

/-- What governance is told, when the member has the weight `n` afterwards and `k` in the council. -/
def govMsg (x : Signed) (u : Addr) (n k : Nat) : Option Gov.Msg :=
  match x.msg with
  | .ctl (.castVote id o) => some (.castVote id o u n)
  | .ctl (.castCouncilVote id o) => some (.castVote id o u k)
  | .mem (.nft (.receiveNft _ (.stake _))) => some (.updateVotes u n)
  | .mem (.nft (.unstake _)) => some (.updateVotes u n)
  | _ => none

/-- What happens at the distributor, when the member has the weight `n` afterwards. -/
def DistStep (x : Signed) (u : Addr) (n : Nat) (d d' : Distributor.State) : Prop :=
  match x.msg with
  | .dist m => ∃ o, Distributor.exec d (x.ext.denv x.sender) m = .ok (d', o)
  | .mem (.nft (.receiveNft _ (.stake _))) => Distributor.updateOne d (u, n) = .ok d'
  | .mem (.nft (.unstake _)) => Distributor.updateOne d (u, n) = .ok d'
  | _ => d' = d

/-- What a message about `u` does. -/
structure Does (c : Cfg) (x : Signed) (u : Addr) (w w1 : World) (items : List Item) : Prop where
  mem : (nftCall c w.block x = none ∧ w1.mem = w.mem) ∨
    ∃ s d, w.mem = .nft s ∧ nftCall c w.block x = some d ∧ Nft.accepted s d ∧ w1.mem = .nft (Nft.step s d).1
  known : Known w1.mem
  rest : w1.council = w.council ∧ w1.block = w.block ∧ w1.log = w.log
  ctl : SameButCooldown w.ctl w1.ctl
  fixed : w.ctl.config.early = false → w1.ctl = w.ctl
  items : ∀ i ∈ items, i = .other
  own : w1.mem.weight u = newWeight x (w.mem.weight u)
  others : ∀ v, v ≠ u → w1.mem.weight v = w.mem.weight v
  gov : (govMsg x u (w1.mem.weight u) (w.council.weight u) = none ∧ w1.gov = w.gov) ∨
    ∃ m, govMsg x u (w1.mem.weight u) (w.council.weight u) = some m ∧ Gov.exec w.gov ⟨w.block.time, c.self, m⟩ = .ok w1.gov
  dist : DistStep x u (w1.mem.weight u) w.dist w1.dist

theorem concerns_call {c : Cfg} {b : Block} {x : Signed} {d : Nft.Call} (h : nftCall c b x = some d) :
    Nft.concerns d = whose x := by
  unfold nftCall at h
  split at h
  · rename_i m hm
    cases h
    unfold Nft.concerns whose
    rw [hm]
    cases m with
    | receiveNft t hk => cases hk <;> rfl
    | _ => rfl
  · cases h

theorem deliver_sends {c : Cfg} {e : Ext} {a : Addr} {w : World} : ∀ {l : List Out}, (∀ o ∈ l, ∃ u t, o = .sendNft u t) →
    deliver c e a w l = .ok (w, l.map (outItem c a))
  | [], _ => by unfold deliver; rfl
  | o :: l, h => by
    obtain ⟨u, t, rfl⟩ := h o (by simp)
    unfold deliver
    rfl

theorem handle_does {c : Cfg} (hw : c.Wf) {w w1 : World} (hb : Base c w) (hk : Known w.mem) {x : Signed} {u : Addr}
    (hu : whose x = some u) {items : List Item} (hr : handle c x.ext w x.sender x.msg = .ok (w1, items)) :
    Does c x u w w1 items := by
  obtain ⟨e, a, m⟩ := x
  cases m with
  | ctl m =>
    cases m with
    | castVote id o =>
      cases hu
      simp only [handle, Controller.exec, bind_ok_iff, pure_ok_iff] at hr
      obtain ⟨_, ⟨r, h1, rfl⟩, h2⟩ := hr
      cases h2
      obtain ⟨_, _, i, p, q, hi, _, _, had, hg, _, hs⟩ := Controller.castVote_ok_iff.1 h1
      have hv := voted_alike (e := c.env e w) (o := Controller.executability (p.finalStatus ((c.env e w).total .never)))
        (n := Controller.executability (q.finalStatus ((c.env e w).total .never))) (t := q.endsAt) hb.ctl.idle.2.2 hi
      rw [← hs] at hv
      refine ⟨.inl ⟨rfl, rfl⟩, hk, ⟨rfl, rfl, by simp [ranOf]⟩, hv.1, hv.2, by simp, rfl, fun _ _ => rfl,
        .inr ⟨_, rfl, ?_⟩, rfl⟩
      unfold Gov.exec
      have had : c.self = w.gov.admin := had
      simp only [had, ne_eq, not_true, if_false]
      exact hg
    | castCouncilVote id o =>
      cases hu
      simp only [handle, Controller.exec, bind_ok_iff, pure_ok_iff] at hr
      obtain ⟨_, ⟨r, h1, rfl⟩, h2⟩ := hr
      cases h2
      obtain ⟨_, _, _, i, hi, _, had, hg, hs⟩ := Controller.castCouncilVote_ok_iff.1 h1
      refine ⟨.inl ⟨rfl, rfl⟩, hk, ⟨rfl, rfl, by simp [ranOf]⟩, by rw [hs]; exact .rfl' _, fun _ => hs, by simp, rfl,
        fun _ _ => rfl, .inr ⟨_, rfl, ?_⟩, rfl⟩
      unfold Gov.exec
      have had : c.self = w.gov.admin := had
      simp only [had, ne_eq, not_true, if_false]
      exact hg
    | _ => cases hu
  | gov m => cases hu
  | dist m =>
    cases m with
    | claim v ds ts =>
      cases hu
      simp only [handle, bind_ok_iff, pure_ok_iff] at hr
      obtain ⟨r, h1, h2⟩ := hr
      cases h2
      exact ⟨.inl ⟨rfl, rfl⟩, hk, ⟨rfl, rfl, rfl⟩, .rfl' _, fun _ => rfl, by simp, rfl, fun _ _ => rfl, .inl ⟨rfl, rfl⟩, ⟨_, h1⟩⟩
    | _ => cases hu
  | council m => cases hu
  | mem m =>
    cases m with
    | staking m => cases hu
    | multisig m => cases hu
    | nft m =>
      simp only [handle] at hr
      obtain ⟨y, h1, h2⟩ := bind_ok_iff.1 hr
      cases hm : w.mem with
      | staking k s => rw [hm] at h1; cases h1
      | multisig s => rw [hm] at h1; cases h1
      | nft s =>
      obtain ⟨z, hz⟩ := hk s hm
      have hok : (Member.nft s).Ok c.self := hm ▸ hb.mem
      rw [hm] at h1
      simp only [Member.exec] at h1
      obtain ⟨r, h3, h4⟩ := bind_ok_iff.1 h1
      cases h4
      generalize hd : (⟨⟨c.menv e w a, e.proxy⟩, m, true⟩ : Nft.Call) = d
      have hcall : nftCall c w.block ⟨e, a, .mem (.nft m)⟩ = some d := by rw [← hd]; rfl
      have hc := (concerns_call hcall).trans hu
      have h3' : Nft.exec s d.env d.msg = .ok r := by rw [← hd]; exact h3
      have hacc : Nft.accepted s d := ⟨by rw [← hd], r, h3'⟩
      have hstep := Nft.step_of_ok hacc.1 h3'
      obtain ⟨y, hy, hyu⟩ := Nft.actOf_some (c := d) (by rw [hc]; exact Option.some_ne_none _)
      obtain ⟨_, _, h5, h6⟩ := Nft.accepted_act hok.good hz hy hacc
      rw [hstep] at h5 h6
      have hyu : y.user = u := by
        rw [hc] at hyu
        simpa using hyu.symm
      have hbl : d.env.env.block = w.block := by rw [← hd]; rfl
      rw [hbl] at h5 h6
      have hmem : r.1.mem = ((Nft.abs s).eff w.block y).mem := congrArg Nft.Abs.mem h5
      have hkn : Known (.nft r.1) := by
        intro s' hs'
        cases hs'
        have := Nft.nft_kept hok.good hz (by rw [hc]; exact Option.some_ne_none _) hacc
        rw [hstep] at this
        exact ⟨z, this⟩
      have hmm : (nftCall c w.block ⟨e, a, .mem (.nft m)⟩ = none ∧ Member.nft r.1 = w.mem) ∨
          ∃ s d, w.mem = .nft s ∧ nftCall c w.block ⟨e, a, .mem (.nft m)⟩ = some d ∧ Nft.accepted s d ∧
            Member.nft r.1 = .nft (Nft.step s d).1 := .inr ⟨s, d, hm, hcall, hacc, by rw [hstep]⟩
      have hrep : ∀ o n, (r.2 : Multiset Out) = (s.mem.report [⟨u, o, n⟩] : List Out) → r.1.mem.weight u = n →
          (∀ v, v ≠ u → r.1.mem.weight v = s.mem.weight v) →
          n = newWeight ⟨e, a, .mem (.nft m)⟩ (s.mem.weight u) →
          govMsg ⟨e, a, .mem (.nft m)⟩ u n (w.council.weight u) = some (.updateVotes u n) →
          (∀ d1 d2, Distributor.updateOne d1 (u, n) = .ok d2 → DistStep ⟨e, a, .mem (.nft m)⟩ u n d1 d2) →
          Does c ⟨e, a, .mem (.nft m)⟩ u w w1 items := by
        intro o n hrn hn hoth hnw hg hds
        rw [report_single (m := s.mem) hok.hooks, Multiset.coe_eq_coe, List.perm_singleton] at hrn
        rw [hrn] at h2
        obtain ⟨rfl, g1, g2, g3⟩ := deliver_one hw h2
        have hw1 : w1.mem = .nft r.1 := by rw [g1]
        have hwu : w1.mem.weight u = n := by rw [hw1]; exact hn
        refine ⟨by rw [hw1]; exact hmm, by rw [hw1]; exact hkn, ⟨by rw [g1], by rw [g1], by rw [g1]⟩, by rw [g1]; exact .rfl' _,
          fun _ => by rw [g1], by simp, ?_, ?_, .inr ⟨.updateVotes u n, ?_, g2⟩, ?_⟩
        · rw [hwu, hm]; exact hnw
        · intro v hv; rw [hw1, hm]; exact hoth v hv
        · rw [hwu]; exact hg
        · rw [hwu]; exact hds _ _ g3
      have hstay : (∀ o ∈ r.2, ∃ u t, o = .sendNft u t) → r.1.mem = s.mem →
          (∀ n, newWeight ⟨e, a, .mem (.nft m)⟩ n = n) →
          (∀ n, govMsg ⟨e, a, .mem (.nft m)⟩ u n (w.council.weight u) = none) →
          (∀ n d, DistStep ⟨e, a, .mem (.nft m)⟩ u n d d) → Does c ⟨e, a, .mem (.nft m)⟩ u w w1 items := by
        intro hs1 hs2 hs3 hs4 hs5
        rw [deliver_sends hs1] at h2
        cases h2
        refine ⟨hmm, hkn, ⟨rfl, rfl, rfl⟩, .rfl' _, fun _ => rfl, ?_, ?_, ?_, .inl ⟨hs4 _, rfl⟩, hs5 _ _⟩
        · intro i hi
          obtain ⟨o, ho, rfl⟩ := List.mem_map.1 hi
          obtain ⟨v, t, rfl⟩ := hs1 o ho
          rfl
        · rw [hs3, hm]
          show r.1.mem.weight u = s.mem.weight u
          rw [hs2]
        · intro v _
          rw [hm]
          show r.1.mem.weight v = s.mem.weight v
          rw [hs2]
      cases m with
      | receiveNft t hk =>
        cases hk with
        | stake v =>
          cases hu
          rw [← hd] at hy
          cases hy
          refine hrep _ _ h6 (by rw [hmem]; simp [Nft.Abs.eff, Nft.abs, Members.weight_setWeight]) ?_ rfl rfl
            (fun _ _ h => h)
          intro v hv
          rw [hmem]
          exact Staking.weight_ne (fun h' => hv h'.symm) _ _ _
        | addClaim v rl =>
          cases hu
          rw [← hd] at hy
          cases hy
          have h6' : r.2 = [] := by
            have : (r.2 : Multiset Out) = ([] : List Out) := h6
            rw [Multiset.coe_eq_coe] at this
            exact List.perm_nil.1 this
          exact hstay (by rw [h6']; simp) hmem (fun _ => rfl) (fun _ => rfl) (fun _ _ => rfl)
        | unknown => cases hu
      | unstake l =>
        cases hu
        rw [← hd] at hy
        cases hy
        refine hrep _ _ h6 (by rw [hmem]; simp [Nft.Abs.eff, Nft.abs, Members.weight_setWeight, Cfg.menv]) ?_ rfl rfl
          (fun _ _ h => h)
        intro v hv
        rw [hmem]
        exact Staking.weight_ne (fun h' => hv h'.symm) _ _ _
      | claim o =>
        cases hu
        rw [← hd] at hy
        cases hy
        refine hstay ?_ hmem (fun _ => rfl) (fun _ => rfl) (fun _ _ => rfl)
        intro o ho
        have : o ∈ (r.2 : Multiset Out) := Multiset.mem_coe.2 ho
        rw [h6] at this
        simp only [Nft.Abs.out, Nft.Abs.due, Multiset.mem_bind, Multiset.mem_coe, List.mem_map] at this
        obtain ⟨_, _, t, _, rfl⟩ := this
        exact ⟨_, _, rfl⟩
      | updateUnlocking p => cases hu
      | addHook h => cases hu
      | removeHook h => cases hu


/-! ## Executions -/

theorem Does.exec {c : Cfg} {x : Signed} {u : Addr} {w w1 : World} {items : List Item} (h : Does c x u w w1 items)
    (room : w.gov.pollCount + 1 < 2 ^ 64) (hr : handle c x.ext w x.sender x.msg = .ok (w1, items)) :
    Exec c w [.call x.sender x.msg] w1 := by
  refine .call x.ext room hr ?_ (.nil _)
  have := h.items
  clear hr h
  induction items with
  | nil => exact .nil _
  | cons i t ih =>
    rw [this i (by simp)]
    exact .other (calls := []) (fun _ hi => by cases hi) (.nil _) (ih (fun j hj => this j (by simp [hj])))

theorem govMsg_voter {x : Signed} {u : Addr} {n k : Nat} {m : Gov.Msg} (h : govMsg x u n k = some m) (b : Nat) (a : Addr) :
    Gov.voterOf ⟨b, a, m⟩ = some u := by
  unfold govMsg at h
  split at h
  all_goals first | (cases h; rfl) | cases h

theorem govMsg_typed {x : Signed} {u : Addr} {n k : Nat} {m : Gov.Msg} (h : govMsg x u n k = some m) (hn : n < M128)
    (hk : k < M128) : m.typed := by
  unfold govMsg at h
  split at h
  all_goals first | (cases h; first | exact hn | exact hk) | cases h

/-- What messages about members do not change. -/
structure Fixed (w t : World) : Prop where
  gov : Gov.SameFrame w.gov t.gov
  dist : w.dist.admin = t.dist.admin ∧ w.dist.min = t.dist.min
  rest : w.council = t.council ∧ w.block = t.block ∧ w.log = t.log
  ctl : SameButCooldown w.ctl t.ctl
  early : w.ctl.config.early = false → w.ctl = t.ctl

theorem Fixed.symm {w t : World} (h : Fixed w t) : Fixed t w :=
  ⟨h.gov.symm, ⟨h.dist.1.symm, h.dist.2.symm⟩, ⟨h.rest.1.symm, h.rest.2.1.symm, h.rest.2.2.symm⟩, h.ctl.symm,
    fun he => (h.early (by rw [h.ctl.config.2.1]; exact he)).symm⟩

theorem Fixed.trans {w t r : World} (h : Fixed w t) (h' : Fixed t r) : Fixed w r :=
  ⟨h.gov.trans h'.gov, ⟨h.dist.1.trans h'.dist.1, h.dist.2.trans h'.dist.2⟩,
    ⟨h.rest.1.trans h'.rest.1, h.rest.2.1.trans h'.rest.2.1, h.rest.2.2.trans h'.rest.2.2⟩, h.ctl.trans h'.ctl,
    fun he => (h.early he).trans (h'.early (by rw [← h.ctl.config.2.1]; exact he))⟩

theorem Fixed.rfl' (w : World) : Fixed w w := ⟨.rfl' _, ⟨rfl, rfl⟩, ⟨rfl, rfl, rfl⟩, .rfl' _, fun _ => rfl⟩

/-- The message as governance sees it. -/
theorem Does.affects {c : Cfg} {x : Signed} {u : Addr} {w w1 : World} {items : List Item} (h : Does c x u w w1 items)
    (hb : Base c w) (hb1 : Base c w1) {m : Gov.Msg} (hm : govMsg x u (w1.mem.weight u) (w.council.weight u) = some m)
    (hx : Gov.exec w.gov ⟨w.block.time, c.self, m⟩ = .ok w1.gov) :
    Gov.Affects w.gov ⟨w.block.time, c.self, m⟩ u w1.gov := by
  have := Gov.affects hb.ctl.inv (govMsg_voter hm w.block.time c.self)
    (govMsg_typed hm (weight_small hb1 u).1 (weight_small hb u).2) (fun i p hp => hb.ctl.started i p hp)
  rw [Gov.step_ok hx] at this
  exact this

theorem distStep_fixed {x : Signed} {u : Addr} (hu : whose x = some u) {n : Nat} {d d' : Distributor.State}
    (h : DistStep x u n d d') : d'.admin = d.admin ∧ d'.min = d.min := by
  obtain ⟨e, a, m⟩ := x
  unfold DistStep at h
  split at h
  · rename_i m' hm
    simp only at hm
    subst hm
    cases m' with
    | claim v ds ts =>
      obtain ⟨o, h⟩ := h
      obtain ⟨h1, h2, _⟩ := Distributor.claim_fixed h
      exact ⟨h1, h2⟩
    | _ => cases hu
  · obtain ⟨h1, h2, _⟩ := Distributor.update_fixed h
    exact ⟨h1, h2⟩
  · obtain ⟨h1, h2, _⟩ := Distributor.update_fixed h
    exact ⟨h1, h2⟩
  · rw [h]; exact ⟨rfl, rfl⟩

theorem Does.same {c : Cfg} {x : Signed} {u : Addr} {w w1 : World} {items : List Item} (h : Does c x u w w1 items)
    (hu : whose x = some u) (hb : Base c w) (hb1 : Base c w1) : Fixed w w1 := by
  refine ⟨?_, ?_, ⟨h.rest.1.symm, h.rest.2.1.symm, h.rest.2.2.symm⟩, h.ctl, fun he => (h.fixed he).symm⟩
  · rcases h.gov with ⟨_, h1⟩ | ⟨m, h1, h2⟩
    · rw [h1]; exact .rfl' _
    · exact (h.affects hb hb1 h1 h2).frame
  · obtain ⟨h1, h2⟩ := distStep_fixed hu h.dist
    exact ⟨h1.symm, h2.symm⟩

/-- Others are not concerned. -/
theorem Does.frame {c : Cfg} {x : Signed} {u v : Addr} {w w1 : World} {items : List Item} (h : Does c x u w w1 items)
    (hu : whose x = some u) (hb : Base c w) (hb1 : Base c w1) (hv : v ≠ u) : Own v w w1 := by
  refine ⟨(h.others v hv).symm, fun i => ?_, ?_⟩
  · rcases h.gov with ⟨_, h1⟩ | ⟨m, h1, h2⟩
    · rw [h1]
    · exact ((h.affects hb hb1 h1 h2).others v i hv).symm
  · have hd := h.dist
    obtain ⟨e, a, m⟩ := x
    unfold DistStep at hd
    split at hd
    · rename_i m' hm'
      simp only at hm'
      subst hm'
      cases m' with
      | claim r ds ts =>
        cases hu
        obtain ⟨o, hd⟩ := hd
        exact ⟨Distributor.claim_other hv hd, by rw [(Distributor.claim_fixed hd).2.2.2]⟩
      | _ => cases hu
    · exact Distributor.update_frame (fun hh => hv hh.symm) hd
    · exact Distributor.update_frame (fun hh => hv hh.symm) hd
    · rw [hd]; exact .rfl' _ _

/-- The member's own part after the message depends only on the member's own part before. -/
theorem Does.local {c : Cfg} {x : Signed} {u : Addr} {w w1 t t' : World} {items items' : List Item}
    (h : Does c x u w w1 items) (h' : Does c x u t t' items') (hu : whose x = some u)
    (hb : Base c w) (hb1 : Base c w1) (gb : Base c t) (gb1 : Base c t') (hf : Fixed w t) (ho : Own u w t) : Own u w1 t' := by
  have hwt1 : w1.mem.weight u = t'.mem.weight u := by rw [h.own, h'.own, ho.weight]
  refine ⟨hwt1, fun i => ?_, ?_⟩
  · have hg := h'.gov
    rw [← hwt1, ← hf.rest.1, ← hf.rest.2.1] at hg
    rcases h.gov with ⟨e1, e2⟩ | ⟨m, e1, e2⟩
    · rcases hg with ⟨g1, g2⟩ | ⟨m', g1, _⟩
      · rw [e2, g2]; exact ho.votes i
      · rw [e1] at g1; cases g1
    · rcases hg with ⟨g1, g2⟩ | ⟨m', g1, g2⟩
      · rw [e1] at g1; cases g1
      · rw [e1] at g1
        cases g1
        have a1 := h.affects hb hb1 e1 e2
        have a2 := h'.affects gb gb1 (by rw [← hwt1, ← hf.rest.1]; exact e1) (by rw [← hf.rest.2.1]; exact g2)
        rw [a1.own i, a2.own i, ← hf.rest.2.1, ho.votes i, hf.gov.newVote]
  · have d1 := h.dist
    have d2 := h'.dist
    rw [← hwt1] at d2
    unfold DistStep at d1 d2
    obtain ⟨e, a, m⟩ := x
    simp only at d1 d2
    cases m with
    | dist m' =>
      cases m' with
      | claim r ds ts =>
        cases hu
        obtain ⟨o1, d1⟩ := d1
        obtain ⟨o2, d2⟩ := d2
        obtain ⟨y, hy, hk, _⟩ := Distributor.claim_kept ho.dist.toKept d1
        have d2' : Distributor.claim t.dist (e.denv a) u ds ts = .ok (t'.dist, o2) := d2
        rw [hy] at d2'
        cases d2'
        refine ⟨hk, ?_⟩
        rw [(Distributor.claim_fixed d1).2.2.2, (Distributor.claim_fixed d2).2.2.2]
        exact ho.dist.weights
      | _ => cases hu
    | mem m' =>
      cases m' with
      | nft m' =>
        cases m' with
        | receiveNft tk hk =>
          cases hk with
          | stake v => exact Distributor.update_part ho.dist hf.dist.2 d1 d2
          | addClaim v r =>
            simp only at d1 d2
            rw [d1, d2]; exact ho.dist
          | unknown => cases hu
        | unstake l => exact Distributor.update_part ho.dist hf.dist.2 d1 d2
        | claim o =>
          simp only at d1 d2
          rw [d1, d2]; exact ho.dist
        | _ => cases hu
      | _ => cases hu
    | ctl m' =>
      simp only at d1 d2
      rw [d1, d2]; exact ho.dist
    | _ => cases hu

/-- The messages are about members and sent from outside. -/
def Valid (c : Cfg) (l : List Signed) : Prop := ∀ x ∈ l, whose x ≠ none ∧ c.outsider x.sender

/-- A reachable world with the collection known and room for proposals. -/
structure Good (c : Cfg) (w : World) : Prop where
  reach : Reachable c w
  known : Known w.mem
  room : w.gov.pollCount + 1 < 2 ^ 64

/-- One message of a history. -/
theorem one_step {c : Cfg} (hw : c.Wf) (ht : c.Tame) {w w1 : World} (h : Good c w) {x : Signed} {u : Addr}
    (hu : whose x = some u) (ho : c.outsider x.sender) {items : List Item}
    (hr : handle c x.ext w x.sender x.msg = .ok (w1, items)) : Does c x u w w1 items ∧ Good c w1 ∧ Fixed w w1 := by
  have hb := h.reach.base hw ht
  have hd := handle_does hw hb h.known hu hr
  have h1 : Reachable c w1 := h.reach.tx ho (hd.exec h.room hr)
  have hf := hd.same hu hb (h1.base hw ht)
  exact ⟨hd, ⟨h1, hd.known, by rw [← hf.gov.count]; exact h.room⟩, hf⟩

theorem seq_fixed {c : Cfg} (hw : c.Wf) (ht : c.Tame) : ∀ {l : List Signed} {w w1 : World}, Good c w → Valid c l →
    Sequel c w l w1 → Good c w1 ∧ Fixed w w1
  | [], w, w1, h, _, hs => by
    cases hs
    exact ⟨h, .rfl' _⟩
  | x :: l, w, w2, h, hv, hs => by
    cases hs with
    | cons h1 h2 =>
      obtain ⟨hx, ho⟩ := hv x (by simp)
      obtain ⟨u, hu⟩ := Option.ne_none_iff_exists'.1 hx
      obtain ⟨d, r1, f1⟩ := one_step hw ht h hu ho h1
      obtain ⟨r2, f2⟩ := seq_fixed hw ht r1 (fun y hy => hv y (by simp [hy])) h2
      exact ⟨r2, f1.trans f2⟩

theorem seq_frame {c : Cfg} (hw : c.Wf) (ht : c.Tame) {u : Addr} : ∀ {l : List Signed} {w w1 : World}, Good c w → Valid c l →
    (∀ x ∈ l, whose x ≠ some u) → Sequel c w l w1 → Own u w w1
  | [], w, w1, h, _, _, hs => by
    cases hs
    exact .rfl' _ _
  | x :: l, w, w2, h, hv, hn, hs => by
    cases hs with
    | cons h1 h2 =>
      obtain ⟨hx, ho⟩ := hv x (by simp)
      obtain ⟨v, hu⟩ := Option.ne_none_iff_exists'.1 hx
      obtain ⟨d, r1, f1⟩ := one_step hw ht h hu ho h1
      have hne : u ≠ v := fun hh => hn x (by simp) (by rw [hu, hh])
      exact (d.frame hu (h.reach.base hw ht) (r1.reach.base hw ht) hne).trans
        (seq_frame hw ht r1 (fun y hy => hv y (by simp [hy])) (fun y hy => hn y (by simp [hy])) h2)

/-- What concerns a member depends only on the messages about the member. -/
theorem seq_agree {c : Cfg} (hw : c.Wf) (ht : c.Tame) {u : Addr} : ∀ {l l' : List Signed} {w w1 t t1 : World},
    Good c w → Good c t → Fixed w t → Own u w t → Valid c l → Valid c l' → Sequel c w l w1 → Sequel c t l' t1 →
    l.filter (fun x => decide (whose x = some u)) = l'.filter (fun x => decide (whose x = some u)) → Own u w1 t1
  | [], l', w, w1, t, t1, h, g, hf, ho, _, hv', hs, hs', hl => by
    cases hs
    have hn : ∀ x ∈ l', whose x ≠ some u := by
      have := List.filter_eq_nil_iff.1 hl.symm
      intro x hx
      simpa using this x hx
    exact ho.trans (seq_frame hw ht g hv' hn hs')
  | x :: l, l', w, w2, t, t1, h, g, hf, ho, hv, hv', hs, hs', hl => by
    cases hs with
    | cons h1 h2 =>
      obtain ⟨hx, hout⟩ := hv x (by simp)
      obtain ⟨v, hu⟩ := Option.ne_none_iff_exists'.1 hx
      obtain ⟨d, r1, f1⟩ := one_step hw ht h hu hout h1
      have hvl : Valid c l := fun y hy => hv y (by simp [hy])
      by_cases hne : v = u
      · subst hne
        rw [List.filter_cons_of_pos (by simpa using hu), eq_comm, List.filter_eq_cons_iff] at hl
        obtain ⟨p, q, rfl, hp, _, hq⟩ := hl
        have hp' : ∀ y ∈ p, whose y ≠ some v := fun y hy => by simpa using hp y hy
        obtain ⟨tp, hs1, hs2⟩ := hs'.append
        have hvp : Valid c p := fun y hy => hv' y (by simp [hy])
        obtain ⟨g2, f2⟩ := seq_fixed hw ht g hvp hs1
        have o2 := seq_frame hw ht g hvp hp' hs1
        cases hs2 with
        | cons h3 h4 =>
          obtain ⟨d3, r3, f3⟩ := one_step hw ht g2 hu hout h3
          have o3 := d.local d3 hu (h.reach.base hw ht) (r1.reach.base hw ht) (g2.reach.base hw ht) (r3.reach.base hw ht)
            (hf.trans f2) (ho.trans o2)
          exact seq_agree hw ht r1 r3 (f1.symm.trans ((hf.trans f2).trans f3)) o3 hvl
            (fun y hy => hv' y (by simp [hy])) h2 h4 hq.symm
      · rw [List.filter_cons_of_neg (by rw [hu]; simpa using hne)] at hl
        have o1 := d.frame hu (h.reach.base hw ht) (r1.reach.base hw ht) (fun hh => hne hh.symm)
        exact seq_agree hw ht r1 g (f1.symm.trans hf) (o1.symm.trans ho) hvl hv' h2 hs' hl

theorem seq_has {c : Cfg} (hw : c.Wf) (ht : c.Tame) {i n : Nat} : ∀ {l : List Signed} {w w1 : World},
    Good c w → Valid c l → Sequel c w l w1 →
    ∀ p q, w.gov.polls.get i = some p → w1.gov.polls.get i = some q →
    (q.results.has n = true ↔ p.results.has n = true ∨ ∃ x ∈ l, votesFor x i n)
  | [], w, w1, h, _, hs, p, q, hp, hq => by
    cases hs
    rw [hp] at hq
    cases hq
    simp
  | x :: l, w, w2, h, hv, hs, p, q, hp, hq => by
    cases hs with
    | @cons _ w1 _ _ _ _ h1 h2 =>
      obtain ⟨hx, ho⟩ := hv x (by simp)
      obtain ⟨u, hu⟩ := Option.ne_none_iff_exists'.1 hx
      obtain ⟨d, r1, f1⟩ := one_step hw ht h hu ho h1
      obtain ⟨p1, hp1, _, _⟩ := f1.gov.get hp
      have ih := seq_has hw ht r1 (fun y hy => hv y (by simp [hy])) h2 p1 q hp1 hq (n := n)
      have key : p1.results.has n = true ↔ p.results.has n = true ∨ votesFor x i n := by
        rcases d.gov with ⟨e1, e2⟩ | ⟨m, e1, e2⟩
        · rw [e2, hp] at hp1
          cases hp1
          refine ⟨Or.inl, fun h => h.elim id ?_⟩
          rintro ⟨o, h | h, _⟩ <;> simp [govMsg, h] at e1
        · rw [(d.affects (h.reach.base hw ht) (r1.reach.base hw ht) e1 e2).has i p p1 hp hp1 n]
          refine or_congr Iff.rfl ⟨?_, ?_⟩
          · rintro ⟨_, o, v, a, e3, _, e4⟩
            simp only at e3
            subst e3
            unfold govMsg at e1
            split at e1
            · rename_i hmsg
              cases e1
              exact ⟨_, .inl hmsg, e4⟩
            · rename_i hmsg
              cases e1
              exact ⟨_, .inr hmsg, e4⟩
            all_goals cases e1
          · rintro ⟨o, hmsg, e4⟩
            have hmm : ∃ a, m = .castVote i o u a := by
              rcases hmsg with hmsg | hmsg <;>
              · simp only [govMsg, hmsg, Option.some.injEq] at e1
                exact ⟨_, e1.symm⟩
            obtain ⟨a, rfl⟩ := hmm
            unfold Gov.exec at e2
            obtain ⟨had, e2⟩ := ite_ok_iff.1 e2
            obtain ⟨c1, c2, c3, c4, c5, c6, c7, _⟩ := Gov.castVote_ok_iff.1 e2
            exact ⟨by simpa using had, o, u, a, rfl, ⟨c1, c2, c3, c4, c5, c6, c7⟩, e4⟩
      rw [ih, key]
      simp only [List.mem_cons, exists_eq_or_imp]
      tauto

theorem Interleaved.mem {c : Cfg} {l l' : List Signed} (h : Interleaved l l') (hv : Valid c l) {x : Signed} (hx : x ∈ l) :
    x ∈ l' := by
  obtain ⟨u, hu⟩ := Option.ne_none_iff_exists'.1 (hv x hx).1
  have : x ∈ l.filter (fun x => decide (whose x = some u)) := List.mem_filter.2 ⟨hx, by simpa using hu⟩
  rw [h u] at this
  exact (List.mem_filter.1 this).1

/-- Whatever the order, polls and rewards are the same. -/
theorem seq_same {c : Cfg} (hw : c.Wf) (ht : c.Tame) {l l' : List Signed} {w w1 w2 : World} (h : Good c w) (hv : Valid c l)
    (hv' : Valid c l') (hil : Interleaved l l') (h1 : Sequel c w l w1) (h2 : Sequel c w l' w2) : SameRest w1 w2 := by
  obtain ⟨r1, f1⟩ := seq_fixed hw ht h hv h1
  obtain ⟨r2, f2⟩ := seq_fixed hw ht h hv' h2
  have hf := f1.symm.trans f2
  have ho : ∀ u, Own u w1 w2 := fun u => seq_agree hw ht h h (.rfl' _) (.rfl' _ _) hv hv' h1 h2 (hil u)
  refine ⟨?_, ?_, hf.rest, hf.ctl, hf.early⟩
  · refine Gov.state_ext (r1.reach.base hw ht).ctl.inv (r2.reach.base hw ht).ctl.inv hf.gov (fun u i => (ho u).votes i) ?_
    intro i p q hp hq n
    obtain ⟨p0, hp0, _, _⟩ := f1.gov.symm.get hp
    rw [seq_has hw ht h hv h1 p0 p hp0 hp, seq_has hw ht h hv' h2 p0 q hp0 hq]
    refine or_congr Iff.rfl ⟨?_, ?_⟩
    · rintro ⟨x, hx, e⟩; exact ⟨x, hil.mem hv hx, e⟩
    · rintro ⟨x, hx, e⟩; exact ⟨x, Interleaved.mem (fun u => (hil u).symm) hv' hx, e⟩
  · exact Distributor.userParts_ext (fun u => (ho u).dist) hf.dist.1 hf.dist.2 (r1.reach.dist hw ht).inv
      (r2.reach.dist hw ht).inv

/-! ## The membership contract -/

/-- The messages to the membership contract. -/
def calls (c : Cfg) (b : Block) (l : List Signed) : List Nft.Call := l.filterMap (nftCall c b)

theorem calls_concern {c : Cfg} {b : Block} {l : List Signed} (hv : Valid c l) : ∀ d ∈ calls c b l, d.env.env.block = b ∧
    Nft.concerns d ≠ none := by
  intro d hd
  obtain ⟨x, hx, e⟩ := List.mem_filterMap.1 hd
  refine ⟨?_, by rw [concerns_call e]; exact (hv x hx).1⟩
  unfold nftCall at e
  split at e
  · cases e; rfl
  · cases e

theorem calls_filter (c : Cfg) (b : Block) (u : Addr) : ∀ l : List Signed,
    (calls c b l).filter (fun d => decide (Nft.concerns d = some u)) =
      calls c b (l.filter (fun x => decide (whose x = some u)))
  | [] => rfl
  | x :: l => by
    have ih := calls_filter c b u l
    unfold calls at ih ⊢
    cases hx : nftCall c b x with
    | none =>
      rw [List.filterMap_cons_none hx, ih]
      by_cases h : whose x = some u
      · rw [List.filter_cons_of_pos (by simpa using h), List.filterMap_cons_none hx]
      · rw [List.filter_cons_of_neg (by simpa using h)]
    | some d =>
      rw [List.filterMap_cons_some hx]
      by_cases h : whose x = some u
      · have h' : Nft.concerns d = some u := (concerns_call hx).trans h
        rw [List.filter_cons_of_pos (by simpa using h'), List.filter_cons_of_pos (by simpa using h),
          List.filterMap_cons_some hx, ih]
      · have h' : ¬ Nft.concerns d = some u := fun hh => h ((concerns_call hx).symm.trans hh)
        rw [List.filter_cons_of_neg (by simpa using h'), List.filter_cons_of_neg (by simpa using h), ih]

theorem calls_interleaved (c : Cfg) (b : Block) {l l' : List Signed} (h : Interleaved l l') :
    Nft.Interleaved (calls c b l) (calls c b l') := by
  intro u
  rw [calls_filter, calls_filter, h u]

theorem calls_length (c : Cfg) (b : Block) (l : List Signed) : (calls c b l).length ≤ l.length := List.length_filterMap_le _ _

theorem nftCall_msg {c : Cfg} {b : Block} {x : Signed} {d : Nft.Call} (h : nftCall c b x = some d) :
    x.msg = .mem (.nft d.msg) := by
  unfold nftCall at h
  split at h
  · rename_i hm
    cases h
    exact hm
  · cases h

theorem calls_apart (c : Cfg) (b : Block) {l : List Signed} (h : Apart l) : Nft.Apart (calls c b l) := by
  intro d hd e he hne t hs hu
  obtain ⟨x, hx, ex⟩ := List.mem_filterMap.1 hd
  obtain ⟨y, hy, ey⟩ := List.mem_filterMap.1 he
  obtain ⟨u, hs⟩ := hs
  obtain ⟨m, hu, htm⟩ := hu
  refine h x hx y hy ?_ t u m (by rw [nftCall_msg ex, hs]) (by rw [nftCall_msg ey, hu]) htm
  rw [← concerns_call ex, ← concerns_call ey]
  exact hne

theorem seq_stakes {c : Cfg} (hw : c.Wf) (ht : c.Tame) : ∀ {l : List Signed} {w w1 : World} {s : Nft.State},
    Good c w → w.mem = .nft s → Valid c l → Sequel c w l w1 →
    w1.mem = .nft (Nft.run s (calls c w.block l)) ∧ Nft.allAccepted s (calls c w.block l)
  | [], w, w1, s, h, hm, _, hs => by
    cases hs
    exact ⟨hm, trivial⟩
  | x :: l, w, w2, s, h, hm, hv, hs => by
    cases hs with
    | cons h1 h2 =>
      obtain ⟨hx, ho⟩ := hv x (by simp)
      obtain ⟨u, hu⟩ := Option.ne_none_iff_exists'.1 hx
      obtain ⟨d, r1, f1⟩ := one_step hw ht h hu ho h1
      rcases d.mem with ⟨g1, g2⟩ | ⟨s', y, g0, g1, g2, g3⟩
      · obtain ⟨e1, e2⟩ := seq_stakes hw ht r1 (g2.trans hm) (fun y hy => hv y (by simp [hy])) h2
        rw [← f1.rest.2.1] at e1 e2
        unfold calls at e1 e2 ⊢
        rw [List.filterMap_cons_none g1]
        exact ⟨e1, e2⟩
      · rw [hm] at g0
        cases g0
        obtain ⟨e1, e2⟩ := seq_stakes hw ht r1 g3 (fun y hy => hv y (by simp [hy])) h2
        rw [← f1.rest.2.1] at e1 e2
        unfold calls at e1 e2 ⊢
        rw [List.filterMap_cons_some g1]
        exact ⟨e1, g2, e2⟩

theorem seq_still {c : Cfg} (hw : c.Wf) (ht : c.Tame) : ∀ {l : List Signed} {w w1 : World}, Good c w →
    (∀ s, w.mem ≠ .nft s) → Valid c l → Sequel c w l w1 → w1.mem = w.mem ∧ calls c w.block l = []
  | [], w, w1, h, _, _, hs => by
    cases hs
    exact ⟨rfl, rfl⟩
  | x :: l, w, w2, h, hm, hv, hs => by
    cases hs with
    | cons h1 h2 =>
      obtain ⟨hx, ho⟩ := hv x (by simp)
      obtain ⟨u, hu⟩ := Option.ne_none_iff_exists'.1 hx
      obtain ⟨d, r1, f1⟩ := one_step hw ht h hu ho h1
      rcases d.mem with ⟨g1, g2⟩ | ⟨s', y, g0, _⟩
      · obtain ⟨e1, e2⟩ := seq_still hw ht r1 (by rw [g2]; exact hm) (fun y hy => hv y (by simp [hy])) h2
        rw [← f1.rest.2.1] at e2
        unfold calls at e2 ⊢
        rw [List.filterMap_cons_none g1]
        exact ⟨e1.trans g2, e2⟩
      · exact absurd g0 (hm _)

theorem run_total {a : Addr} : ∀ (l : List Nft.Call) {s : Nft.State}, Nft.Inv s → s.nft = .cw721 a →
    (∀ d ∈ l, Nft.concerns d ≠ none) → Nft.allAccepted s l → (Nft.run s l).mem.total ≤ s.mem.total + l.length
  | [], s, _, _, _, _ => by simp [Nft.run]
  | d :: l, s, hi, hn, hc, ha => by
    obtain ⟨x, hx, _⟩ := Nft.actOf_some (hc d (by simp))
    obtain ⟨_, _, h3, _⟩ := Nft.accepted_act hi hn hx ha.1
    have h4 : (Nft.step s d).1.mem.total ≤ s.mem.total + 1 := by
      have h5 := Nft.eff_total (x := Nft.abs s) d.env.env.block x
      rw [← h3] at h5
      exact h5
    have ih := run_total l (Nft.inv_step hi d) (Nft.nft_kept hi hn (hc d (by simp)) ha.1) (fun y hy => hc y (by simp [hy])) ha.2
    simp only [List.length_cons, Nft.run]
    omega

theorem allAccepted_append : ∀ (p : List Nft.Call) {q : List Nft.Call} {s : Nft.State},
    Nft.allAccepted s (p ++ q) → Nft.allAccepted s p ∧ Nft.allAccepted (Nft.run s p) q
  | [], _, _, h => ⟨trivial, h⟩
  | _ :: p, _, _, h => ⟨⟨h.1, (allAccepted_append p h.2).1⟩, (allAccepted_append p h.2).2⟩

/-! ## Acceptance -/

theorem Does.bounded {c : Cfg} {x : Signed} {u : Addr} {w w1 : World} {items : List Item} (h : Does c x u w w1 items)
    (hu : whose x = some u) {E : Map Addr Nat} (hb : StakeBound E w.dist w.mem.mem) : StakeBound E w1.dist w1.mem.mem := by
  have hrep : Distributor.updateOne w.dist (u, w1.mem.weight u) = .ok w1.dist → StakeBound E w1.dist w1.mem.mem := by
    intro h1 v
    rw [(Distributor.update_fixed h1).2.2, Map.get_set]
    split
    · rename_i hv
      subst hv
      have := effWeight_le (w1.mem.weight u) w.dist.min
      simp only [Option.getD_some]
      rw [← Member.weight_eq]
      omega
    · rename_i hv
      have := h.others v (fun hh => hv hh.symm)
      rw [← Member.weight_eq, this, Member.weight_eq]
      exact hb v
  have hkeep : newWeight x (w.mem.weight u) = w.mem.weight u → w1.dist.effective = w.dist.effective →
      StakeBound E w1.dist w1.mem.mem := by
    intro h1 h2 v
    have h3 : w1.mem.weight v = w.mem.weight v := by
      by_cases hv : v = u
      · subst hv; rw [h.own, h1]
      · exact h.others v hv
    rw [h2, ← Member.weight_eq, h3, Member.weight_eq]
    exact hb v
  have hd := h.dist
  obtain ⟨e, a, m⟩ := x
  unfold DistStep at hd
  cases m with
  | dist m' =>
    cases m' with
    | claim r ds ts =>
      simp only at hd
      obtain ⟨o, hd⟩ := hd
      exact hkeep rfl (Distributor.claim_fixed hd).2.2.1
    | _ => cases hu
  | mem m' =>
    cases m' with
    | nft m' =>
      cases m' with
      | receiveNft tk hk =>
        cases hk with
        | stake v => exact hrep hd
        | addClaim v r => exact hkeep rfl (by simp only at hd; rw [hd])
        | unknown => cases hu
      | unstake l => exact hrep hd
      | claim o => exact hkeep rfl (by simp only at hd; rw [hd])
      | _ => cases hu
    | _ => cases hu
  | ctl m' => exact hkeep (by cases m' <;> rfl) (by simp only at hd; rw [hd])
  | gov m' => cases hu
  | council m' => cases hu

/-- A message accepted in one world is accepted in another one that agrees on what is fixed and on the member's own part. -/
theorem accepts {c : Cfg} (hw : c.Wf) (ht : c.Tame) {x : Signed} {u : Addr} {w w1 t : World} {items : List Item}
    (h : Good c w) (g : Good c t) (hu : whose x = some u) (hf : Fixed w t) (ho : Own u w t)
    (hr : handle c x.ext w x.sender x.msg = .ok (w1, items)) {E : Map Addr Nat} (hE : StakeBound E t.dist t.mem.mem)
    (hst : ∀ d, nftCall c t.block x = some d → ∃ s, t.mem = .nft s ∧ Nft.accepted s d ∧
      E.sum (fun _ x => x) + (Nft.step s d).1.mem.total < M128) :
    ∃ r, handle c x.ext t x.sender x.msg = .ok r := by
  have hb := h.reach.base hw ht
  have gb := g.reach.base hw ht
  have hd := handle_does hw hb h.known hu hr
  obtain ⟨e, a, m⟩ := x
  have htakes : ∀ {id o n n'} {g1 : Gov.State}, Gov.castVote w.gov w.block.time id o u n = .ok g1 →
      ∃ g2, Gov.castVote t.gov t.block.time id o u n' = .ok g2 := by
    intro id o n n' g1 h1
    obtain ⟨c1, c2, p, c3, c4, c5, c6, _⟩ := Gov.castVote_ok_iff.1 h1
    obtain ⟨d1, d2, q, d3, d4, d5, d6⟩ := hf.gov.takes ⟨c1, c2, p, c3, c4, c5, c6⟩
    rw [← hf.rest.2.1]
    exact ⟨_, Gov.castVote_ok_iff.2 ⟨d1, d2, q, d3, d4, d5, d6, rfl⟩⟩
  cases m with
  | ctl m =>
    cases m with
    | castVote id o =>
      cases hu
      simp only [handle, Controller.exec, bind_ok_iff, pure_ok_iff] at hr
      obtain ⟨_, ⟨r, h1, rfl⟩, h2⟩ := hr
      obtain ⟨a1, a2, i, p, q, a3, a4, a5, a6, a7, a8, _⟩ := Controller.castVote_ok_iff.1 h1
      obtain ⟨j, b3, b4⟩ := hf.ctl.get a3
      obtain ⟨p', b5, _, _⟩ := hf.gov.get a5
      have hwt : t.mem.weight a ≠ 0 := by rw [← ho.weight]; exact a2
      obtain ⟨g2, b7⟩ := htakes (n' := t.mem.weight a) a7
      have b8 : ∃ q', g2.polls.get id = some q' := by
        obtain ⟨_, _, p, _, _, _, _, rfl⟩ := Gov.castVote_ok_iff.1 b7
        exact ⟨_, Map.get_set_self _ _ _⟩
      obtain ⟨q', b8⟩ := b8
      have b6 : c.self = t.gov.admin := by rw [← hf.gov.admin]; exact a6
      refine ⟨_, bind_ok_iff.2 ⟨_, bind_ok_iff.2 ⟨(_, g2), Controller.castVote_ok_iff.2
        ⟨a1, hwt, j, p', q', b3, b4.trans a4, b5, b6, b7, b8, rfl⟩, rfl⟩, rfl⟩⟩
    | castCouncilVote id o =>
      cases hu
      simp only [handle, Controller.exec, bind_ok_iff, pure_ok_iff] at hr
      obtain ⟨_, ⟨r, h1, rfl⟩, h2⟩ := hr
      obtain ⟨a1, a2, a3, i, a4, a5, a6, a7, _⟩ := Controller.castCouncilVote_ok_iff.1 h1
      obtain ⟨j, b4, b5⟩ := hf.ctl.get a4
      have b2 : ∃ x, t.ctl.council = some x := by rw [← hf.ctl.config.2.2.1]; exact a2
      have b3 : Multisig.queryWeight t.council a ≠ 0 := by rw [← hf.rest.1]; exact a3
      have b6 : c.self = t.gov.admin := by rw [← hf.gov.admin]; exact a6
      obtain ⟨g2, b7⟩ := htakes (n' := Multisig.queryWeight t.council a) a7
      refine ⟨_, bind_ok_iff.2 ⟨_, bind_ok_iff.2 ⟨(_, g2), Controller.castCouncilVote_ok_iff.2
        ⟨a1, b2, b3, j, b4, b5.trans a5, b6, b7, rfl⟩, rfl⟩, rfl⟩⟩
    | _ => cases hu
  | gov m => cases hu
  | dist m =>
    cases m with
    | claim v ds ts =>
      cases hu
      simp only [handle, bind_ok_iff, pure_ok_iff] at hr
      obtain ⟨r, h1, h2⟩ := hr
      obtain ⟨y, hy, _⟩ := Distributor.claim_kept ho.dist.toKept h1
      exact ⟨_, bind_ok_iff.2 ⟨_, hy, rfl⟩⟩
    | _ => cases hu
  | council m => cases hu
  | mem m =>
    cases m with
    | staking m => cases hu
    | multisig m => cases hu
    | nft m =>
      obtain ⟨t0, gm, acc0, hsum⟩ := hst _ rfl
      obtain ⟨z, hz⟩ := g.known t0 gm
      have gok : (Member.nft t0).Ok c.self := gm ▸ gb.mem
      generalize hdd : (⟨⟨c.menv e t a, e.proxy⟩, m, true⟩ : Nft.Call) = d
      have acc : Nft.accepted t0 d := by rw [← hdd]; exact acc0
      have hcall : nftCall c t.block ⟨e, a, .mem (.nft m)⟩ = some d := by rw [← hdd]; rfl
      have hc := (concerns_call hcall).trans hu
      have hsum' : E.sum (fun _ x => x) + (Nft.step t0 d).1.mem.total < M128 := by rw [← hdd]; exact hsum
      have hcn : Nft.concerns d ≠ none := by rw [hc]; exact Option.some_ne_none _
      obtain ⟨y, hy, hyu⟩ := Nft.actOf_some hcn
      obtain ⟨_, _, h5, h6⟩ := Nft.accepted_act gok.good hz hy acc
      obtain ⟨hdl, r, h3'⟩ := acc
      have hstep := Nft.step_of_ok hdl h3'
      have hinv : Nft.Inv r.1 := by
        have := Nft.inv_step gok.good d
        rw [hstep] at this
        exact this
      rw [hstep] at hsum' h5 h6
      have hyu : y.user = u := by
        rw [hc] at hyu
        simpa using hyu.symm
      have hbl : d.env.env.block = t.block := by rw [← hdd]; rfl
      rw [hbl] at h5 h6
      have hmem : r.1.mem = ((Nft.abs t0).eff t.block y).mem := congrArg Nft.Abs.mem h5
      have h3 : Nft.exec t0 ⟨c.menv e t a, e.proxy⟩ m = .ok r := by rw [← hdd] at h3'; exact h3'
      have hexec : t.mem.exec ⟨c.menv e t a, e.proxy⟩ (.nft m) = .ok (.nft r.1, r.2) := by
        rw [gm]
        simp only [Member.exec]
        exact bind_ok_iff.2 ⟨r, h3, rfl⟩
      have hwu : ∀ n, newWeight ⟨e, a, .mem (.nft m)⟩ (t0.mem.weight u) = n → w1.mem.weight u = n := by
        intro n hn
        rw [hd.own, ho.weight, gm]
        exact hn
      have hdist := hd.dist
      have hrep : ∀ o n, (r.2 : Multiset Out) = (t0.mem.report [⟨u, o, n⟩] : List Out) → r.1.mem.weight u = n →
          (∀ v, v ≠ u → r.1.mem.weight v = t0.mem.weight v) → Distributor.updateOne w.dist (u, n) = .ok w1.dist →
          ∃ r, handle c e t a (.mem (.nft m)) = .ok r := by
        intro o n hrn hn hoth hup
        rw [report_single (m := t0.mem) gok.hooks, Multiset.coe_eq_coe, List.perm_singleton] at hrn
        have hE' : StakeBound E t.dist t0.mem := by rw [gm] at hE; exact hE
        have hbd := hE'.sum hoth (Distributor.effWeight n t.dist.min) (by rw [hn]; exact effWeight_le _ _)
        have htot : r.1.mem.wsum = r.1.mem.total := hinv.wsum.trans hinv.total.symm
        obtain ⟨d', hd'⟩ := Distributor.update_accept ho.dist (g.reach.dist hw ht).inv hup (by omega)
        have hsm : n < 2 ^ 128 := by
          have := Nft.weight_le_total hinv u
          unfold M128 at hsum'
          omega
        obtain ⟨g', hg', _⟩ := Gov.C10_update_votes gb.ctl.gov.reachable (now := t.block.time) (voter := u) (amount := n) hsm
          (fun i p hp => gb.ctl.started i p (Controller.queryPoll_ok_iff.1 hp))
        rw [show t.gov.admin = c.self from gb.ctl.gov.admin] at hg'
        obtain ⟨z, hz⟩ := deliver_accept hw (e := e) (w := { t with mem := .nft r.1 }) (o := o) (g.reach.dist hw ht).admin hg' hd'
        refine ⟨z, ?_⟩
        simp only [handle]
        refine bind_ok_iff.2 ⟨(.nft r.1, r.2), hexec, ?_⟩
        rw [hrn]
        exact hz
      have hstay : (∀ o ∈ r.2, ∃ u t, o = .sendNft u t) → ∃ r, handle c e t a (.mem (.nft m)) = .ok r := by
        intro hs1
        refine ⟨({ t with mem := .nft r.1 }, r.2.map (outItem c c.comps.membership)), ?_⟩
        simp only [handle]
        exact bind_ok_iff.2 ⟨(.nft r.1, r.2), hexec, deliver_sends hs1⟩
      cases m with
      | receiveNft tk hk =>
        cases hk with
        | stake v =>
          cases hu
          rw [← hdd] at hy
          cases hy
          rw [hwu _ rfl] at hdist
          refine hrep _ _ h6 (by rw [hmem]; simp [Nft.Abs.eff, Nft.abs, Members.weight_setWeight]) ?_ hdist
          intro v hv
          rw [hmem]
          exact Staking.weight_ne (fun h' => hv h'.symm) _ _ _
        | addClaim v rl =>
          cases hu
          rw [← hdd] at hy
          cases hy
          have h6' : r.2 = [] := by
            have : (r.2 : Multiset Out) = ([] : List Out) := h6
            rw [Multiset.coe_eq_coe] at this
            exact List.perm_nil.1 this
          exact hstay (by rw [h6']; simp)
        | unknown => cases hu
      | unstake l =>
        cases hu
        rw [← hdd] at hy
        cases hy
        rw [hwu _ rfl] at hdist
        refine hrep _ _ h6 (by rw [hmem]; simp [Nft.Abs.eff, Nft.abs, Members.weight_setWeight, Cfg.menv]) ?_ hdist
        intro v hv
        rw [hmem]
        exact Staking.weight_ne (fun h' => hv h'.symm) _ _ _
      | claim o =>
        cases hu
        rw [← hdd] at hy
        cases hy
        refine hstay ?_
        intro o ho
        have : o ∈ (r.2 : Multiset Out) := Multiset.mem_coe.2 ho
        rw [h6] at this
        simp only [Nft.Abs.out, Nft.Abs.due, Multiset.mem_bind, Multiset.mem_coe, List.mem_map] at this
        obtain ⟨_, _, t, _, rfl⟩ := this
        exact ⟨_, _, rfl⟩
      | updateUnlocking p => cases hu
      | addHook h => cases hu
      | removeHook h => cases hu

theorem seq_bounded {c : Cfg} (hw : c.Wf) (ht : c.Tame) {E : Map Addr Nat} : ∀ {l : List Signed} {w w1 : World}, Good c w →
    Valid c l → Sequel c w l w1 → StakeBound E w.dist w.mem.mem → StakeBound E w1.dist w1.mem.mem
  | [], w, w1, h, _, hs, hb => by
    cases hs
    exact hb
  | x :: l, w, w2, h, hv, hs, hb => by
    cases hs with
    | cons h1 h2 =>
      obtain ⟨hx, ho⟩ := hv x (by simp)
      obtain ⟨u, hu⟩ := Option.ne_none_iff_exists'.1 hx
      obtain ⟨d, r1, f1⟩ := one_step hw ht h hu ho h1
      exact seq_bounded hw ht r1 (fun y hy => hv y (by simp [hy])) h2 (d.bounded hu hb)

/-- The messages are accepted in the other order, if the membership contract accepts its messages and there is room. -/
theorem other_order {c : Cfg} (hw : c.Wf) (ht : c.Tame) {w w1 : World} (h : Good c w) {l l' : List Signed} (hl : Valid c l)
    (hl' : Valid c l') (hil : Interleaved l l') (h1 : Sequel c w l w1)
    (hst : ∀ p' x q' t, l' = p' ++ x :: q' → Sequel c w p' t → ∀ d, nftCall c w.block x = some d → ∃ s, t.mem = .nft s ∧
      Nft.accepted s d ∧ w.dist.effective.sum (fun _ x => x) + (Nft.step s d).1.mem.total < M128) :
    ∃ w2, Sequel c w l' w2 := by
  have hex : ∀ p' q', l' = p' ++ q' → ∃ t, Sequel c w p' t := by
    intro p'
    induction p' using List.reverseRecOn with
    | nil => exact fun _ _ => ⟨w, .nil w⟩
    | append_singleton p' x ih =>
      intro q' hq
      rw [List.append_assoc] at hq
      obtain ⟨t, ht1⟩ := ih _ hq
      have hvp' : Valid c p' := fun y hy => hl' y (by rw [hq]; simp [hy])
      obtain ⟨hx, _⟩ := hl' x (by rw [hq]; simp)
      obtain ⟨u, hu⟩ := Option.ne_none_iff_exists'.1 hx
      have hfil := hil u
      rw [hq, List.filter_append, List.filter_eq_append_iff] at hfil
      obtain ⟨p1, q1, rfl, f1, f2⟩ := hfil
      rw [List.singleton_append, List.filter_cons_of_pos (by simpa using hu), List.filter_eq_cons_iff] at f2
      obtain ⟨p2, q2, rfl, f3, _, _⟩ := f2
      rw [← List.append_assoc] at h1 hl
      have hfp : (p1 ++ p2).filter (fun x => decide (whose x = some u)) = p'.filter (fun x => decide (whose x = some u)) := by
        rw [List.filter_append, f1, List.filter_eq_nil_iff.2 f3, List.append_nil]
      obtain ⟨wp, s1, s2⟩ := h1.append
      have hvp : Valid c (p1 ++ p2) := fun y hy => hl y (List.mem_append_left _ hy)
      obtain ⟨r1, g1⟩ := seq_fixed hw ht h hvp s1
      obtain ⟨r2, g2⟩ := seq_fixed hw ht h hvp' ht1
      have own := seq_agree hw ht h h (.rfl' _) (.rfl' _ _) hvp hvp' s1 ht1 hfp
      have hbd : StakeBound w.dist.effective t.dist t.mem.mem :=
        seq_bounded hw ht h hvp' ht1 (fun v => Nat.le_add_right _ _)
      cases s2 with
      | cons h3 h4 =>
        obtain ⟨⟨t1, it⟩, hr⟩ := accepts hw ht r1 r2 hu (g1.symm.trans g2) own h3 hbd (by
          intro d hd
          rw [← g2.rest.2.1] at hd
          exact hst p' x q' t hq ht1 d hd)
        exact ⟨t1, ht1.snoc hr⟩
  exact hex l' [] (by simp)

end Verif.Dao.Nfts

namespace Verif.Dao
open Verif

/-- In an NFT DAO with a known collection, messages of one block, each about one member and sent from outside, in another order
that keeps the order of the messages about each member, no NFT being unstaked by one member and staked for another: if they
are accepted in one order they are accepted in the other, and then polls, votes, rewards, stakes and the council are the
same; only the ids of claims of NFTs can differ and, if proposals can be executed early, from when on they can. -/
theorem C166_order {c : Cfg} (hw : c.Wf) (ht : c.Tame) {w w1 : World} (h : Reachable c w) {s : Nft.State} {a : Addr}
    (hm : w.mem = .nft s) (hn : s.nft = .cw721 a) {l l' : List Signed}
    (hl : ∀ x ∈ l, Nfts.whose x ≠ none ∧ c.outsider x.sender) (hl' : ∀ x ∈ l', Nfts.whose x ≠ none ∧ c.outsider x.sender)
    (hil : Nfts.Interleaved l l') (hap : Nfts.Apart l) (room : w.gov.pollCount + 1 < 2 ^ 64)
    (fit : w.dist.total + w.mem.total .never + l.length < 2 ^ 128) (h1 : Sequel c w l w1) :
    ∃ w2, Sequel c w l' w2 ∧ Nfts.SameRest w1 w2 ∧
      ∃ s1 s2, w1.mem = .nft s1 ∧ w2.mem = .nft s2 ∧ Nft.SameButIds s1 s2 := by
  have hg : Nfts.Good c w := ⟨h, fun s' hs' => by rw [hm] at hs'; cases hs'; exact ⟨a, hn⟩, room⟩
  have hok : (Member.nft s).Ok c.self := hm ▸ (h.base hw ht).mem
  have htot : w.mem.total .never = s.mem.total := by rw [hm]; rfl
  obtain ⟨e1, e2⟩ := Nfts.seq_stakes hw ht hg hm hl h1
  have hroom : Nft.Room s (Nfts.calls c w.block l) := by
    have := Nfts.calls_length c w.block l
    unfold Nft.Room M128
    omega
  obtain ⟨hperm, acc', habs, _⟩ := Nft.order_abs _ _ hok.good hn (Nfts.calls_concern hl)
    (fun d hd => (Nfts.calls_concern hl' d hd).2) (Nfts.calls_interleaved c w.block hil) (Nfts.calls_apart c w.block hap)
    hroom e2
  obtain ⟨w2, h2⟩ := Nfts.other_order hw ht hg hl hl' hil h1 (by
    intro p' x q' t hq ht1 d hd
    have hvp' : Nfts.Valid c p' := fun y hy => hl' y (by rw [hq]; simp [hy])
    obtain ⟨m2, _⟩ := Nfts.seq_stakes hw ht hg hm hvp' ht1
    refine ⟨_, m2, ?_⟩
    have ha := acc'
    have hlen := hperm.length_eq
    have hcc := Nfts.calls_concern (b := w.block) hl'
    rw [hq] at ha hlen hcc
    unfold Nfts.calls at ha hlen hcc
    rw [List.filterMap_append, List.filterMap_cons_some hd] at ha hlen hcc
    obtain ⟨a1, a2⟩ := Nfts.allAccepted_append _ ha
    refine ⟨a2.1, ?_⟩
    have hi' : Nft.Inv (Nft.run s (Nfts.calls c w.block p')) := Nft.inv_run hok.good _
    have hcp : ∀ y ∈ Nfts.calls c w.block p', Nft.concerns y ≠ none := fun y hy => (hcc y (List.mem_append_left _ hy)).2
    have ht2 := Nfts.run_total _ hok.good hn hcp a1
    have hk : ∃ z, (Nft.run s (Nfts.calls c w.block p')).nft = .cw721 z :=
      (Nfts.seq_fixed hw ht hg hvp' ht1).1.known _ m2
    obtain ⟨z, hz⟩ := hk
    have ht3 := Nfts.run_total [d] hi' hz (fun y hy => by
      rw [List.mem_singleton] at hy
      subst hy
      exact (hcc y (by simp)).2) ⟨a2.1, trivial⟩
    have hdt := (h.dist hw ht).inv.total
    have hlc := Nfts.calls_length c w.block l
    simp only [List.length_append, List.length_cons, List.length_nil, Nft.run] at hlen ht3
    unfold Nfts.calls at ht2 ht3 hlc ⊢
    unfold M128
    omega)
  obtain ⟨m2, _⟩ := Nfts.seq_stakes hw ht hg hm hl' h2
  exact ⟨w2, h2, Nfts.seq_same hw ht hg hl hl' hil h1 h2, _, _, e1, m2, Nft.sameButIds_iff.2 habs⟩

/-- In a multisig DAO members vote and claim rewards; the order of different members' messages within a block does not matter,
again but for cooldowns. -/
theorem C166_multisig {c : Cfg} (hw : c.Wf) (ht : c.Tame) {w w1 : World} (h : Reachable c w) {m : Members}
    (hm : w.mem = .multisig m) {l l' : List Signed}
    (hl : ∀ x ∈ l, Nfts.whose x ≠ none ∧ c.outsider x.sender) (hl' : ∀ x ∈ l', Nfts.whose x ≠ none ∧ c.outsider x.sender)
    (hil : Nfts.Interleaved l l') (room : w.gov.pollCount + 1 < 2 ^ 64) (h1 : Sequel c w l w1) :
    ∃ w2, Sequel c w l' w2 ∧ Nfts.SameRest w1 w2 ∧ w1.mem = w.mem ∧ w2.mem = w.mem := by
  have hnn : ∀ s, w.mem ≠ .nft s := fun s hs => by rw [hm] at hs; cases hs
  have hg : Nfts.Good c w := ⟨h, fun s' hs' => absurd hs' (hnn s'), room⟩
  obtain ⟨e1, e2⟩ := Nfts.seq_still hw ht hg hnn hl h1
  obtain ⟨w2, h2⟩ := Nfts.other_order hw ht hg hl hl' hil h1 (by
    intro p' x q' t hq _ d hd
    have hx : x ∈ l := Nfts.Interleaved.mem (fun u => (hil u).symm) hl' (by rw [hq]; simp)
    have : d ∈ Nfts.calls c w.block l := List.mem_filterMap.2 ⟨x, hx, hd⟩
    rw [e2] at this
    cases this)
  exact ⟨w2, h2, Nfts.seq_same hw ht hg hl hl' hil h1 h2, e1, (Nfts.seq_still hw ht hg hnn hl' h2).1⟩

/-- Such messages are transactions of the DAO. -/
theorem C166_transactions {c : Cfg} (hw : c.Wf) (ht : c.Tame) {w w1 : World} (h : Reachable c w)
    (hm : (∃ m, w.mem = .multisig m) ∨ ∃ s a, w.mem = .nft s ∧ s.nft = .cw721 a) {l : List Signed}
    (hl : ∀ x ∈ l, Nfts.whose x ≠ none ∧ c.outsider x.sender) (room : w.gov.pollCount + 1 < 2 ^ 64) (h1 : Sequel c w l w1) :
    Later c w w1 ∧ w1.block = w.block := by
  have hk : Nfts.Known w.mem := by
    intro s' hs'
    rcases hm with ⟨m, hm⟩ | ⟨s, a, hm, ha⟩
    · rw [hm] at hs'; cases hs'
    · rw [hm] at hs'; cases hs'; exact ⟨a, ha⟩
  have hg : Nfts.Good c w := ⟨h, hk, room⟩
  have key : ∀ {l : List Signed} {w0 w w1 : World}, Nfts.Good c w → Nfts.Valid c l → Later c w0 w → Sequel c w l w1 →
      Later c w0 w1 := by
    intro l
    induction l with
    | nil => intro w0 w w1 h hv h0 hs; cases hs; exact h0
    | cons x l ih =>
      intro w0 w w1 h hv h0 hs
      cases hs with
      | cons h1 h2 =>
        obtain ⟨hx, ho⟩ := hv x (by simp)
        obtain ⟨u, hu⟩ := Option.ne_none_iff_exists'.1 hx
        obtain ⟨d, r1, f1⟩ := Nfts.one_step hw ht h hu ho h1
        exact ih r1 (fun y hy => hv y (by simp [hy])) (.tx h0 ho (d.exec h.room h1)) h2
  exact ⟨key hg hl .refl h1, ((Nfts.seq_fixed hw ht hg hl h1).2.rest.2.1).symm⟩

theorem Nfts.interleaved_swap {x y : Signed} (h : whose x ≠ whose y) (l : List Signed) :
    Interleaved (x :: y :: l) (y :: x :: l) := by
  intro u
  by_cases hx : whose x = some u
  · have hy : whose y ≠ some u := fun hy => h (hx.trans hy.symm)
    simp [hx, hy]
  · by_cases hy : whose y = some u <;> simp [hx, hy]

/-- Users 10 and 11 hold three and one NFTs, and user 10 has made a proposal. -/
def collectionVoting : List Step :=
  [.tx sampleExt 25 (.mem (.nft (.receiveNft 5 (.stake 10)))), .tx sampleExt 25 (.mem (.nft (.receiveNft 6 (.stake 10)))),
    .tx sampleExt 25 (.mem (.nft (.receiveNft 7 (.stake 10)))), .tx sampleExt 25 (.mem (.nft (.receiveNft 8 (.stake 11)))), at_ 2,
    .tx sampleExt 10 (.ctl (.createProposal ⟨0, 0, [.updateMinWeight 5], none⟩ [])), at_ 3]

/-- User 10 votes and unstakes, and for user 11 an NFT is staked. -/
def voteAndStake : List Signed :=
  [⟨sampleExt, 10, .ctl (.castVote 1 .yes)⟩, ⟨sampleExt, 25, .mem (.nft (.receiveNft 9 (.stake 11)))⟩,
    ⟨sampleExt, 10, .mem (.nft (.unstake [6, 5]))⟩, ⟨sampleExt, 11, .ctl (.castVote 1 .no)⟩]

/-- The same with user 11 staking first. -/
def stakeAndVote : List Signed :=
  [⟨sampleExt, 25, .mem (.nft (.receiveNft 9 (.stake 11)))⟩, ⟨sampleExt, 10, .ctl (.castVote 1 .yes)⟩,
    ⟨sampleExt, 10, .mem (.nft (.unstake [6, 5]))⟩, ⟨sampleExt, 11, .ctl (.castVote 1 .no)⟩]

example : ∃ w s w1, Reachable sampleCfg w ∧ w.mem = .nft s ∧ s.nft = .cw721 25 ∧ w.gov.pollCount = 1 ∧
    w.dist.total + w.mem.total .never + voteAndStake.length = 12 ∧
    (∀ x ∈ voteAndStake, Nfts.whose x ≠ none ∧ sampleCfg.outsider x.sender) ∧ Nfts.Interleaved voteAndStake stakeAndVote ∧
    Nfts.Apart voteAndStake ∧ Sequel sampleCfg w voteAndStake w1 ∧ w1.mem.weight 10 = 1 ∧ w1.mem.weight 11 = 2 := by
  obtain ⟨w, hw⟩ : ∃ w, runAll sampleCfg collectionGenesis collectionVoting = some w := by
    have : (runAll sampleCfg collectionGenesis collectionVoting).isSome = true := by decide +kernel
    exact Option.isSome_iff_exists.1 this
  have hw' : w = (runAll sampleCfg collectionGenesis collectionVoting).getD collectionGenesis := by rw [hw]; rfl
  have hr := runAll_reachable collectionVoting (.init collection_genesis) hw
  have hm : ∃ s, w.mem = .nft s ∧ s.nft = .cw721 25 := by
    rw [hw']
    exact ⟨_, rfl, by decide +kernel⟩
  obtain ⟨s, hm, hs⟩ := hm
  obtain ⟨w1, h1⟩ : ∃ w1, inTurn sampleCfg w voteAndStake = some w1 := by
    have : (inTurn sampleCfg w voteAndStake).isSome = true := by rw [hw']; decide +kernel
    exact Option.isSome_iff_exists.1 this
  have hw1 : w1 = (inTurn sampleCfg ((runAll sampleCfg collectionGenesis collectionVoting).getD collectionGenesis)
      voteAndStake).getD collectionGenesis := by rw [← hw', h1]; rfl
  refine ⟨w, s, w1, hr, hm, hs, by rw [hw']; decide +kernel, by rw [hw']; decide +kernel, by decide +kernel,
    Nfts.interleaved_swap (by decide) _, ?_, inTurn_sequel h1, by rw [hw1]; decide +kernel, by rw [hw1]; decide +kernel⟩
  intro x hx y hy hne t u m h2 h3
  simp only [voteAndStake, List.mem_cons, List.not_mem_nil, or_false] at hx hy
  rcases hx with rfl | rfl | rfl | rfl <;> cases h2
  rcases hy with rfl | rfl | rfl | rfl <;> cases h3
  decide

/-- Votes of members, of the council, and claims of rewards, in a multisig DAO. -/
def multisigMessages : List Signed :=
  [⟨sampleExt, 10, .ctl (.castVote 1 .yes)⟩, ⟨sampleExt, 11, .ctl (.castVote 1 .no)⟩, ⟨sampleExt, 10, .dist (.claim 10 [5] [])⟩]

example : ∃ w m w1, Reachable sampleCfg w ∧ w.mem = .multisig m ∧ w.gov.pollCount = 1 ∧
    (∀ x ∈ multisigMessages, Nfts.whose x ≠ none ∧ sampleCfg.outsider x.sender) ∧
    Nfts.Interleaved multisigMessages [⟨sampleExt, 11, .ctl (.castVote 1 .no)⟩, ⟨sampleExt, 10, .ctl (.castVote 1 .yes)⟩,
      ⟨sampleExt, 10, .dist (.claim 10 [5] [])⟩] ∧
    Sequel sampleCfg w multisigMessages w1 := by
  obtain ⟨w, hw⟩ : ∃ w, runAll sampleCfg multisigGenesis (multisigVoted.take 3) = some w := by
    have : (runAll sampleCfg multisigGenesis (multisigVoted.take 3)).isSome = true := by decide +kernel
    exact Option.isSome_iff_exists.1 this
  have hw' : w = (runAll sampleCfg multisigGenesis (multisigVoted.take 3)).getD multisigGenesis := by rw [hw]; rfl
  have hr := runAll_reachable _ (.init multisig_genesis) hw
  have hm : ∃ m, w.mem = .multisig m := by
    rw [hw']
    exact ⟨_, rfl⟩
  obtain ⟨m, hm⟩ := hm
  obtain ⟨w1, h1⟩ : ∃ w1, inTurn sampleCfg w multisigMessages = some w1 := by
    have : (inTurn sampleCfg w multisigMessages).isSome = true := by rw [hw']; decide +kernel
    exact Option.isSome_iff_exists.1 this
  exact ⟨w, m, w1, hr, hm, by rw [hw']; decide +kernel, by decide +kernel, Nfts.interleaved_swap (by decide) _,
    inTurn_sequel h1⟩

end Verif.Dao
