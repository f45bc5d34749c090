import Verif.Dao.Lemmas6

/-!
# The contracts of a DAO together: the unlocking period and the vote duration
-/

set_option linter.unusedSimpArgs false

namespace Verif.Dao
open Verif
open Verif.Controller (Info Sub Action)
open Verif.Staking (Duration)

/-! ### Specification -/

/-- The unlocking period of the membership contract; multisigs have none. -/
def Member.unlocking : Member → Option Duration
  | .staking _ s => some s.unlocking
  | .nft s => some s.unlocking
  | .multisig _ => none

/-- The unlocking period that a message to a membership contract asks for. -/
def MemberMsg.period : MemberMsg → Option Duration
  | .staking (.updateUnlocking p) => p
  | .nft (.updateUnlocking p) => p
  | _ => none

/-- A vote of `d` seconds is over when the period `p` is; nothing is asked of periods in blocks. -/
def Within (d : Nat) : Duration → Prop
  | .time n => d ≤ n
  | .height _ => True

instance (d : Nat) (p : Duration) : Decidable (Within d p) := by unfold Within; cases p <;> infer_instance

/-- The vote duration of the DAO is at most its unlocking period. -/
def Covers (w : World) : Prop := ∀ p, w.mem.unlocking = some p → Within w.ctl.config.voteDuration p

/-- No action changes the vote duration. -/
def Keeps (l : List Action) : Prop := ∀ ch, Action.updateGovConfig ch ∈ l → ch.voteDuration = none

/-- No proposal changes the vote duration. -/
def KeepsAll (w : World) : Prop := ∀ id i, w.ctl.infos.get id = some i → Keeps i.actions

/-- Custom messages of proposals do not set the unlocking period of the membership contract behind the controller's back. -/
def Cfg.NoPeriod (c : Cfg) : Prop := ∀ n m, c.decode n = some (some (.mem m)) → m.period = none

/-! ### Membership contracts -/

theorem staking_period {k : Staking.Kind} {s : Staking.State} (hi : Staking.Inv s) {e : Env} {m : Staking.Msg}
    {r : Staking.State × List Out} (h : Staking.exec k s e m = .ok r) :
    r.1.unlocking = s.unlocking ∨ (e.sender = e.controller ∧ m = .updateUnlocking (some r.1.unlocking)) := by
  cases m with
  | receive a hk =>
    simp only [Staking.exec, ite_ok_iff] at h
    split at h
    · unfold Staking.receive at h
      rw [ite_ok_iff] at h
      obtain ⟨_, h⟩ := h
      left
      cases hk with
      | stake u => obtain ⟨_, _, _, rfl⟩ := Staking.stakeFor_ok_iff.1 h; rfl
      | addStakes l =>
        simp only [Staking.addStakes, bind_ok_iff, ite_ok_iff, pure_ok_iff] at h
        obtain ⟨_, _, _, _, _, rfl⟩ := h
        rfl
      | addClaims l =>
        simp only [Staking.addTokenClaims, bind_ok_iff, ite_ok_iff, pure_ok_iff] at h
        obtain ⟨y, h1, _, rfl⟩ := h
        exact (Staking.addClaims_loop l h1).2.2.2.1.2.2
      | unknown => cases h
    · cases h
  | stakeDenom f u =>
    simp only [Staking.exec, ite_ok_iff] at h
    split at h
    · unfold Staking.stakeDenom at h
      split at h
      · rw [ite_ok_iff] at h
        obtain ⟨_, _, _, rfl⟩ := Staking.stakeFor_ok_iff.1 h.2
        exact Or.inl rfl
      · cases h
    · cases h
  | unstake a => obtain ⟨_, _, _, rfl⟩ := Staking.unstake_ok_iff.1 h; exact Or.inl rfl
  | claim u => obtain ⟨_, _, rfl⟩ := (Staking.claim_ok_iff hi).1 h; exact Or.inl rfl
  | updateUnlocking p =>
    obtain ⟨h1, rfl⟩ := Staking.updateUnlocking_ok_iff.1 h
    cases p with
    | none => exact Or.inl rfl
    | some d => exact Or.inr ⟨h1, rfl⟩
  | addHook x =>
    simp only [Staking.exec, bind_ok_iff, pure_ok_iff] at h
    obtain ⟨_, _, rfl⟩ := h
    exact Or.inl rfl
  | removeHook x =>
    simp only [Staking.exec, bind_ok_iff, pure_ok_iff] at h
    obtain ⟨_, _, rfl⟩ := h
    exact Or.inl rfl

theorem nft_period {s : Nft.State} (hi : Nft.Inv s) {e : Nft.NEnv} {m : Nft.Msg}
    {r : Nft.State × List Out} (h : Nft.exec s e m = .ok r) :
    r.1.unlocking = s.unlocking ∨ (e.env.sender = e.env.controller ∧ m = .updateUnlocking (some r.1.unlocking)) := by
  cases m with
  | receiveNft t hk =>
    change Nft.receiveNft s e t hk = _ at h
    unfold Nft.receiveNft at h
    split at h
    · cases h
    · rw [ite_ok_iff] at h
      obtain ⟨_, h⟩ := h
      left
      cases hk with
      | stake u => obtain ⟨_, _, _, _, rfl⟩ := Nft.stakeNft_ok_iff.1 h; rfl
      | addClaim u d => obtain ⟨_, rfl⟩ := Nft.addNftClaim_ok_iff.1 h; rfl
      | unknown => cases h
  | unstake a => obtain ⟨_, _, _, _, _, rfl⟩ := Nft.unstake_ok_iff.1 h; exact Or.inl rfl
  | claim u => obtain ⟨_, _, rfl⟩ := (Nft.claim_ok_iff hi).1 h; exact Or.inl rfl
  | updateUnlocking p =>
    obtain ⟨h1, rfl⟩ := Nft.updateUnlocking_ok_iff.1 h
    cases p with
    | none => exact Or.inl rfl
    | some d => exact Or.inr ⟨h1, rfl⟩
  | addHook x =>
    simp only [Nft.exec, bind_ok_iff, pure_ok_iff] at h
    obtain ⟨_, _, rfl⟩ := h
    exact Or.inl rfl
  | removeHook x =>
    simp only [Nft.exec, bind_ok_iff, pure_ok_iff] at h
    obtain ⟨_, _, rfl⟩ := h
    exact Or.inl rfl

/-- Only the controller changes the unlocking period, with a message that asks for the new one. -/
theorem Member.exec_period {x : Member} (hx : x.Good) {e : Nft.NEnv} {m : MemberMsg} {r : Member × List Out}
    (h : x.exec e m = .ok r) :
    r.1.unlocking = x.unlocking ∨ (e.env.sender = e.env.controller ∧ m.period = r.1.unlocking) := by
  unfold Member.exec at h
  split at h
  · simp only [bind_ok_iff, pure_ok_iff] at h
    obtain ⟨y, h1, rfl⟩ := h
    rcases staking_period hx h1 with h2 | ⟨h2, rfl⟩
    · exact Or.inl (congrArg some h2)
    · exact Or.inr ⟨h2, rfl⟩
  · simp only [bind_ok_iff, pure_ok_iff] at h
    obtain ⟨y, h1, rfl⟩ := h
    rcases nft_period hx h1 with h2 | ⟨h2, rfl⟩
    · exact Or.inl (congrArg some h2)
    · exact Or.inr ⟨h2, rfl⟩
  · simp only [bind_ok_iff, pure_ok_iff] at h
    obtain ⟨y, h1, rfl⟩ := h
    exact Or.inl rfl
  · cases h

theorem deliver_mem {c : Cfg} {e : Ext} {a : Addr} : ∀ (outs : List Out) {w : World} {r : World × List Item},
    deliver c e a w outs = .ok r → r.1.mem = w.mem := by
  intro outs
  induction outs with
  | nil => intro w r h; cases h; rfl
  | cons o t ih =>
    intro w r h
    cases o with
    | pay x y => cases h; rfl
    | sendNft x y => cases h; rfl
    | notify x l =>
      unfold deliver at h
      split at h
      · simp only [bind_ok_iff] at h
        obtain ⟨r1, _, d, _, h2⟩ := h
        exact (ih h2).trans rfl
      · cases h; rfl

/-! ### The controller -/

theorem act_period {e : Controller.Env} {s : Controller.State} {a : Action} {r : Controller.State × List Sub}
    (hk : Keeps [a]) (h : Controller.act e s a = .ok r) :
    r.1.config.voteDuration = s.config.voteDuration ∧ ∀ d, Sub.unlocking d ∈ r.2 → Within s.config.voteDuration d := by
  cases a with
  | updateGovConfig ch =>
    simp only [Controller.act] at h
    obtain ⟨_, h1, rfl⟩ := Controller.updateGovConfig_ok_iff.1 h
    have hch := hk ch (List.mem_singleton.2 rfl)
    have hv : (Controller.applyChange s.config ch).voteDuration = s.config.voteDuration := by
      unfold Controller.applyChange; rw [hch]; rfl
    refine ⟨hv, fun d hd => ?_⟩
    cases hu : ch.unlocking with
    | none => rw [hu] at hd; cases hd
    | some p =>
      rw [hu] at hd
      simp only at hd
      unfold Controller.unlockingSubs at hd
      have hdp : d = p := by
        cases ht : e.daoType <;> rw [ht] at hd <;> simp only [List.mem_singleton, List.not_mem_nil, Sub.unlocking.injEq] at hd <;>
          exact hd
      subst hdp
      cases d with
      | time n => rw [← hv]; exact h1 n hu
      | height n => trivial
  | updateCouncil c =>
    simp only [Controller.act] at h
    obtain ⟨_, rfl⟩ := Controller.updateCouncil_ok_iff.1 h
    exact ⟨rfl, fun d hd => (by simp at hd)⟩
  | upgradeDao v =>
    simp only [Controller.act, bind_ok_iff, pure_ok_iff] at h
    obtain ⟨_, _, rfl⟩ := h
    exact ⟨rfl, fun d hd => (by simp at hd)⟩
  | executeMsgs l =>
    simp only [Controller.act, bind_ok_iff, pure_ok_iff] at h
    obtain ⟨subs, h1, rfl⟩ := h
    refine ⟨rfl, fun d hd => ?_⟩
    unfold Controller.customSubs at h1
    split at h1
    · cases h1
      obtain ⟨n, _, hn⟩ := List.mem_map.1 hd
      cases hn
    · cases h1
  | modifyMultisig l =>
    simp only [Controller.act, bind_ok_iff, pure_ok_iff] at h
    obtain ⟨_, _, rfl⟩ := h
    exact ⟨rfl, fun d hd => (by simp at hd)⟩
  | _ => cases h; exact ⟨rfl, fun d hd => (by simp [Controller.treasuryMsg] at hd)⟩

theorem actAll_period {e : Controller.Env} : ∀ (l : List Action) {s : Controller.State}
    {r : Controller.State × List Sub}, Keeps l → Controller.actAll e s l = .ok r →
    r.1.config.voteDuration = s.config.voteDuration ∧ ∀ d, Sub.unlocking d ∈ r.2 → Within s.config.voteDuration d := by
  intro l
  induction l with
  | nil => intro s r _ h; cases h; exact ⟨rfl, fun d hd => (by cases hd)⟩
  | cons a t ih =>
    intro s r hk h
    simp only [Controller.actAll, bind_ok_iff, pure_ok_iff] at h
    obtain ⟨r1, h1, r2, h2, rfl⟩ := h
    obtain ⟨a1, a2⟩ := act_period (fun ch hch => hk ch (by rw [List.mem_singleton.1 hch]; exact List.mem_cons_self)) h1
    obtain ⟨b1, b2⟩ := ih (fun ch hch => hk ch (List.mem_cons_of_mem _ hch)) h2
    refine ⟨b1.trans a1, fun d hd => ?_⟩
    rcases List.mem_append.1 hd with hd | hd
    · exact a2 d hd
    · rw [← a1]; exact b2 d hd

theorem ctl_period {e : Controller.Env} {u : Addr} {s : Controller.State} {g : Gov.State}
    {m : Controller.Msg} {r : Controller.State × Gov.State × List Sub} (h : Controller.exec e u s g m = .ok r)
    (hk : ∀ id i, m = .executeActions id → s.infos.get id = some i → Keeps i.actions) :
    r.1.config.voteDuration = s.config.voteDuration ∧ ∀ d, Sub.unlocking d ∈ r.2.2 → Within s.config.voteDuration d := by
  have hcreate : m.isCreate = true → ∀ d, Sub.unlocking d ∈ r.2.2 → Within s.config.voteDuration d := by
    intro hm d hd
    obtain ⟨_, _, _, h1⟩ := Controller.created_exec hm h
    obtain ⟨_, _, hn⟩ := h1 _ hd
    cases hn
  have hcfg : (∀ id, m ≠ .executeActions id) → r.1.config.voteDuration = s.config.voteDuration := by
    intro hm
    rcases ctl_ruled h with ⟨h1, _⟩ | ⟨id, _, h1, _⟩
    · rw [h1]
    · exact absurd h1 (hm id)
  cases m with
  | createProposal p f => exact ⟨hcfg (fun _ => nofun), hcreate rfl⟩
  | createWithNft p l => exact ⟨hcfg (fun _ => nofun), hcreate rfl⟩
  | createCouncil p => exact ⟨hcfg (fun _ => nofun), hcreate rfl⟩
  | receive f a p => exact ⟨hcfg (fun _ => nofun), hcreate rfl⟩
  | castVote id o =>
    refine ⟨hcfg (fun _ => nofun), ?_⟩
    simp only [Controller.exec, bind_ok_iff, pure_ok_iff] at h
    obtain ⟨r1, h1, rfl⟩ := h
    intro d hd; cases hd
  | castCouncilVote id o =>
    refine ⟨hcfg (fun _ => nofun), ?_⟩
    simp only [Controller.exec, bind_ok_iff, pure_ok_iff] at h
    obtain ⟨r1, h1, rfl⟩ := h
    intro d hd; cases hd
  | execute id =>
    refine ⟨hcfg (fun _ => nofun), ?_⟩
    simp only [Controller.exec] at h
    obtain ⟨_, inf, p, _, _, _, _, _, _, _, rfl⟩ := Controller.executeProposal_ok_iff.1 h
    have hdep : ∀ (id : Nat) (a : Controller.DepositAsset) (dst : Addr) (d : Duration),
        Sub.unlocking d ∉ Controller.sendDeposit id a dst := by
      intro id a dst d hd
      unfold Controller.sendDeposit at hd
      obtain ⟨y, _, hy⟩ := List.mem_map.1 hd
      cases hy
    have hret : ∀ d, Sub.unlocking d ∉ Controller.returnDeposit id inf := by
      intro d hd
      unfold Controller.returnDeposit at hd
      split at hd
      · exact hdep _ _ _ _ hd
      · cases hd
    intro d hd
    exfalso
    simp only at hd
    unfold Controller.outcomeSubs at hd
    split at hd
    · rcases List.mem_cons.1 hd with hd | hd
      · cases hd
      · exact hret d hd
    · unfold Controller.rejectedDeposit at hd
      split at hd
      · cases hd
      · split at hd
        · split at hd
          · exact hdep _ _ _ d hd
          · cases hd
        · exact hret d hd
    · cases hd
  | weightsChanged l =>
    refine ⟨hcfg (fun _ => nofun), ?_⟩
    simp only [Controller.exec, bind_ok_iff, pure_ok_iff] at h
    obtain ⟨r1, h1, rfl⟩ := h
    rcases Controller.weightsChanged_ok_iff.1 h1 with ⟨_, rfl⟩ | ⟨_, _, _, h2⟩
    · intro d hd; cases hd
    · intro d hd
      simp only [h2, List.mem_singleton] at hd
      cases hd
  | executeActions id =>
    simp only [Controller.exec, bind_ok_iff, pure_ok_iff] at h
    obtain ⟨r1, h1, rfl⟩ := h
    obtain ⟨_, i, hi, h2⟩ := Controller.executeActions_ok_iff.1 h1
    exact actAll_period _ (hk id i rfl hi) h2
  | deployInitial =>
    refine ⟨hcfg (fun _ => nofun), ?_⟩
    simp only [Controller.exec, bind_ok_iff, pure_ok_iff] at h
    obtain ⟨r1, h1, rfl⟩ := h
    obtain ⟨_, _, rfl⟩ := Controller.deployInitial_ok_iff.1 h1
    intro d hd
    obtain ⟨y, _, hy⟩ := List.mem_map.1 hd
    cases hy

/-! ### Executions -/

/-- Messages on their way that ask for an unlocking period ask for one that covers votes of `d` seconds. -/
def Pending (c : Cfg) (d : Nat) (l : List Item) : Prop :=
  ∀ m p, Item.call c.self (.mem m) ∈ l → m.period = some p → Within d p

theorem Pending.tail {c : Cfg} {d : Nat} {i : Item} {l : List Item} (h : Pending c d (i :: l)) : Pending c d l :=
  fun m p hm hp => h m p (List.mem_cons_of_mem _ hm) hp

theorem Pending.calls {c : Cfg} {d : Nat} {l : List Item} (h : Calls c l) : Pending c d l := by
  intro m p hm _
  obtain ⟨a, m', h1, h2⟩ := h _ hm
  cases h1
  exact absurd rfl h2.1

theorem Pending.others {c : Cfg} {d : Nat} {l : List Item} (h : ∀ i ∈ l, i = .other) : Pending c d l := by
  intro m p hm _
  cases h _ hm

theorem KeepsAll.before {w w' : World} (h : KeepsAll w') (hm : CtlStep w.ctl w'.ctl w.gov w'.gov) : KeepsAll w := by
  intro id i hi
  obtain ⟨i', a1, _, _, a2, _⟩ := hm.infos id i hi
  rw [← a2]
  exact h id i' a1

/-- One message. -/
theorem handle_period {c : Cfg} (hn : c.NoPeriod) {e : Ext} {w w1 : World} {a : Addr} {m : Msg} {subs : List Item}
    (hb : Base c w) (hr : handle c e w a m = .ok (w1, subs)) (hh : Handled c w a m w1 subs) (hk : KeepsAll w)
    (hc : Covers w) (hp : ∀ m' p, a = c.self → m = .mem m' → m'.period = some p → Within w.ctl.config.voteDuration p) :
    w1.ctl.config.voteDuration = w.ctl.config.voteDuration ∧ Covers w1 ∧ Pending c w.ctl.config.voteDuration subs := by
  cases m with
  | ctl m =>
    obtain ⟨r, hx⟩ := handle_ctl hr
    have h1 := hx.world
    have h2 := hx.subs
    simp only at h1 h2
    obtain ⟨k1, k2⟩ := ctl_period hx.exec (fun id i _ hi => hk id i hi)
    subst h1 h2
    refine ⟨k1, fun p hp => ?_, fun m' p hm hp => ?_⟩
    · show Within r.1.config.voteDuration p
      rw [k1]; exact hc p hp
    · obtain ⟨s, hs, he⟩ := List.mem_map.1 hm
      cases s with
      | unlocking d =>
        simp only [toItem, Item.call.injEq, Msg.mem.injEq, true_and] at he
        subst he
        have : p = d := by
          cases hw : w.mem <;> rw [hw] at hp <;> cases hp <;> rfl
        subst this
        exact k2 _ hs
      | members l =>
        simp only [toItem, Item.call.injEq, Msg.mem.injEq, true_and] at he
        subst he
        cases hp
      | custom n =>
        simp only [toItem] at he
        split at he
        · rename_i m'' hd
          cases he
          rw [hn n m' hd] at hp
          cases hp
        · cases he
      | _ => cases he
  | mem m =>
    rcases hh.kind with ⟨_, _, _, h, _⟩ | ⟨_, h1, _, h3⟩
    · cases h
    simp only [handle, bind_ok_iff] at hr
    obtain ⟨x, hx, hd⟩ := hr
    have hm : w1.mem = x.1 := deliver_mem _ hd
    refine ⟨by rw [h1], fun p hp' => ?_, Pending.others h3⟩
    rw [h1]
    rw [hm] at hp'
    rcases Member.exec_period hb.mem.good hx with h4 | ⟨h4, h5⟩
    · rw [h4] at hp'; exact hc p hp'
    · exact hp m p h4 rfl (h5.trans hp')
  | gov m =>
    rcases hh.kind with ⟨_, _, _, h, _⟩ | ⟨_, h1, _, h3⟩
    · cases h
    simp only [handle, bind_ok_iff, pure_ok_iff] at hr
    obtain ⟨x, hx, hd⟩ := hr
    cases hd
    exact ⟨rfl, hc, Pending.others h3⟩
  | dist m =>
    rcases hh.kind with ⟨_, _, _, h, _⟩ | ⟨_, h1, _, h3⟩
    · cases h
    simp only [handle, bind_ok_iff, pure_ok_iff] at hr
    obtain ⟨x, hx, hd⟩ := hr
    cases hd
    exact ⟨rfl, hc, Pending.others h3⟩
  | council m =>
    rcases hh.kind with ⟨_, _, _, h, _⟩ | ⟨_, h1, _, h3⟩
    · cases h
    simp only [handle, bind_ok_iff] at hr
    obtain ⟨x, hx, hd⟩ := hr
    have hm : w1.mem = w.mem := deliver_mem _ hd
    refine ⟨by rw [h1], fun p hp' => ?_, Pending.others h3⟩
    rw [h1]
    rw [hm] at hp'
    exact hc p hp'

/-- The claim of the induction. -/
def Kept (c : Cfg) (w : World) (l : List Item) (w' : World) : Prop :=
  KeepsAll w' → Covers w → Pending c w.ctl.config.voteDuration l →
    w'.ctl.config.voteDuration = w.ctl.config.voteDuration ∧ Covers w'

theorem kept_cases {c : Cfg} (hn : c.NoPeriod) : Cases c (Kept c) := by
  refine ⟨fun w _ _ h _ => ⟨rfl, h⟩, ?_, ?_, fun _ _ _ _ _ _ h h1 h2 h3 => h h1 h2 h3.tail, ?_, ?_⟩
  · intro w w1 w2 w3 a m subs rest e hb b2 b3 m2 m3 hk room hr hh p2 p3 hka hc hp
    have k2 := hka.before m3.step
    have k1 := k2.before m2.step
    obtain ⟨v1, c1, q1⟩ := handle_period hn hb hr hh (k1.before hh.step) hc (fun m' p ha hm hpp =>
      hp m' p (by rw [ha, hm]; exact List.mem_cons_self) hpp)
    obtain ⟨v2, c2⟩ := p2 k2 c1 (by rw [v1]; exact q1)
    obtain ⟨v3, c3⟩ := p3 hka c2 (by rw [v2, v1]; exact hp.tail)
    exact ⟨v3.trans (v2.trans v1), c3⟩
  · intro w w1 w2 w3 id subs rest e hb b2 b3 m2 m3 room hr hh p2 p3 hka hc hp
    have k2 := hka.before m3.step
    have k1 := k2.before m2.step
    obtain ⟨v1, c1, q1⟩ := handle_period hn hb hr hh (k1.before hh.step) hc (fun m' p ha hm hpp => (by cases hm))
    obtain ⟨v2, c2⟩ := p2 k2 c1 (by rw [v1]; exact q1)
    obtain ⟨v3, c3⟩ := p3 hka c2 (by rw [v2, v1]; exact hp.tail)
    exact ⟨v3.trans (v2.trans v1), c3⟩
  · intro w w1 w2 id t calls rest hb b1 b2 hcl m1 m2 p1 p2 hka hc hp
    obtain ⟨v1, c1⟩ := p1 (hka.before m2.step) hc (Pending.calls hcl)
    obtain ⟨v2, c2⟩ := p2 hka c1 (by rw [v1]; exact hp.tail)
    exact ⟨v2.trans v1, c2⟩
  · intro w w1 w2 calls rest hb b1 b2 hcl m1 m2 p1 p2 hka hc hp
    obtain ⟨v1, c1⟩ := p1 (hka.before m2.step) hc (Pending.calls hcl)
    obtain ⟨v2, c2⟩ := p2 hka c1 (by rw [v1]; exact hp.tail)
    exact ⟨v2.trans v1, c2⟩

theorem Later.kept {c : Cfg} (hw : c.Wf) (ht : c.Tame) (hn : c.NoPeriod) {w w' : World} (hr : Reachable c w)
    (h : Later c w w') : KeepsAll w' → Covers w →
      w'.ctl.config.voteDuration = w.ctl.config.voteDuration ∧ Covers w' := by
  induction h with
  | refl => exact fun _ hc => ⟨rfl, hc⟩
  | tx h ha hx ih =>
    intro hk hc
    have hr1 := h.reachable hr
    obtain ⟨_, hm, hl⟩ := hx.induct hw ht (kept_cases hn)
      (fun i hi => by rw [List.mem_singleton.1 hi]; exact Or.inl ha) (hr1.base hw ht)
    obtain ⟨v1, c1⟩ := ih (hk.before hm.step) hc
    obtain ⟨v2, c2⟩ := hl hk c1 (Pending.calls (fun i hi => ⟨_, _, List.mem_singleton.1 hi, ha⟩))
    exact ⟨v2.trans v1, c2⟩
  | block _ _ _ ih => exact ih

end Verif.Dao
