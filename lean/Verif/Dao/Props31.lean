import Verif.Dao.Props19
import Verif.Dao.SimTrace
import Verif.Outposts.Props

/-!
# The contracts of a DAO together: what is done on other chains (C156)

The outposts contract, which acts on other chains through proxies, gets messages from the controller of a DAO and from anybody
else.
-/

set_option linter.unusedSimpArgs false

namespace Verif.Dao
open Verif
open Verif.Controller (Action Info Sub Does DoesAll)

/-! ### Specification -/

/-- How the controller's messages name chains and deployments, how messages to a treasury are written, and which custom messages
are messages to the outposts contract: enterprise-governance-controller contract.rs 1045-1075, 1091-1100,
1196-1207 and 1239-1247. The inverse of the opaque numbers in the model of the controller. -/
structure Route where
  spec : Nat → Outposts.Spec
  body : Treasury.Msg → Nat
  deployment : Nat → Outposts.Deploy
  custom : Nat → Option Outposts.Msg

/-- What the controller says to the outposts contract. -/
def Route.says (r : Route) : Sub → Option Outposts.Msg
  | .treasury (some n) m => some (.execTreasury (r.spec n) (r.body m))
  | .deploy d => some (.deploy (r.deployment d))
  | .custom n => r.custom n
  | _ => none

/-- All that the controller said to the outposts contract, according to the record. -/
def Route.said (r : Route) (c : Cfg) (t : List Entry) : List Outposts.Msg := (t.flatMap (told c)).filterMap r.says

/-- The messages that the outposts contract got are those that the controller of the DAO sent, in order, and any messages
from others; and the enterprise contract names that controller. -/
structure Joint (r : Route) (c : Cfg) (t : List Entry) (l : List Outposts.Call) : Prop where
  heard : ((l.filter (fun x => decide (x.sender = c.self))).map (·.msg)).Sublist (r.said c t)
  controller : ∀ x ∈ l, ∀ k, x.env.controller = some k → k = c.self

/-- The action asks for the message, where deployments count too. -/
def Wants (a : Action) (s : Sub) : Prop := Asks a s ∨ ∃ n, a = .deployTreasury n ∧ s = .deploy n

/-- Between `w` and `w'` the actions of a proposal that passed were run, for the only time, and one of them asks for the
message. A general proposal was backed by the members. A council proposal changes whitelists or metadata, upgrades, or deploys
a treasury. -/
def Approved (c : Cfg) (w w' : World) (s : Sub) : Prop :=
  ∃ id i a, w'.ctl.infos.get id = some i ∧ a ∈ i.actions ∧ Wants a s ∧ ranCount w id = 0 ∧ ranCount w' id = 1 ∧
    ((i.type = .general ∧ ∃ v p, Gov.queryPoll w'.gov id = .ok p ∧ Was c v w' ∧ Backed v w' id p) ∨
      (i.type = .council ∧ (Modest s ∨ ∃ n, s = .deploy n)))

/-- The reason for a message: a passed proposal, or it deploys one of the treasuries that were listed when the DAO was
created and that have not been deployed. -/
def Grounds (c : Cfg) (w w' : World) (s : Sub) : Prop :=
  Approved c w w' s ∨ ∃ n l, s = .deploy n ∧ w.ctl.treasuries = some l ∧ n ∈ l

/-- The message to another chain takes message `k` to a treasury there. -/
def takes (k : Nat) (o : Outposts.Out) : Bool :=
  match o.act with
  | .run _ m => decide (m = k)
  | _ => false

/-- The message to the outposts contract asks for that. -/
def commands (k : Nat) : Outposts.Msg → Bool
  | .execTreasury _ m => decide (m = k)
  | _ => false

/-! ### Lemmas -/

theorem does_deploy {e : Controller.Env} {s s' : Controller.State} {a : Action} {subs : List Sub}
    (h : Does e s a s' subs) {n : Nat} (hx : .deploy n ∈ subs) : a = .deployTreasury n := by
  cases h with
  | config _ _ _ => cases hx
  | configMultisig _ _ _ _ _ => cases hx
  | msgs _ =>
    obtain ⟨_, _, h⟩ := List.mem_map.1 hx
    cases h
  | _ =>
    have := List.mem_singleton.1 hx
    cases this
    try rfl

/-- Treasuries are deployed by the run of actions and by the message that deploys those listed at the creation. -/
theorem deploy_run {e : Controller.Env} {u : Addr} {s : Controller.State} {g : Gov.State} {m : Controller.Msg}
    {r : Controller.State × Gov.State × List Sub} (h : Controller.exec e u s g m = .ok r) {n : Nat} (hx : .deploy n ∈ r.2.2) :
    (∃ id i, m = .executeActions id ∧ s.infos.get id = some i ∧ .deployTreasury n ∈ i.actions) ∨
    ∃ l, s.treasuries = some l ∧ n ∈ l := by
  have hcreate : m.isCreate = true → False := by
    intro hm
    obtain ⟨_, _, _, hsub⟩ := Controller.created_exec hm h
    obtain ⟨_, _, hh⟩ := hsub _ hx
    cases hh
  cases m with
  | createProposal p f => exact (hcreate rfl).elim
  | createWithNft p l => exact (hcreate rfl).elim
  | createCouncil p => exact (hcreate rfl).elim
  | receive f a p => exact (hcreate rfl).elim
  | castVote j o =>
    simp only [Controller.exec, bind_ok_iff, pure_ok_iff] at h
    obtain ⟨r1, _, rfl⟩ := h
    cases hx
  | castCouncilVote j o =>
    simp only [Controller.exec, bind_ok_iff, pure_ok_iff] at h
    obtain ⟨r1, _, rfl⟩ := h
    cases hx
  | execute j =>
    exfalso
    simp only [Controller.exec] at h
    obtain ⟨_, k, q, _, _, _, _, _, _, _, rfl⟩ := Controller.executeProposal_ok_iff.1 h
    simp only at hx
    have hsend : ∀ {j : Nat} {d : Controller.DepositAsset} {u : Addr}, Sub.deploy n ∉ Controller.sendDeposit j d u := by
      intro j d u hx
      obtain ⟨_, _, hh⟩ := List.mem_map.1 hx
      cases hh
    have hdep : ∀ {j : Nat} {k : Info}, Sub.deploy n ∉ Controller.returnDeposit j k := by
      intro j k hx
      unfold Controller.returnDeposit at hx
      split at hx
      · exact hsend hx
      · cases hx
    unfold Controller.outcomeSubs at hx
    split at hx
    · rcases List.mem_cons.1 hx with hx | hx
      · cases hx
      · exact hdep hx
    · unfold Controller.rejectedDeposit at hx
      split at hx
      · cases hx
      · split at hx
        · split at hx
          · exact hsend hx
          · cases hx
        · exact hdep hx
    · cases hx
  | weightsChanged l =>
    simp only [Controller.exec, bind_ok_iff, pure_ok_iff] at h
    obtain ⟨r1, h1, rfl⟩ := h
    rcases Controller.weightsChanged_ok_iff.1 h1 with ⟨_, rfl⟩ | ⟨_, _, h3, h4⟩
    · cases hx
    · exfalso
      change Sub.deploy n ∈ r1.2 at hx
      rw [h4, List.mem_singleton] at hx
      cases hx
  | executeActions j =>
    obtain ⟨_, _, i, hi, hd⟩ := Controller.C91_actions.1 h
    obtain ⟨a, ha, _, _, _, hdo, hxs⟩ := doesAll_mem hd hx
    exact .inl ⟨j, i, rfl, hi, does_deploy hdo hxs ▸ ha⟩
  | deployInitial =>
    simp only [Controller.exec, bind_ok_iff, pure_ok_iff] at h
    obtain ⟨r1, k1, rfl⟩ := h
    obtain ⟨_, _, rfl⟩ := Controller.deployInitial_ok_iff.1 k1
    obtain ⟨k, hk, hh⟩ := List.mem_map.1 hx
    cases hh
    cases ht : s.treasuries with
    | none => rw [ht] at hk; cases hk
    | some l => rw [ht] at hk; exact .inr ⟨l, rfl, hk⟩

/-- The treasuries that wait to be deployed are those listed from the start, or none. -/
theorem exec_treasuries {e : Controller.Env} {u : Addr} {s : Controller.State} {g : Gov.State} {m : Controller.Msg}
    {r : Controller.State × Gov.State × List Sub} (h : Controller.exec e u s g m = .ok r) {l : List Nat}
    (hl : r.1.treasuries = some l) : s.treasuries = some l := by
  by_cases hm : m = .deployInitial
  · subst hm
    simp only [Controller.exec, bind_ok_iff, pure_ok_iff] at h
    obtain ⟨r1, k1, rfl⟩ := h
    obtain ⟨_, _, rfl⟩ := Controller.deployInitial_ok_iff.1 k1
    cases hl
  · rw [← (Controller.exec_creation h).2 hm]
    exact hl

theorem handle_treasuries {c : Cfg} {w w1 : World} {a : Addr} {m : Msg} {subs : List Item} (h : Handled c w a m w1 subs)
    {l : List Nat} (hl : w1.ctl.treasuries = some l) : w.ctl.treasuries = some l := by
  rcases h.kind with ⟨e, m', r, _, hx⟩ | ⟨_, hc, _⟩
  · rw [hx.world] at hl
    exact exec_treasuries hx.exec hl
  · rw [← hc]
    exact hl

theorem History.treasuries {c : Cfg} (hw : c.Wf) (ht : c.Tame) {w w' : World} {t : List Entry} (hr : Reachable c w)
    (h : History c w w' t) : ∀ x ∈ t, ∀ l, x.world.ctl.treasuries = some l → w.ctl.treasuries = some l := by
  have key := h.induct hw ht (P := fun w w' t => (∀ l, w'.ctl.treasuries = some l → w.ctl.treasuries = some l) ∧
      ∀ x ∈ t, ∀ l, x.world.ctl.treasuries = some l → w.ctl.treasuries = some l)
    (fun w => ⟨fun _ h => h, fun x hx => (by cases hx)⟩) (fun w l => ⟨fun _ h => h, fun x hx => (by cases hx)⟩)
    (fun w b => ⟨fun _ h => h, fun x hx => (by cases hx)⟩) ?_ ?_ hr
  · exact key.2
  · rintro w w1 w2 t t' ⟨s1, c1⟩ ⟨s2, c2⟩
    refine ⟨fun l hl => s1 l (s2 l hl), fun x hx l hl => ?_⟩
    rcases List.mem_append.1 hx with hx | hx
    · exact c1 x hx l hl
    · exact s1 l (c2 x hx l hl)
  · intro w w1 a m subs e _ _ _ hh
    refine ⟨fun l hl => handle_treasuries hh hl, fun x hx l hl => ?_⟩
    rw [List.mem_singleton.1 hx] at hl
    exact hl

/-- Each deployment on record was asked for by a proposal, or was listed from the start. -/
theorem deploy_grounds {c : Cfg} (hw : c.Wf) (ht : c.Tame) {w w' : World} {t : List Entry} (hr : Reachable c w)
    (h : History c w w' t) {x : Entry} (hx : x ∈ t) {n : Nat} (hs : .deploy n ∈ told c x) : Grounds c w w' (.deploy n) := by
  have hr' := h.later.reachable hr
  unfold told at hs
  split at hs
  · rename_i m hm
    split at hs
    · rename_i r hex
      rcases deploy_run hex hs with ⟨id, j, rfl, hj, ha⟩ | ⟨l, hl, hn⟩
      · obtain ⟨_, id', i', o, n', h1, h2, h3, h4, h5⟩ := C130_ordered hw ht hr h hx (by rw [hm]; rfl)
        have hid : id' = id := by
          rcases h5 with h5 | ⟨b, _, hb⟩
          · rw [hm] at h5; cases h5; rfl
          · rw [hm] at hb
            cases hb with
            | custom hn hd => exact absurd (ht _ _ hd) (by simp [Msg.tame])
        subst hid
        obtain ⟨i2, k1, k2⟩ := h.carried hw ht hr x hx id' j hj
        rw [h1] at k1; cases k1
        refine .inl ⟨id', i', _, h1, by rw [k2]; exact ha, .inr ⟨n, rfl, rfl⟩, h3, h4, ?_⟩
        cases hty : i'.type with
        | general =>
          obtain ⟨v, p, q1, q2, q3⟩ := C136_backed hw ht hr' h1 hty h2
          exact Or.inl ⟨rfl, v, p, q1, q2, q3⟩
        | council => exact Or.inr ⟨rfl, .inr ⟨n, rfl⟩⟩
      · exact .inr ⟨n, l, rfl, h.treasuries hw ht hr x hx l hl, hn⟩
    · cases hs
  · cases hs

theorem said_grounds {c : Cfg} (hw : c.Wf) (ht : c.Tame) {w w' : World} {t : List Entry} (hr : Reachable c w)
    (h : History c w w' t) {r : Route} {m : Outposts.Msg} (hm : m ∈ r.said c t) :
    ∃ s, r.says s = some m ∧ Grounds c w w' s := by
  obtain ⟨s, hs, hsm⟩ := List.mem_filterMap.1 hm
  obtain ⟨x, hx, hsx⟩ := List.mem_flatMap.1 hs
  refine ⟨s, hsm, ?_⟩
  have horder : Order s → Grounds c w w' s := by
    intro ho
    obtain ⟨id, i, a, _, h1, h2, h3, h4, h5, h6⟩ := C137_orders hw ht hr h hx hsx ho
    refine .inl ⟨id, i, a, h1, h2, .inl h3, h4, h5, ?_⟩
    exact h6.imp (fun h => h) (fun h => ⟨h.1, .inl h.2⟩)
  cases s with
  | deploy n => exact deploy_grounds hw ht hr h hx hsx
  | treasury n b => exact horder (.treasury n b)
  | custom n => exact horder (.custom n)
  | _ => cases hsm

theorem succeeded_sub : ∀ (l : List Outposts.Call) (s : Outposts.State), ∀ x ∈ Outposts.succeeded s l, x ∈ l
  | [], _, _, h => by cases h
  | c :: l, s, x, h => by
    rcases List.mem_append.1 h with h | h
    · split at h
      · rw [List.mem_singleton.1 h]
        exact List.mem_cons_self
      · cases h
    · exact List.mem_cons_of_mem _ (succeeded_sub l _ x h)

theorem sentBy_takes (s : Outposts.State) (c : Outposts.Call) (k : Nat) :
    (Outposts.sentBy s c).countP (takes k) ≤ if c.env.controller = some c.sender ∧ commands k c.msg = true then 1 else 0 := by
  unfold Outposts.sentBy
  cases h : Outposts.exec c.env s c.sender c.msg with
  | error x => simp
  | ok r =>
    simp only
    cases hm : c.msg with
    | deploy d =>
      rw [hm] at h
      obtain ⟨h1, h2, ⟨p, h3, rfl⟩ | ⟨h3, owner, h4, rfl⟩⟩ := Outposts.deploy_ok_iff.1 h
      · simp [takes, Outposts.remoteTreasury, Outposts.toProxy]
      · simp [takes, Outposts.toProxy]
    | execTreasury sp m =>
      rw [hm] at h
      simp only [Outposts.exec, bind_ok_iff, pure_ok_iff] at h
      obtain ⟨x, h1, rfl⟩ := h
      obtain ⟨h2, p, t, hp, ht, rfl⟩ := Outposts.execTreasury_ok_iff.1 h1
      simp only [h2, List.countP_singleton, takes, commands, Outposts.toProxy, true_and]
      exact le_refl _
    | callback id answer =>
      rw [hm] at h
      obtain ⟨cb, a, hcb, hu, rfl, _, ⟨d, hkd, hn, hr⟩ | ⟨sp, hkd, hn, rfl⟩⟩ := Outposts.callback_ok_iff.1 h
      · rw [hr _ rfl]
        simp [takes, Outposts.remoteTreasury, Outposts.toProxy]
      · simp

theorem sent_takes {self : Addr} (k : Nat) : ∀ (l : List Outposts.Call) (s : Outposts.State),
    (∀ x ∈ l, ∀ k, x.env.controller = some k → k = self) →
    (Outposts.sent s l).countP (takes k) ≤ ((l.filter (fun x => decide (x.sender = self))).map (·.msg)).countP (commands k)
  | [], _, _ => le_refl _
  | c :: l, s, h => by
    have ih := sent_takes k l (Outposts.step s c) (fun x hx => h x (List.mem_cons_of_mem _ hx))
    have h1 := sentBy_takes s c k
    unfold Outposts.sent
    rw [List.countP_append, List.filter_cons]
    by_cases hc : c.sender = self
    · rw [if_pos (by simpa using hc), List.map_cons, List.countP_cons]
      by_cases ho : commands k c.msg = true
      · rw [if_pos ho]
        have : (if c.env.controller = some c.sender ∧ commands k c.msg = true then 1 else 0) ≤ 1 := by split <;> omega
        omega
      · rw [if_neg (fun hh => ho hh.2)] at h1
        rw [if_neg ho]
        omega
    · rw [if_neg (by simpa using hc)]
      rw [if_neg (fun hh => hc (h c List.mem_cons_self _ hh.1))] at h1
      omega

/-! ## C156 -/

/-- **Whatever is done on other chains was decided by the DAO.** Each message that goes out to a proxy on another chain carries
out a message of the controller, for which there are grounds: a proposal that passed, or the list of treasuries given when
the DAO was created. Either it takes a message to the treasury that is recorded for the chain, through the recorded proxy,
or it deploys a proxy or a treasury as asked, the treasury with the recorded proxy as its admin. Nobody else, and nothing that
comes back from the other chains, can cause anything else. -/
theorem C156_decided {c : Cfg} (hw : c.Wf) (ht : c.Tame) {w w' : World} {t : List Entry} (hr : Reachable c w)
    (h : History c w w' t) {r : Route} {l : List Outposts.Call} (hj : Joint r c t l) (ent : Addr) {o : Outposts.Out}
    (ho : o ∈ Outposts.sent (Outposts.init ent) l) :
    ∃ s m, r.says s = some m ∧ Grounds c w w' s ∧
      ((∃ sp k tr, m = .execTreasury sp k ∧ o.act = .run tr k ∧
          Outposts.queryDeployments (Outposts.run (Outposts.init ent) l) sp.chain = (some o.proxy, some tr)) ∨
        ∃ d, m = .deploy d ∧ o.proxy = d.globalProxy ∧ ((∃ owner, o.act = .proxy d.proxyCode owner) ∨
          ∃ p, o.act = .treasury d.treasuryCode p d.assets d.nfts ∧
            (Outposts.queryDeployments (Outposts.run (Outposts.init ent) l) d.spec.chain).1 = some p)) := by
  have hsub : ∀ x ∈ Outposts.succeeded (Outposts.init ent) l, x ∈ l := fun x hx => succeeded_sub l _ x hx
  have key : ∀ x ∈ Outposts.succeeded (Outposts.init ent) l, x.env.controller = some x.sender → x.msg ∈ r.said c t := by
    intro x hx hs
    refine hj.heard.mem (List.mem_map.2 ⟨x, List.mem_filter.2 ⟨hsub x hx, ?_⟩, rfl⟩)
    rw [hj.controller x (hsub x hx) _ hs]
    exact decide_eq_true rfl
  cases Outposts.C75_all_sent ent l o ho with
  | proxy x d owner hc hm hs ho ha hp hr1 hr2 =>
    obtain ⟨s, h1, h2⟩ := said_grounds hw ht hr h (key x hc hs)
    rw [hm] at h1
    exact ⟨s, _, h1, h2, .inr ⟨d, rfl, hp, .inl ⟨owner, ha⟩⟩⟩
  | treasury d p hd hp ha hg hr1 hr2 =>
    obtain ⟨x, hx, hm, hs⟩ := hd
    obtain ⟨s, h1, h2⟩ := said_grounds hw ht hr h (key x hx hs)
    rw [hm] at h1
    exact ⟨s, _, h1, h2, .inr ⟨d, rfl, hg, .inr ⟨p, ha, hp⟩⟩⟩
  | run x sp m p tr hc hm hs hp ha hg hr1 hr2 =>
    obtain ⟨s, h1, h2⟩ := said_grounds hw ht hr h (key x hc hs)
    rw [hm] at h1
    exact ⟨s, _, h1, h2, .inl ⟨sp, m, tr, rfl, ha, by rw [hg]; exact hp⟩⟩

/-- And no message is taken to a treasury on another chain more often than the controller sent it: of which C137 says that the
actions of each proposal are run at most once. -/
theorem C156_once {c : Cfg} {t : List Entry} {r : Route} {l : List Outposts.Call} (hj : Joint r c t l) (ent : Addr) (k : Nat) :
    (Outposts.sent (Outposts.init ent) l).countP (takes k) ≤ (r.said c t).countP (commands k) :=
  le_trans (sent_takes k l _ hj.controller) hj.heard.countP_le

/-! ### Examples -/

/-- Remote target 0 is chain 7 of the sample of the outposts contract, and so is deployment 0. -/
def sampleRoute : Route :=
  { spec := fun _ => Outposts.sampleDeploy.spec, body := fun _ => 500, deployment := fun _ => Outposts.sampleDeploy,
    custom := fun _ => none }

/-- Two proposals pass and are executed: one deploys a treasury, the other takes funds from it. -/
def sampleRemote : List Step :=
  [stake 10 60, stake 11 40, at_ 2, propose 10 [.deployTreasury 0], propose 11 [.requestFunding (some 0) 77 [⟨.native 5, 30⟩]],
    at_ 3, vote 10 1 .yes, vote 11 2 .yes, vote 10 2 .yes, at_ 102, execute 13 1, at_ 105, execute 13 2]

/-- What the outposts contract gets: the two messages of the controller, answers of the proxy, and those of an intruder. -/
def sampleHeard : List Outposts.Call :=
  let e : Outposts.Env := ⟨9, 5, some 1, Outposts.sampleDerive⟩
  [⟨e, 1, .deploy Outposts.sampleDeploy⟩, ⟨e, 99, .callback 1 (some 666)⟩, ⟨e, 10700, .callback 1 (some 71)⟩,
    ⟨e, 10700, .callback 2 (some 73)⟩, ⟨e, 99, .execTreasury Outposts.sampleDeploy.spec 666⟩,
    ⟨e, 1, .execTreasury Outposts.sampleDeploy.spec 500⟩, ⟨e, 99, .deploy Outposts.sampleDeploy⟩]

/-- Hypotheses met, and what is sent: a proxy and a treasury are deployed and the message for the funds is taken to the treasury. -/
example : ∃ w' t, History sampleCfg sampleGenesis w' t ∧ Joint sampleRoute sampleCfg t sampleHeard ∧
    (Outposts.sent (Outposts.init 3) sampleHeard).map (fun o => (o.proxy, o.act)) =
      [(70, .proxy 100 20093), (70, .treasury 101 71 none none), (71, .run 73 500)] := by
  cases hx : traceAll sampleCfg sampleGenesis sampleRemote with
  | none =>
    exfalso
    have : (traceAll sampleCfg sampleGenesis sampleRemote).isSome = true := by decide +kernel
    rw [hx] at this
    cases this
  | some r =>
    have hsaid : (traceAll sampleCfg sampleGenesis sampleRemote).map (fun r => sampleRoute.said sampleCfg r.2) =
        some [.deploy Outposts.sampleDeploy, .execTreasury Outposts.sampleDeploy.spec 500] := by decide +kernel
    rw [hx] at hsaid
    have hs : sampleRoute.said sampleCfg r.2 = _ := Option.some.inj hsaid
    refine ⟨r.1, r.2, by simpa using traceAll_history _ .start hx, ⟨?_, ?_⟩, by decide +kernel⟩
    · rw [hs]
      have : ((sampleHeard.filter (fun x => decide (x.sender = sampleCfg.self))).map (·.msg)) =
        [.deploy Outposts.sampleDeploy, .execTreasury Outposts.sampleDeploy.spec 500] := by decide +kernel
      rw [this]
    · intro x hx k hk
      simp only [sampleHeard, List.mem_cons, List.not_mem_nil, or_false] at hx
      rcases hx with rfl | rfl | rfl | rfl | rfl | rfl | rfl <;> exact (Option.some.inj hk).symm

end Verif.Dao
