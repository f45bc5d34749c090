import Verif.Facade.Requests
import Verif.Controller.Props2
import Verif.Outposts.Props

set_option linter.unusedSimpArgs false

/-!
# Facades: proposals, votes and executions requested through the facade (C100, C101)
-/

namespace Verif.Facade
open Verif
open Verif.Controller (Action Proposal Sub Does DoesAll)
open Verif.Staking (Coin)

/-- The coins that a message to the controller takes. -/
def coinsFor : Controller.Msg → List Coin
  | .createProposal _ f => f.map (fun x => ⟨x.1, x.2⟩)
  | _ => []

/-- The call of the controller at `ctl`, with its sender, when `user` sends a message of the facade: either directly,
with the coins it takes, or by a `Send` of a cw20 token, which then calls the controller itself. Any other message is
`none`. -/
def controllerCall (ctl user : Addr) : Adapted → Option (Addr × Controller.Msg)
  | .execute t (.controller m) f => if t = ctl ∧ f = coinsFor m then some (user, m) else none
  | .execute t (.sendProposal d n p) [] => if d = ctl then some (t, .receive user n (some p)) else none
  | _ => none

/-! ### C100: coins for messages to other chains -/

/-- The amount of a denom that a list of messages sends to an account. -/
def coinsTo (a : Addr) (d : Nat) : List Adapted → Nat
  | [] => 0
  | .bank r f :: t => (if r = a then ((f.filter (fun x => decide (x.denom = d))).map (·.amount)).sum else 0) + coinsTo a d t
  | .execute r _ f :: t => (if r = a then ((f.filter (fun x => decide (x.denom = d))).map (·.amount)).sum else 0) + coinsTo a d t

theorem does_remote {e : Controller.Env} {s s' : Controller.State} {a : Action} {l : List Sub} (h : Does e s a s' l) :
    (l.filter viaOutposts).length = if isRemote a then 1 else 0 := by
  cases h with
  | assets r a d => cases r <;> rfl
  | nfts r a d => cases r <;> rfl
  | funding r _ _ => cases r <;> rfl
  | treasuryMsgs r l => cases r <;> rfl
  | msgs h =>
    rename_i l
    have : (l.map Sub.custom).filter viaOutposts = [] := by
      rw [List.filter_eq_nil_iff]
      intro x hx
      obtain ⟨m, _, rfl⟩ := List.mem_map.1 hx
      simp [viaOutposts]
    rw [this]; rfl
  | _ => rfl

theorem doesAll_remote {e : Controller.Env} {s s' : Controller.State} {a : List Action} {l : List Sub}
    (h : DoesAll e s a s' l) : (l.filter viaOutposts).length = (a.filter isRemote).length := by
  induction h with
  | nil => rfl
  | cons h t ih =>
    rw [List.filter_append, List.length_append, does_remote h, ih, List.filter_cons]
    split <;> simp [Nat.add_comm]

/-- C100: the request to execute a proposal always gives exactly one call of the controller, which executes it, and sends
to the outposts contract one uluna for each of the messages that the actions of the proposal, when they are executed,
send to the outposts contract, whatever happened to the DAO in between. -/
theorem C100_coins {cfg : Dao.Cfg} (hw : cfg.Wf) (ht : cfg.Tame) {w : Dao.World} (hr : Dao.Reachable cfg w)
    {ext : Dao.Ext} {c : Chain} {e : Addr} {p : Parts} (h : IsDao c e p) (hp : p.Seen cfg ext w) (u : Addr) {id : Nat}
    {i : Controller.Info} (hi : w.ctl.infos.get id = some i) :
    ∃ l, adaptExecute c e id = .ok l ∧
      l.filterMap (controllerCall p.at_.controller u) = [(u, .execute id)] ∧
      ∀ (env : Controller.Env) (v : Addr) (s : Controller.State) (g : Gov.State) (j : Controller.Info)
        (r : Controller.State × Gov.State × List Sub), s.infos.get id = some j → j.actions = i.actions →
        Controller.exec env v s g (.executeActions id) = .ok r →
        coinsTo p.at_.outposts uluna l = (r.2.2.filter viaOutposts).length := by
  have hb := hr.base hw ht
  obtain ⟨q, hq⟩ := Map.has_iff.1 ((hb.ctl.infos id).symm.trans (Map.has_iff.2 ⟨i, hi⟩))
  obtain ⟨h1, h2, h3⟩ := Dao.answer_ok hb (cfg.env ext w) hq
  have hact : (Dao.answer (cfg.env ext w) w.ctl w.gov q).actions = i.actions := by
    have hid := (hb.ctl.inv.pid id q hq).1
    unfold Controller.toResponse at h1
    rw [hid, hi] at h1
    simp only [bind_ok_iff, pure_ok_iff] at h1
    obtain ⟨st, _, h1⟩ := h1
    rw [← h1]
  have hprop : proposal c e id = .ok (Dao.answer (cfg.env ext w) w.ctl w.gov q) := by
    unfold proposal
    rw [components_dao h, ok_bind, controllerAt_dao h, ok_bind, hp.ctl]
    exact h3
  have hcount : ∀ (env : Controller.Env) (v : Addr) (s : Controller.State) (g : Gov.State) (j : Controller.Info)
      (r : Controller.State × Gov.State × List Sub), s.infos.get id = some j → j.actions = i.actions →
      Controller.exec env v s g (.executeActions id) = .ok r →
      (r.2.2.filter viaOutposts).length = (i.actions.filter isRemote).length := by
    intro env v s g j r hj hja hx
    obtain ⟨_, _, j', hj', hd⟩ := Controller.C91_actions.1 hx
    rw [hj] at hj'
    cases hj'
    rw [doesAll_remote hd, hja]
  by_cases h0 : (i.actions.filter isRemote).length = 0
  · refine ⟨[.execute p.at_.controller (.controller (.execute id)) []], ?_, ?_, ?_⟩
    · unfold adaptExecute
      rw [hprop, ok_bind, components_dao h]
      simp only [hact]
      rw [ok_bind, if_neg (not_not.2 h0)]
      rfl
    · simp [controllerCall, coinsFor]
    · intro env v s g j r hj hja hx
      rw [hcount env v s g j r hj hja hx, h0]
      simp [coinsTo]
  · refine ⟨[.bank p.at_.outposts [⟨uluna, (i.actions.filter isRemote).length⟩],
      .execute p.at_.controller (.controller (.execute id)) []], ?_, ?_, ?_⟩
    · unfold adaptExecute
      rw [hprop, ok_bind, components_dao h]
      simp only [hact]
      rw [ok_bind, if_pos h0]
      rfl
    · rw [List.filterMap_cons_none rfl]
      simp [controllerCall, coinsFor]
    · intro env v s g j r hj hja hx
      rw [hcount env v s g j r hj hja hx]
      simp [coinsTo]

/-- A proposal with one action on another chain and one here: one uluna is sent. -/
def smpMixed : Dao.World :=
  Dao.sampleRun [Dao.stake 10 60, Dao.at_ 2,
    Dao.propose 12 [.deployTreasury 0, .updateGovConfig Dao.sampleChange], Dao.at_ 3, Dao.vote 10 1 .yes]

example : Dao.Reachable Dao.sampleCfg smpMixed ∧
    IsDao (sampleChain (sampleSeen smpMixed)) 3 (sampleSeen smpMixed) ∧
    (sampleSeen smpMixed).Seen Dao.sampleCfg Dao.sampleExt smpMixed ∧ smpMixed.ctl.infos.has 1 = true ∧
    (adaptExecute (sampleChain (sampleSeen smpMixed)) 3 1).toOption.map
      (coinsTo (sampleSeen smpMixed).at_.outposts uluna) = some 1 :=
  ⟨Dao.sampleRun_reachable _, sample_isDao _ (by decide +kernel), sample_seen _, by decide +kernel, by decide +kernel⟩

/-- C100: the outposts contract sends one message, with one uluna, for each request of the controller that it accepts. -/
theorem C100_one_each {e : Outposts.Env} {s : Outposts.State} {u : Addr} {m : Outposts.Msg}
    {r : Outposts.State × List Outposts.Out} (h : Outposts.exec e s u m = .ok r) :
    (∀ d, m = .deploy d → r.2.length = 1) ∧ (∀ sp n, m = .execTreasury sp n → r.2.length = 1) := by
  constructor
  · rintro d rfl
    obtain ⟨_, _, ⟨o, ho, _⟩, _⟩ := Outposts.C75_deploy h
    rw [ho]; rfl
  · rintro sp n rfl
    obtain ⟨_, _, _, _, _, o, ho, _⟩ := (Outposts.C75_execute_iff e s u sp n r).1 h
    rw [ho]; rfl

example : ∃ r, Outposts.exec Outposts.sampleEnv (Outposts.init 4) 12 (.deploy Outposts.sampleDeploy) = .ok r := ⟨_, rfl⟩

/-- A proposal to deploy a treasury on another chain, on which nobody votes. -/
def smpRejected : Dao.World :=
  Dao.sampleRun [Dao.stake 10 60, Dao.at_ 2, Dao.propose 12 [.deployTreasury 0], Dao.at_ 200]

/-- C100, a case that the count does not look at: for a proposal that was rejected, one uluna is sent as well, although
its execution sends nothing to the outposts contract. -/
theorem C100_rejected_witness :
    Dao.Reachable Dao.sampleCfg smpRejected ∧
    IsDao (sampleChain (sampleSeen smpRejected)) 3 (sampleSeen smpRejected) ∧
    (adaptExecute (sampleChain (sampleSeen smpRejected)) 3 1).toOption.map
      (coinsTo (sampleSeen smpRejected).at_.outposts uluna) = some 1 ∧
    (Controller.exec (Dao.sampleCfg.env Dao.sampleExt smpRejected) 13 smpRejected.ctl smpRejected.gov
      (.execute 1)).toOption.map (fun r => r.2.2.filter (fun x => decide (x = .actions 1) || viaOutposts x)) = some [] := by
  refine ⟨Dao.sampleRun_reachable _, sample_isDao _ (by decide +kernel), by decide +kernel, by decide +kernel⟩

/-! ### C101: creating proposals and voting -/

/-- A proposal is stored as asked for: who proposed it, its texts, its type, its actions and its deposit. -/
def Stored (r : Controller.State × Gov.State × List Sub) (id : Nat) (proposer : Addr) (t : Controller.PType)
    (q : Proposal) (d : Option Controller.Deposit) : Prop :=
  (∃ x, Gov.queryPoll r.2.1 id = .ok x ∧ x.proposer = proposer ∧ x.label = q.title ∧ x.description = q.description) ∧
  ∃ i, r.1.infos.get id = some i ∧ i.type = t ∧ i.actions = q.actions ∧ i.deposit = d

/-- The block time and the number of proposals are far from their limits. -/
def Roomy (k : Ctl) : Prop :=
  k.env.block.time + k.s.config.voteDuration * 10 ^ 9 < 2 ^ 64 ∧ k.g.pollCount + 1 < 2 ^ 64

/-- C101: a proposal without deposit and a council proposal requested through the facade are one call of the controller
each, without coins. If it is accepted, the next proposal is the user's and as asked for. -/
theorem C101_plain {c : Chain} {e : Addr} {p : Parts} (h : IsDao c e p) (u : Addr) (q : Proposal) (hk : Roomy p.ctl) :
    (∃ l m, adaptCreate c e q = .ok l ∧ l.map (controllerCall p.at_.controller u) = [some (u, m)] ∧
      ∀ r, Controller.exec p.ctl.env u p.ctl.s p.ctl.g m = .ok r →
        Stored r (p.ctl.g.pollCount + 1) u .general q none) ∧
    (∃ l m, adaptCouncil c e q = .ok l ∧ l.map (controllerCall p.at_.controller u) = [some (u, m)] ∧
      ∀ r, Controller.exec p.ctl.env u p.ctl.s p.ctl.g m = .ok r →
        Stored r (p.ctl.g.pollCount + 1) u .council q none) := by
  constructor
  · refine ⟨[.execute p.at_.controller (.controller (.createProposal q [])) []], .createProposal q [], ?_, ?_, ?_⟩
    · unfold adaptCreate; rw [components_dao h]; rfl
    · simp [controllerCall, coinsFor]
    · intro r hr
      obtain ⟨h1, h2, _⟩ := Controller.C89_general_terms (p := q) rfl rfl hr hk.1 hk.2
      refine ⟨⟨_, h1, rfl, rfl, rfl⟩, _, h2, rfl, rfl, ?_⟩
      simp only [Controller.attachedAsset]
      split
      · split <;> rfl
      · rfl
  · refine ⟨[.execute p.at_.controller (.controller (.createCouncil q)) []], .createCouncil q, ?_, ?_, ?_⟩
    · unfold adaptCouncil; rw [components_dao h]; rfl
    · simp [controllerCall, coinsFor]
    · intro r hr
      obtain ⟨_, _, h1, h2, _⟩ := Controller.C89_council_terms hr hk.1 hk.2
      exact ⟨⟨_, h1, rfl, rfl, rfl⟩, _, h2, rfl, rfl, rfl⟩

/-- In the sample DAO without minimum deposit, both proposals are accepted. -/
def smpFree : Dao.World :=
  { smpStaked with ctl := { smpStaked.ctl with config := { smpStaked.ctl.config with minDeposit := none } } }

example : IsDao (sampleChain (sampleSeen smpFree)) 3 (sampleSeen smpFree) ∧ Roomy (sampleSeen smpFree).ctl ∧
    (Controller.exec (sampleSeen smpFree).ctl.env 10 smpFree.ctl smpFree.gov
      (.createProposal ⟨1, 2, [.executeMsgs [1]], none⟩ [])).toOption.isSome = true ∧
    (Controller.exec (sampleSeen smpFree).ctl.env 40 smpFree.ctl smpFree.gov
      (.createCouncil ⟨1, 2, [.upgradeDao (Versioning.ver 1 1 0)], none⟩)).toOption.isSome = true :=
  ⟨sample_isDao _ (by decide +kernel), ⟨by decide +kernel, by decide +kernel⟩, by decide +kernel, by decide +kernel⟩

/-- C101: a proposal with a deposit of coins requested through the facade is one call of the controller with exactly these
coins. The deposit recorded for it is the amount asked for, in the name of the deposit owner, or of the user. Only a
denom DAO takes it. -/
theorem C101_denom_deposit {c : Chain} {e : Addr} {p : Parts} (h : IsDao c e p) (u : Addr) (q : Proposal) (n : Nat)
    (hk : Roomy p.ctl) :
    (∀ d, p.member.denom = some d → ∃ l m, adaptDenomDeposit c e q n = .ok l ∧
      l.map (controllerCall p.at_.controller u) = [some (u, m)] ∧ coinsTo p.at_.controller d l = n ∧
      ∀ r, Controller.exec p.ctl.env u p.ctl.s p.ctl.g m = .ok r →
        Stored r (p.ctl.g.pollCount + 1) u .general q (some ⟨q.owner.getD u, .denom d n⟩)) ∧
    (p.member.denom = none → ¬ ∃ l, adaptDenomDeposit c e q n = .ok l) := by
  constructor
  · intro d hd
    have ht : p.member.daoType = .denom := by
      cases hm : p.member with
      | staking k s => rw [hm] at hd; cases k with
        | token => cases hd
        | denom => rfl
      | nft s => rw [hm] at hd; cases hd
      | multisig s => rw [hm] at hd; cases hd
    refine ⟨[.execute p.at_.controller (.controller (.createProposal q [(d, n)])) [⟨d, n⟩]],
      .createProposal q [(d, n)], ?_, ?_, ?_, ?_⟩
    · unfold adaptDenomDeposit
      rw [typeOf_dao h, ok_bind, ht, if_neg (by simp), components_dao h, ok_bind, memberAt_dao h, ok_bind]
      simp only
      rw [hd]
      rfl
    · simp [controllerCall, coinsFor]
    · simp [coinsTo]
    · intro r hr
      obtain ⟨h1, h2, _⟩ := Controller.C89_general_terms (p := q) rfl rfl hr hk.1 hk.2
      refine ⟨⟨_, h1, rfl, rfl, rfl⟩, _, h2, rfl, rfl, ?_⟩
      simp [Controller.attachedAsset, h.envType, ht, h.envDenom, hd, Controller.proposerOf]
  · rintro hd ⟨l, hl⟩
    unfold adaptDenomDeposit at hl
    rw [typeOf_dao h, ok_bind] at hl
    split at hl
    · cases hl
    · rw [components_dao h, ok_bind, memberAt_dao h, ok_bind] at hl
      simp only at hl
      rw [hd] at hl
      cases hl

example : IsDao (sampleChain (sampleSeen smpStaked)) 3 (sampleSeen smpStaked) ∧ Roomy (sampleSeen smpStaked).ctl ∧
    (sampleSeen smpStaked).member.denom = some 20 ∧
    (Controller.exec (sampleSeen smpStaked).ctl.env 12 smpStaked.ctl smpStaked.gov
      (.createProposal ⟨1, 2, [.executeMsgs [1]], some 13⟩ [(20, 30)])).toOption.isSome = true :=
  ⟨smpStaked_dao, ⟨by decide +kernel, by decide +kernel⟩, by decide +kernel, by decide +kernel⟩

/-- C101: a proposal with a deposit of cw20 tokens requested through the facade is one `Send` of exactly these tokens to
the controller, which the token contract then calls. The deposit recorded is the amount asked for, in the name of the
deposit owner, or of the user; the proposer is the user. Only a token DAO takes it. -/
theorem C101_token_deposit {c : Chain} {e : Addr} {p : Parts} (h : IsDao c e p) (u : Addr) (q : Proposal) (n : Nat)
    (hk : Roomy p.ctl) :
    (∀ a, p.member.token = some a → ∃ m, adaptTokenDeposit c e q n = .ok [.execute a (.sendProposal p.at_.controller n q) []] ∧
      controllerCall p.at_.controller u (.execute a (.sendProposal p.at_.controller n q) []) = some (a, m) ∧
      ∀ r, Controller.exec p.ctl.env a p.ctl.s p.ctl.g m = .ok r →
        Stored r (p.ctl.g.pollCount + 1) u .general q (some ⟨q.owner.getD u, .cw20 a n⟩)) ∧
    (p.member.token = none → ¬ ∃ l, adaptTokenDeposit c e q n = .ok l) := by
  constructor
  · intro a ha
    have ht : p.member.daoType = .token := by
      cases hm : p.member with
      | staking k s => rw [hm] at ha; cases k with
        | token => rfl
        | denom => cases ha
      | nft s => rw [hm] at ha; cases ha
      | multisig s => rw [hm] at ha; cases ha
    refine ⟨.receive u n (some q), ?_, ?_, ?_⟩
    · unfold adaptTokenDeposit
      rw [typeOf_dao h, ok_bind, ht]
      simp only
      rw [components_dao h, ok_bind, memberAt_dao h, ok_bind]
      simp only
      rw [ha]
      rfl
    · simp [controllerCall]
    · intro r hr
      obtain ⟨h1, h2, _⟩ := Controller.C89_general_terms (p := q) rfl rfl hr hk.1 hk.2
      exact ⟨⟨_, h1, rfl, rfl, rfl⟩, _, h2, rfl, rfl, rfl⟩
  · rintro hd ⟨l, hl⟩
    unfold adaptTokenDeposit at hl
    rw [typeOf_dao h, ok_bind] at hl
    split at hl
    · rw [components_dao h, ok_bind, memberAt_dao h, ok_bind] at hl
      simp only at hl
      rw [hd] at hl
      cases hl
    · cases hl

/-- The sample DAO as a token DAO. -/
def smpTok : Parts := smpDao (.staking .token (smpWorld .token).st)

example : IsDao (sampleChain smpTok) 3 smpTok ∧ Roomy smpTok.ctl ∧ smpTok.member.token = some 20 ∧
    (Controller.exec smpTok.ctl.env 20 smpTok.ctl.s smpTok.ctl.g
      (.receive 12 30 (some ⟨1, 2, [.executeMsgs [1]], none⟩))).toOption.isSome = true :=
  ⟨smp_isDao _, ⟨by decide +kernel, by decide +kernel⟩, by decide +kernel, by decide +kernel⟩

/-- A cw721 contract: for each token its owner and the accounts approved for it. -/
abbrev Tokens := Nat → Option (Addr × List Addr)

/-- cw721 `Approve` by `sender` (dependency). -/
def approve (o : Tokens) (sender spender : Addr) (t : Nat) : Except Err Tokens :=
  match o t with
  | some (w, l) => if w = sender then .ok (fun x => if x = t then some (w, spender :: l) else o x) else .error .unauthorized
  | none => .error .notFound

/-- cw721 `TransferNft` by `sender` (dependency): approvals end with the transfer. -/
def transferNft (o : Tokens) (sender dst : Addr) (t : Nat) : Except Err Tokens :=
  match o t with
  | some (w, l) =>
    if w = sender ∨ sender ∈ l then .ok (fun x => if x = t then some (dst, []) else o x) else .error .unauthorized
  | none => .error .notFound

/-- The approvals among the messages of the facade, executed by the cw721 contract `a` for `user`. -/
def approveAll (a user : Addr) (o : Tokens) : List Adapted → Except Err Tokens
  | [] => .ok o
  | .execute t (.approve s n) _ :: l =>
    if t = a then do
      let o1 ← approve o user s n
      approveAll a user o1 l
    else .error .other
  | _ :: l => approveAll a user o l

/-- The transfers among the sub-messages of the controller, executed by the cw721 contract `a`. -/
def takeAll (a ctl : Addr) (o : Tokens) : List Sub → Except Err Tokens
  | [] => .ok o
  | .takeNft t n :: l =>
    if t = a then do
      let o1 ← transferNft o ctl ctl n
      takeAll a ctl o1 l
    else .error .other
  | _ :: l => takeAll a ctl o l

theorem approveAll_ok (a u ctl : Addr) (m : Adapted) (hm : ∀ o, approveAll a u o [m] = .ok o) :
    ∀ (ts : List Nat) (o : Tokens), (∀ t ∈ ts, ∃ l, o t = some (u, l)) →
    ∃ o', approveAll a u o (ts.map (fun t => .execute a (.approve ctl t) []) ++ [m]) = .ok o' ∧
      (∀ t ∈ ts, ∃ l, o' t = some (u, l) ∧ ctl ∈ l) ∧
      (∀ t l, o t = some (u, l) → ctl ∈ l → ∃ l', o' t = some (u, l') ∧ ctl ∈ l') ∧ ∀ t, t ∉ ts → o' t = o t := by
  intro ts
  induction ts with
  | nil => intro o _; exact ⟨o, hm o, fun t ht => absurd ht List.not_mem_nil, fun t l h1 h2 => ⟨l, h1, h2⟩, fun _ _ => rfl⟩
  | cons x ts ih =>
    intro o ho
    obtain ⟨l, hl⟩ := ho x List.mem_cons_self
    have h1 : approve o u ctl x = .ok (fun y => if y = x then some (u, ctl :: l) else o y) := by
      unfold approve
      rw [hl]
      simp
    obtain ⟨o', k1, k2, k3, k4⟩ := ih (fun y => if y = x then some (u, ctl :: l) else o y) (fun t ht => by
      by_cases hx : t = x
      · exact ⟨_, if_pos hx⟩
      · obtain ⟨l', hl'⟩ := ho t (List.mem_cons_of_mem _ ht)
        exact ⟨l', (if_neg hx).trans hl'⟩)
    refine ⟨o', ?_, ?_, ?_, ?_⟩
    · simp only [List.map_cons, List.cons_append, approveAll, if_true]
      rw [h1, ok_bind]
      exact k1
    · intro t ht
      rcases List.mem_cons.1 ht with rfl | ht
      · exact k3 t (ctl :: l) (if_pos rfl) List.mem_cons_self
      · exact k2 t ht
    · intro t l' h2 h3
      by_cases hx : t = x
      · subst hx; exact k3 t (ctl :: l) (if_pos rfl) List.mem_cons_self
      · exact k3 t l' ((if_neg hx).trans h2) h3
    · intro t ht
      rw [k4 t (fun hh => ht (List.mem_cons_of_mem _ hh))]
      exact if_neg (fun hh => ht (by rw [hh]; exact List.mem_cons_self))

theorem takeAll_ok (a ctl u : Addr) : ∀ (ts : List Nat) (o : Tokens), ts.Nodup →
    (∀ t ∈ ts, ∃ l, o t = some (u, l) ∧ ctl ∈ l) →
    ∃ o', takeAll a ctl o (ts.map (.takeNft a)) = .ok o' ∧ (∀ t ∈ ts, o' t = some (ctl, [])) ∧
      ∀ t, t ∉ ts → o' t = o t := by
  intro ts
  induction ts with
  | nil => intro o _ _; exact ⟨o, rfl, fun t ht => absurd ht List.not_mem_nil, fun _ _ => rfl⟩
  | cons x ts ih =>
    intro o hn ho
    obtain ⟨hx, hn⟩ := List.nodup_cons.1 hn
    obtain ⟨l, hl, hc⟩ := ho x List.mem_cons_self
    have h1 : transferNft o ctl ctl x = .ok (fun y => if y = x then some (ctl, []) else o y) := by
      unfold transferNft
      rw [hl]
      simp [hc]
    obtain ⟨o', k1, k2, k3⟩ := ih (fun y => if y = x then some (ctl, []) else o y) hn (fun t ht => by
      obtain ⟨l', hl', hc'⟩ := ho t (List.mem_cons_of_mem _ ht)
      exact ⟨l', (if_neg (fun hh => hx (by rw [← hh]; exact ht))).trans hl', hc'⟩)
    refine ⟨o', ?_, ?_, ?_⟩
    · simp only [List.map_cons, takeAll, if_true]
      rw [h1, ok_bind]
      exact k1
    · intro t ht
      rcases List.mem_cons.1 ht with rfl | ht
      · rw [k3 t hx]; exact if_pos rfl
      · exact k2 t ht
    · intro t ht
      rw [k3 t (fun hh => ht (List.mem_cons_of_mem _ hh))]
      exact if_neg (fun hh => ht (by rw [hh]; exact List.mem_cons_self))

/-- C101: a proposal with a deposit of NFTs requested through the facade approves the controller for each token, and then
calls the controller. If the user owns the tokens and they are distinct, the approvals go through and the controller does
not refuse the proposal because of its deposit. If it accepts, all transfers of tokens that it orders go through, the
tokens are the controller's, all other tokens are as before, and the deposit recorded is these tokens, in the name of the
deposit owner, or of the user. -/
theorem C101_nft_deposit {c : Chain} {e : Addr} {p : Parts} (h : IsDao c e p) (u : Addr) (q : Proposal) (ts : List Nat)
    (hk : Roomy p.ctl) {a : Addr} (ha : p.member.nftAddr p.proxy = some a) (o : Tokens) (hn : ts.Nodup)
    (ho : ∀ t ∈ ts, ∃ l, o t = some (u, l)) :
    ∃ l m o1, adaptNftDeposit c e q ts = .ok l ∧ l.filterMap (controllerCall p.at_.controller u) = [(u, m)] ∧
      approveAll a u o l = .ok o1 ∧ Controller.WellSent { p.ctl.env with owner := o1 } u m ∧
      ∀ r, Controller.exec { p.ctl.env with owner := o1 } u p.ctl.s p.ctl.g m = .ok r →
        Stored r (p.ctl.g.pollCount + 1) u .general q (some ⟨q.owner.getD u, .cw721 a ts⟩) ∧
        ∃ o2, takeAll a p.at_.controller o1 r.2.2 = .ok o2 ∧ (∀ t ∈ ts, o2 t = some (p.at_.controller, [])) ∧
          ∀ t, t ∉ ts → o2 t = o t := by
  have ht : p.member.daoType = .nft := by
    cases hm : p.member with
    | staking k s => rw [hm] at ha; cases ha
    | nft s => rfl
    | multisig s => rw [hm] at ha; cases ha
  obtain ⟨o1, k1, k2, _, k4⟩ := approveAll_ok a u p.at_.controller
    (.execute p.at_.controller (.controller (.createWithNft q ts)) []) (fun _ => rfl) ts o ho
  refine ⟨_, .createWithNft q ts, o1, ?_, ?_, k1, ?_, ?_⟩
  · unfold adaptNftDeposit
    rw [typeOf_dao h, ok_bind, ht, if_neg (by simp), components_dao h, ok_bind, memberAt_dao h, ok_bind]
    simp only
    rw [ha]
    rfl
  · rw [List.filterMap_append]
    have : (ts.map (fun t => Adapted.execute a (.approve p.at_.controller t) [])).filterMap
        (controllerCall p.at_.controller u) = [] := by
      rw [List.filterMap_map]
      exact List.filterMap_eq_nil_iff.2 (fun t _ => rfl)
    rw [this]
    simp [controllerCall, coinsFor]
  · refine ⟨h.envType.trans ht, by simp only; rw [h.envNft, ha]; simp, hn, fun t ht => ?_⟩
    obtain ⟨l, hl, _⟩ := k2 t ht
    exact ⟨u, l, hl, .inl rfl⟩
  · intro r hr
    obtain ⟨h1, h2, _⟩ := Controller.C89_general_terms (p := q) rfl rfl hr hk.1 hk.2
    refine ⟨⟨⟨_, h1, rfl, rfl, rfl⟩, _, h2, rfl, rfl, ?_⟩, ?_⟩
    · simp only [Controller.attachedAsset, Controller.proposerOf]
      rw [h.envNft, ha]
      rfl
    · have hsubs : r.2.2 = ts.map (.takeNft a) := by
        simp only [Controller.exec, Controller.createWithNft, ite_ok_iff] at hr
        obtain ⟨_, _, hr⟩ := hr
        rw [h.envNft, ha] at hr
        simp only [bind_ok_iff, pure_ok_iff] at hr
        obtain ⟨subs, hs, r1, _, rfl⟩ := hr
        exact (Controller.takeNfts_ok ts hs).1
      rw [hsubs]
      obtain ⟨o2, m1, m2, m3⟩ := takeAll_ok a p.at_.controller u ts o1 hn k2
      exact ⟨o2, m1, m2, fun t ht => (m3 t ht).trans (k4 t ht)⟩

/-- The sample DAO as an NFT DAO, with a minimum deposit of 2 tokens. -/
def smpNftWorld : Dao.World :=
  { Dao.sampleGenesis with
    mem := .nft smpNft.st
    ctl := { Dao.sampleGenesis.ctl with config := { Dao.sampleConfig with minDeposit := some 2 } } }

/-- User 10 owns tokens 101 and 102, user 11 owns token 103. -/
def smpTokens : Tokens := fun t => if t = 101 ∨ t = 102 then some (10, []) else if t = 103 then some (11, []) else none

example : IsDao (sampleChain (sampleSeen smpNftWorld)) 3 (sampleSeen smpNftWorld) ∧ Roomy (sampleSeen smpNftWorld).ctl ∧
    (sampleSeen smpNftWorld).member.nftAddr (sampleSeen smpNftWorld).proxy = some 20 ∧ [101, 102].Nodup ∧
    (∀ t ∈ [101, 102], ∃ l, smpTokens t = some (10, l)) ∧
    (Controller.exec { (sampleSeen smpNftWorld).ctl.env with owner := smpTokens } 10 smpNftWorld.ctl smpNftWorld.gov
      (.createWithNft ⟨1, 2, [.executeMsgs [1]], none⟩ [101, 102])).toOption.isSome = true := by
  refine ⟨sample_isDao _ rfl, ⟨by decide +kernel, by decide +kernel⟩, by decide +kernel, by decide, fun t ht => ⟨[], ?_⟩,
    by decide +kernel⟩
  revert t
  decide

/-- C101: a vote requested through the facade is one call of the controller; if it is accepted, the vote of the user on
that proposal is the one asked for, with the weight the user has in the membership contract, or in the council. -/
theorem C101_votes {cfg : Dao.Cfg} {w : Dao.World} {ext : Dao.Ext} {c : Chain} {e : Addr} {p : Parts} (h : IsDao c e p)
    (hp : p.Seen cfg ext w) (u : Addr) (id : Nat) (o : Gov.Outcome) :
    (∃ l m, adaptVote c e id o = .ok l ∧ l.map (controllerCall p.at_.controller u) = [some (u, m)] ∧
      ∀ r, Controller.exec p.ctl.env u p.ctl.s p.ctl.g m = .ok r →
        Controller.queryMemberVote r.2.1 id u = some ⟨id, u, o, p.member.weight u⟩) ∧
    (∃ l m, adaptCouncilVote c e id o = .ok l ∧ l.map (controllerCall p.at_.controller u) = [some (u, m)] ∧
      ∀ r, Controller.exec p.ctl.env u p.ctl.s p.ctl.g m = .ok r →
        Controller.queryMemberVote r.2.1 id u = some ⟨id, u, o, Multisig.queryWeight p.council u⟩) := by
  have hx : p.ctl.env.weight = p.member.weight ∧ p.ctl.env.councilWeight = Multisig.queryWeight p.council := by
    rw [hp.ctl, hp.member, hp.council]; exact ⟨rfl, rfl⟩
  constructor
  · refine ⟨[.execute p.at_.controller (.controller (.castVote id o)) []], .castVote id o, ?_, ?_, ?_⟩
    · unfold adaptVote; rw [components_dao h]; rfl
    · simp [controllerCall, coinsFor]
    · intro r hr
      rw [← hx.1]
      exact (Controller.C59_who_can_vote.1 hr).2.2.2
  · refine ⟨[.execute p.at_.controller (.controller (.castCouncilVote id o)) []], .castCouncilVote id o, ?_, ?_, ?_⟩
    · unfold adaptCouncilVote; rw [components_dao h]; rfl
    · simp [controllerCall, coinsFor]
    · intro r hr
      rw [← hx.2]
      exact (Controller.C59_who_can_vote.2 hr).2.2.2.2

example : IsDao (sampleChain (sampleSeen smpMixed)) 3 (sampleSeen smpMixed) ∧
    (sampleSeen smpMixed).Seen Dao.sampleCfg Dao.sampleExt smpMixed ∧
    (Controller.exec (sampleSeen smpMixed).ctl.env 10 smpMixed.ctl smpMixed.gov (.castVote 1 .no)).toOption.isSome = true :=
  ⟨sample_isDao _ (by decide +kernel), sample_seen _, by decide +kernel⟩

end Verif.Facade
