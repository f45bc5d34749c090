import Verif.Dao.Props17
import Verif.Dao.Props20
import Verif.Dao.Props14

/-!
# The contracts of a DAO together: a quorum of the council can act alone, and at once (C139)
-/

set_option linter.unusedSimpArgs false

namespace Verif.Dao
open Verif
open Verif.Controller (Action GovConfig CouncilConfig Info Proposable Sub)

/-! ### Specification -/

/-- What the council members with a property weigh together. -/
def seats (w : World) (P : Addr → Bool) : Nat := w.council.weights.sum (fun u x => if P u then x else 0)

/-- A group of council members who are accounts outside of the DAO, and who together have the share of the weight of the
council that its quorum asks for. -/
structure Quorate (c : Cfg) (w : World) (r : CouncilConfig) (l : List Addr) : Prop where
  members : ∀ u ∈ l, c.outsider u ∧ 0 < Multisig.queryWeight w.council u
  someone : l ≠ []
  quorum : r.quorum * seats w (fun _ => true) ≤ seats w (among l) * 10 ^ 18

/-! ### Lemmas -/

/-- While a council proposal is voted on by the accounts `k` only. -/
structure Sitting (w0 w : World) (id : Nat) (r : CouncilConfig) (l : List Action) (k : List Addr) : Prop where
  mem : w.mem = w0.mem
  council : w.council = w0.council
  dist : w.dist = w0.dist
  block : w.block = w0.block
  config : w.ctl.config = w0.ctl.config
  rules : w.ctl.council = w0.ctl.council
  count : w.gov.pollCount = w0.gov.pollCount + 1
  info : w.ctl.infos.get id = some ⟨.council, none, none, none, l⟩
  poll : ∃ p, w.gov.polls.get id = some p ∧ w0.block.time < p.endsAt ∧ p.quorum = r.quorum ∧ p.threshold = r.threshold ∧
    p.vetoThreshold = w0.ctl.config.veto
  votes : ∀ u, w.gov.votes.get (Gov.vkey u id) =
    if u ∈ k then some ⟨id, u, .yes, Multisig.queryWeight w0.council u⟩ else none

/-- The creation of a proposal by a council member. -/
theorem council_created {c : Cfg} (hw : c.Wf) (ht : c.Tame) {w : World} (h : Reachable c w) {a : Addr} (e : Ext)
    (hr : e.restricted a = false) (hm : 0 < Multisig.queryWeight w.council a) {r : CouncilConfig} (hc : w.ctl.council = some r)
    (hfit : w.block.time + w.ctl.config.voteDuration * 10 ^ 9 < 2 ^ 64) (room : w.gov.pollCount + 1 < 2 ^ 64)
    (t d : Nat) {l : List Action} (hten : l.length ≤ 10) (hl : ∀ x ∈ l, Proposable (c.env e w) w.ctl.config x)
    (hal : ∀ x ∈ l, x.type ∈ r.allowed) :
    ∃ w1, handle c e w a (.ctl (.createCouncil ⟨t, d, l, none⟩)) = .ok (w1, []) ∧
      Sitting w w1 (w.gov.pollCount + 1) r l [] := by
  have hb := h.base hw ht
  have hcfg := hb.ctl.config
  have hcv := hb.ctl.council r hc
  have hx : Controller.exec (c.env e w) a w.ctl w.gov (.createCouncil ⟨t, d, l, none⟩) = .ok (_, _, []) :=
    bind_ok_iff.2 ⟨(w.ctl.added _ _, _), Controller.createCouncil_ok_iff.2 ⟨hr, r, hc, hten,
      fun x hx => Controller.proposable_iff.2 (hl x hx), Nat.pos_iff_ne_zero.1 hm, hal, hb.ctl.gov.admin.symm,
      (Controller.newPoll_ok_iff hfit).2 ⟨hcv.threshold.2, hcfg.duration, rfl⟩, rfl⟩, rfl⟩
  obtain ⟨r', hr', h1, h2, _, h4, h5, _, h7, h8, _⟩ := Controller.C89_council_terms hx hfit room
  rw [hc] at hr'
  cases hr'
  have h1 := Controller.queryPoll_ok_iff.1 h1
  refine ⟨_, bind_ok_iff.2 ⟨_, hx, rfl⟩, ⟨rfl, rfl, rfl, rfl, h7, h8, h5, h2, ⟨_, h1, ?_, rfl, rfl, rfl⟩, fun u => ?_⟩⟩
  · have := hcfg.duration
    show w.block.time < w.block.time + _
    omega
  · rw [if_neg (List.not_mem_nil)]
    show Map.get _ _ = none
    rw [h4]
    cases hv : w.gov.votes.get (Gov.vkey u (w.gov.pollCount + 1)) with
    | none => rfl
    | some v =>
      have := hb.ctl.inv.vkeys _ _ hv
      have h7 := (Gov.vkey_inj.1 this.1).2
      omega

/-- The vote of a council member. -/
theorem council_voted {c : Cfg} (hw : c.Wf) (ht : c.Tame) {w0 w : World} (h : Reachable c w) {id : Nat} {r : CouncilConfig}
    {l : List Action} {k : List Addr} (hc : w0.ctl.council = some r) (hv : Sitting w0 w id r l k) {a : Addr} (e : Ext)
    (hr : e.restricted a = false) (hm : 0 < Multisig.queryWeight w0.council a) :
    ∃ w1, handle c e w a (.ctl (.castCouncilVote id .yes)) = .ok (w1, []) ∧ Sitting w0 w1 id r l (a :: k) := by
  obtain ⟨p, hp, hpe, hpq, hpt, hpv⟩ := hv.poll
  have hun : outcome w id = none := by rw [outcome_of hv.info hp]; rfl
  have hcc : w.ctl.council ≠ none := by rw [hv.rules, hc]; simp
  have hcm : 0 < Multisig.queryWeight w.council a := by rw [hv.council]; exact hm
  obtain ⟨⟨w1, subs⟩, hx⟩ := (C118_council_vote_accepted_iff hw ht h e a id .yes).2
    ⟨hr, hcc, hcm, _, p, hv.info, rfl,
      Controller.queryPoll_ok_iff.2 hp, hun, by rw [hv.block]; exact hpe⟩
  obtain ⟨x, hx'⟩ := handle_ctl hx
  have he := hx'.exec
  simp only [Controller.exec, bind_ok_iff, pure_ok_iff] at he
  obtain ⟨y, hy, rfl⟩ := he
  obtain ⟨_, _, _, i', _, _, _, k6, k8⟩ := Controller.castCouncilVote_ok_iff.1 hy
  have hset := set_choice k6
  obtain ⟨_, _, p'', k9, _, _, _, k10⟩ := Gov.castVote_ok_iff.1 k6
  rw [hp] at k9; cases k9
  have hw1 := hx'.world
  have hsubs := hx'.subs
  simp only at hw1 hsubs
  have hsubs : subs = [] := by rw [hsubs]; rfl
  subst hsubs
  refine ⟨w1, hx, ?_⟩
  rw [hw1]
  refine ⟨hv.mem, hv.council, hv.dist, hv.block, ?_, ?_, ?_, ?_, ?_, ?_⟩
  · show y.1.config = _; rw [k8]; exact hv.config
  · show y.1.council = _; rw [k8]; exact hv.rules
  · show y.2.pollCount = _; rw [k10]; exact hv.count
  · show y.1.infos.get id = _; rw [k8]; exact hv.info
  · show ∃ q, y.2.polls.get id = some q ∧ _
    rw [k10]
    have ht := Gov.terms_recount p (w.gov.votes.get (Gov.vkey a id)) .yes ((c.env e w).councilWeight a)
    exact ⟨_, Map.get_set_self _ _ _, by rw [Gov.terms_endsAt ht]; exact hpe, (congrArg Gov.Terms.quorum ht).trans hpq,
      (congrArg Gov.Terms.threshold ht).trans hpt, (congrArg Gov.Terms.vetoThreshold ht).trans hpv⟩
  · intro u
    show y.2.votes.get _ = _
    rw [hset id u]
    by_cases hua : a = u
    · subst hua
      rw [if_pos ⟨rfl, rfl⟩, if_pos List.mem_cons_self, ← hv.council]
      rfl
    · rw [if_neg (fun hk => hua hk.2), hv.votes u]
      have : u ∈ a :: k ↔ u ∈ k := by simp [Ne.symm hua]
      simp [this]

theorem council_votes {c : Cfg} (hw : c.Wf) (ht : c.Tame) {G : List Addr} (e : Ext) {w0 : World} {id : Nat}
    {r : CouncilConfig} {l : List Action} (hc : w0.ctl.council = some r) (room : w0.gov.pollCount + 2 < 2 ^ 64)
    (hG : ∀ u ∈ G, c.outsider u ∧ 0 < Multisig.queryWeight w0.council u) (he : ∀ u ∈ G, e.restricted u = false) :
    ∀ (k : List Addr) {w : World} (k0 : List Addr), (∀ u ∈ k, u ∈ G) → Reachable c w → Sitting w0 w id r l k0 →
    ∃ w1 k1, Acting c G w w1 ∧ Reachable c w1 ∧ Sitting w0 w1 id r l k1 ∧ ∀ u, u ∈ k1 ↔ u ∈ k ∨ u ∈ k0 := by
  intro k
  induction k with
  | nil => intro w k0 _ hr hv; exact ⟨w, k0, .refl, hr, hv, fun u => by simp⟩
  | cons a k ih =>
    intro w k0 hk hr hv
    have ha := hk a List.mem_cons_self
    obtain ⟨w1, h1, h2⟩ := council_voted hw ht hr hc hv e (he a ha) (hG a ha).2
    have hx : Exec c w [.call a (.ctl (.castCouncilVote id .yes))] w1 :=
      .call e (by rw [hv.count]; omega) h1 (.nil _) (.nil _)
    obtain ⟨w2, k1, j1, j2, j3, j4⟩ := @ih w1 (a :: k0) (fun u hu => hk u (List.mem_cons_of_mem _ hu))
      (hr.tx (hG a ha).1 hx) h2
    refine ⟨w2, k1, Acting.trans (.tx .refl ha hx) j1, j2, j3, fun u => ?_⟩
    rw [j4]
    simp only [List.mem_cons]
    tauto

/-- Sums of votes that count with given weights. -/
theorem votedSum_by {g : Gov.State} (hinv : Gov.Inv g) (W : Map Addr Nat) (id : Nat) (o : Gov.Outcome)
    (h : ∀ u v, g.votes.get (Gov.vkey u id) = some v → v.outcome = o → v.amount = (W.get u).getD 0) :
    Gov.votedSum g id o = W.sum (fun u x => if (g.votes.get (Gov.vkey u id)).map (·.outcome) = some o then x else 0) := by
  rw [votedSum_eq]
  have h1 : ((votesOn g id).filter (fun v => decide (v.outcome = o))).map (·.amount) =
      (((votesOn g id).filter (fun v => decide (v.outcome = o))).map (·.voter)).map (fun u => (W.get u).getD 0) := by
    rw [List.map_map]
    apply List.map_congr_left
    intro v hv
    obtain ⟨hv1, hv2⟩ := List.mem_filter.1 hv
    exact h v.voter v (mem_votesOn hinv hv1).1 (by simpa using hv2)
  have hn : (((votesOn g id).filter (fun v => decide (v.outcome = o))).map (·.voter)).Nodup :=
    (List.filter_sublist.map _).nodup (votesOn_nodup hinv id)
  rw [h1, sum_list _ _ hn]
  apply sum_congr
  intro u x
  have hiff : u ∈ ((votesOn g id).filter (fun v => decide (v.outcome = o))).map (·.voter) ↔
      (g.votes.get (Gov.vkey u id)).map (·.outcome) = some o := by
    constructor
    · intro hm
      obtain ⟨v, hv, rfl⟩ := List.mem_map.1 hm
      obtain ⟨hv1, hv2⟩ := List.mem_filter.1 hv
      rw [(mem_votesOn hinv hv1).1]
      simpa using hv2
    · intro hc
      cases hv : g.votes.get (Gov.vkey u id) with
      | none => rw [hv] at hc; cases hc
      | some v =>
        rw [hv] at hc
        have hc : v.outcome = o := by simpa using hc
        have hk : Gov.vkey u id = Gov.vkey v.voter v.pollId := (hinv.vkeys _ _ hv).1
        obtain ⟨hk1, hk2⟩ := Gov.vkey_inj.1 hk
        refine List.mem_map.2 ⟨v, List.mem_filter.2 ⟨?_, by simpa using hc⟩, hk1.symm⟩
        unfold votesOn Map.values
        refine List.mem_filter.2 ⟨List.mem_map.2 ⟨_, Map.get_eq_some_iff.1 hv, rfl⟩, ?_⟩
        simpa using hk2.symm
  simp [hiff]

theorem seats_all {c : Cfg} {w : World} (hb : Base c w) : Multisig.queryTotal w.council .never = seats w (fun _ => true) := by
  have : (Member.multisig w.council).total .never = _ := hb.council.total
  show (Member.multisig w.council).total .never = _
  rw [this]
  unfold seats Members.wsum
  apply sum_congr
  intro u x
  simp

theorem seats_le (w : World) {P Q : Addr → Bool} (h : ∀ u, P u = true → Q u = true) : seats w P ≤ seats w Q := by
  unfold seats
  apply sum_le
  intro u x
  cases hp : P u with
  | false => simp
  | true => simp [h u hp]

/-- A group that is quorate has weight. -/
theorem seats_pos {w : World} {l : List Addr} (hl : l ≠ []) (h : ∀ u ∈ l, 0 < Multisig.queryWeight w.council u) :
    0 < seats w (among l) := by
  cases l with
  | nil => exact absurd rfl hl
  | cons a t =>
    have ha := h a List.mem_cons_self
    have h1 := sum_pick w.council.weights a
    have h2 : w.council.weights.sum (fun u x => if u = a then x else 0) ≤ seats w (among (a :: t)) := by
      unfold seats
      apply sum_le
      intro u x
      by_cases hu : u = a
      · subst hu; simp [among]
      · simp [hu]
    have h3 : Multisig.queryWeight w.council a = (w.council.weights.get a).getD 0 := rfl
    omega

/-- Recorded votes on a council proposal that only the accounts `k` voted on, all for yes. -/
theorem sitting_sum {c : Cfg} {w0 w : World} (hb : Base c w) {id : Nat} {r : CouncilConfig} {l : List Action} {k : List Addr}
    (hv : Sitting w0 w id r l k) (o : Gov.Outcome) :
    Gov.votedSum w.gov id o = if o = .yes then seats w0 (among k) else 0 := by
  have hget : ∀ u v, w.gov.votes.get (Gov.vkey u id) = some v →
      u ∈ k ∧ v = ⟨id, u, .yes, Multisig.queryWeight w0.council u⟩ := by
    intro u v h
    rw [hv.votes u] at h
    by_cases hu : u ∈ k
    · rw [if_pos hu] at h
      cases h
      exact ⟨hu, rfl⟩
    · rw [if_neg hu] at h
      cases h
  rw [votedSum_by hb.ctl.inv w0.council.weights id o (fun u v h _ => by rw [(hget u v h).2]; rfl)]
  by_cases ho : o = .yes
  · subst ho
    rw [if_pos rfl]
    unfold seats
    apply sum_congr
    intro u x
    rw [hv.votes u]
    by_cases hu : u ∈ k <;> simp [hu, among]
  · rw [if_neg ho]
    apply sum_zero
    intro u x
    rw [hv.votes u]
    have hne : (Gov.Outcome.yes = o) ↔ False := ⟨fun h => ho h.symm, False.elim⟩
    by_cases hu : u ∈ k <;> simp [hu, hne]

/-- What only voted for yes, with the quorum, passes. -/
theorem yes_passes {y T q t : Nat} {vt : Option Nat} (hy : 0 < y) (hle : y ≤ T) (hq : q * T ≤ y * 10 ^ 18)
    (ht : t ≤ 10 ^ 18) (ht0 : 0 < t) (hv : ∀ v, vt = some v → 0 < v) :
    isPassed (Gov.ruleStatus y 0 0 0 q t vt T) = true := by
  have hv0 : 0 < vt.getD t := by
    cases vt with
    | none => exact ht0
    | some v => exact hv v rfl
  refine rule_passed_iff.2 ⟨Or.inr ⟨by omega, by simpa using hq, ?_⟩, ?_, Or.inr ⟨by omega, ?_⟩, Or.inr hy⟩
  · simp only [Nat.add_zero]
    calc y * 10 ^ 18 ≤ T * 10 ^ 18 := Nat.mul_le_mul_right _ hle
      _ < 2 ^ 128 * T := by
        rw [Nat.mul_comm]
        exact Nat.mul_lt_mul_of_pos_right (by norm_num) (by omega)
  · rintro (h | ⟨_, h⟩)
    · omega
    · simp only [Nat.add_zero, Nat.zero_mul] at h
      have := Nat.mul_pos hv0 hy
      omega
  · simp only [Nat.add_zero]
    rw [Nat.mul_comm]
    exact Nat.mul_le_mul_left _ ht

/-- Actions of the harmless kinds, with upgrades to later versions only, can be executed; they change nothing in the controller and send
messages to other contracts only. -/
theorem harmless_done (c : Cfg) (x : Member) {e : Controller.Env} {s : Controller.State} : ∀ {l : List Action},
    (∀ y ∈ l, (∀ v, y = .upgradeDao v → e.version < v) ∧ y.type ∈ Controller.harmless) →
    ∃ subs, Controller.DoesAll e s l s subs ∧ (∀ y ∈ subs, toItem c x y = .other) ∧ subs.filterMap eventOf = [] := by
  intro l
  induction l with
  | nil => intro _; exact ⟨[], .nil s, fun y hy => (by cases hy), rfl⟩
  | cons y t ih =>
    intro h
    obtain ⟨subs, h1, h2, h3⟩ := ih (fun z hz => h z (List.mem_cons_of_mem _ hz))
    obtain ⟨hp, hk⟩ := h y List.mem_cons_self
    have one : ∀ {z : Sub}, Controller.Does e s y s [z] → toItem c x z = .other → eventOf z = none →
        ∃ subs, Controller.DoesAll e s (y :: t) s subs ∧ (∀ y ∈ subs, toItem c x y = .other) ∧ subs.filterMap eventOf = [] := by
      intro z k1 k2 k3
      refine ⟨[z] ++ subs, .cons k1 h1, fun v hv => ?_, ?_⟩
      · rcases List.mem_append.1 hv with hv | hv
        · rw [List.mem_singleton.1 hv]; exact k2
        · exact h2 v hv
      · rw [List.filterMap_append, h3]
        simp [k3]
    cases y with
    | updateMetadata m => exact one (.updateMetadata m) rfl rfl
    | updateAssetWhitelist r a d => exact one (.assets r a d) rfl rfl
    | updateNftWhitelist r a d => exact one (.nfts r a d) rfl rfl
    | upgradeDao v => exact one (.upgrade (hp v rfl)) rfl rfl
    | deployTreasury d => exact one (.deploy d) rfl rfl
    | updateGovConfig _ => simp [Controller.harmless, Action.type] at hk
    | updateCouncil _ => simp [Controller.harmless, Action.type] at hk
    | requestFunding _ _ _ => simp [Controller.harmless, Action.type] at hk
    | executeMsgs _ => simp [Controller.harmless, Action.type] at hk
    | executeTreasuryMsgs _ _ => simp [Controller.harmless, Action.type] at hk
    | executeEnterpriseMsgs _ => simp [Controller.harmless, Action.type] at hk
    | modifyMultisig _ => simp [Controller.harmless, Action.type] at hk
    | distributeFunds _ => simp [Controller.harmless, Action.type] at hk
    | updateMinWeight _ => simp [Controller.harmless, Action.type] at hk

theorem others_run {c : Cfg} {w : World} : ∀ {l : List Item}, (∀ i ∈ l, i = .other) → Exec c w l w
  | [], _ => .nil w
  | i :: l, h => by
    rw [h i List.mem_cons_self]
    exact .other (calls := []) (fun j hj => by cases hj) (.nil _) (others_run (fun j hj => h j (List.mem_cons_of_mem _ hj)))

/-! ## C139 -/

/-- Whatever the state of the DAO: if council members, none of whom is restricted, together have the share of the weight of
the council that its quorum asks for, then they can have any proposal passed and executed that has at most ten
actions, of kinds the council may propose, which can be proposed. Nobody else has to act, and no time has to go by: the
other members of the council need not get a chance to vote. -/
theorem C139_at_once {c : Cfg} (hw : c.Wf) (ht : c.Tame) {w : World} (h : Reachable c w) {r : CouncilConfig}
    (hc : w.ctl.council = some r) {G : List Addr} (hG : Quorate c w r G) (e : Ext) (he : ∀ u ∈ G, e.restricted u = false)
    (hfit : w.block.time + w.ctl.config.voteDuration * 10 ^ 9 < 2 ^ 64) (room : w.gov.pollCount + 2 < 2 ^ 64)
    {l : List Action} (hten : l.length ≤ 10) (hl : ∀ x ∈ l, Proposable (c.env e w) w.ctl.config x)
    (hal : ∀ x ∈ l, ∃ t ∈ r.allowed, x.IsOf t) :
    ∃ w' i o n, Acting c G w w' ∧ w'.block = w.block ∧
      w'.ctl.infos.get (w.gov.pollCount + 1) = some i ∧ i.type = .council ∧ i.actions = l ∧
      outcome w' (w.gov.pollCount + 1) = some (.passed o n) ∧ ranCount w' (w.gov.pollCount + 1) = 1 := by
  obtain ⟨a, ha⟩ := List.exists_mem_of_ne_nil G hG.someone
  have hal' : ∀ x ∈ l, x.type ∈ r.allowed := by
    intro x hx
    obtain ⟨t, ht, hxt⟩ := hal x hx
    cases hxt <;> exact ht
  obtain ⟨w1, h1, hv1⟩ := council_created hw ht h e (he a ha) (hG.members a ha).2 hc hfit (by omega) 0 0 hten hl hal'
  have hx1 : Exec c w [.call a (.ctl (.createCouncil ⟨0, 0, l, none⟩))] w1 := .call e (by omega) h1 (.nil _) (.nil _)
  obtain ⟨w2, k, k1, k2, k3, k4⟩ := council_votes hw ht e hc room hG.members he G [] (fun u hu => hu)
    (h.tx (hG.members a ha).1 hx1) hv1
  have hb := h.base hw ht
  have hb2 := k2.base hw ht
  obtain ⟨p, hp, hpe, hpq, hpt, hpv⟩ := k3.poll
  have hcv := hb.ctl.council r hc
  have hk : seats w (among k) = seats w (among G) := by
    congr 1
    funext u
    unfold among
    simp only [k4 u, List.not_mem_nil, or_false]
  have hsum := fun o => sitting_sum hb2 k3 o
  rw [hk] at hsum
  have hall := seats_all hb
  have hle : seats w (among G) ≤ seats w (fun _ => true) := seats_le w (fun _ _ => rfl)
  have hsmall : Multisig.queryTotal w.council .never < M128 := by
    have h1 : (Member.multisig w.council).total .never = _ := hb.council.total
    exact lt_of_eq_of_lt h1 hb.council.small
  have htot : Controller.endTotal (c.env e w2) p .council = seats w (fun _ => true) := by
    unfold Controller.endTotal
    rw [if_neg (by show ¬ p.endsAt ≤ w2.block.time; rw [k3.block]; omega), totalVotes_eq, ← hall, ← k3.council]
    rfl
  have hpos := seats_pos hG.someone (fun u hu => (hG.members u hu).2)
  have hfit2 : Gov.votedTotal w2.gov (w.gov.pollCount + 1) < M128 := by
    rw [Gov.votedTotal_eq, hsum, hsum, hsum, hsum]
    simp
    omega
  have hst : isPassed (p.finalStatus (seats w (fun _ => true))) = true := by
    rw [Gov.finalStatus_rule_of_inv hb2.ctl.inv hp hfit2, hsum, hsum, hsum, hsum]
    simp only [if_true, reduceCtorEq, if_false]
    rw [hpq, hpt, hpv]
    exact yes_passes hpos hle hG.quorum hcv.threshold.2 hcv.threshold.1 (fun v hv => (hb.ctl.config.veto v hv).1)
  obtain ⟨⟨w3, subs⟩, hr⟩ := (execute_iff (a := a) (e := e) hw ht k2 k3.info hp).2 ⟨he a ha, rfl, rfl, by rw [htot]; omega,
    Or.inr ⟨rfl, by
      rw [htot]
      refine earlyOk_status.2 ⟨?_, ?_⟩ <;> · intro hn; rw [hn] at hst; cases hst⟩⟩
  have hroom : w2.gov.pollCount + 1 < 2 ^ 64 := by rw [k3.count]; omega
  have hr3 := hr
  obtain ⟨x, hx'⟩ := handle_ctl hr
  have hex := hx'.exec
  simp only [Controller.exec] at hex
  obtain ⟨_, i', p', hi', hp', _, _, _, _, _, hxe⟩ := Controller.executeProposal_ok_iff.1 hex
  rw [k3.info] at hi'; cases hi'
  rw [hp] at hp'; cases hp'
  have hw3 := hx'.world
  have hs3 := hx'.subs
  rw [htot] at hxe
  generalize hgen : p.finalStatus (seats w (fun _ => true)) = st at hst hxe
  obtain ⟨o, n, rfl⟩ : ∃ o n, st = .passed o n := by
    cases st with
    | passed o n => exact ⟨o, n, rfl⟩
    | inProgress z => cases hst
    | rejected z => cases hst
  rw [hxe] at hw3 hs3
  simp only at hw3 hs3
  have hs3 : subs = [.actions (w.gov.pollCount + 1)] := hs3
  subst hs3
  have hi3 : w3.ctl.infos.get (w.gov.pollCount + 1) = some ⟨.council, some w2.block, none, none, l⟩ := by
    rw [hw3]; exact Map.get_set_self _ _ _
  have hp3 : w3.gov.polls.get (w.gov.pollCount + 1) = some { p with status := .passed o n } := by
    rw [hw3]
    show (Map.set _ _ _).get _ = _
    rw [Map.get_set_self, hgen]
  have hmem3 : w3.mem = w2.mem := by rw [hw3]
  have hblk3 : w3.block = w2.block := by rw [hw3]
  have hroom3 : w3.gov.pollCount + 1 < 2 ^ 64 := by rw [hw3]; exact hroom
  obtain ⟨subs, d1, d2, d3⟩ := harmless_done c w3.mem (e := c.env e w3) (s := w3.ctl) (l := l)
    (fun y hy => ⟨fun v hv => by
      subst hv
      exact hl _ hy, hcv.allowed _ (hal' y hy)⟩)
  have hrun : handle c e w3 c.self (.ctl (.executeActions (w.gov.pollCount + 1))) = .ok
      ({ w3 with log := w3.log ++ [.ran (w.gov.pollCount + 1)] }, subs.map (toItem c w3.mem)) := by
    have : Controller.exec (c.env e w3) c.self w3.ctl w3.gov (.executeActions (w.gov.pollCount + 1)) =
        .ok (w3.ctl, w3.gov, subs) :=
      bind_ok_iff.2 ⟨(w3.ctl, subs), Controller.executeActions_ok_iff.2 ⟨rfl, _, hi3, (Controller.actAll_iff _).2 d1⟩, rfl⟩
    refine bind_ok_iff.2 ⟨_, this, ?_⟩
    simp only [d3, List.append_nil]
    rfl
  have m1 : Exec c w2 [.call a (.ctl (.execute (w.gov.pollCount + 1)))] { w3 with log := w3.log ++ [.ran (w.gov.pollCount + 1)] } :=
    .call e hroom hr3 (.actions e hroom3 hrun (others_run (fun i hi => by
      obtain ⟨y, hy, rfl⟩ := List.mem_map.1 hi
      exact d2 y hy)) (.nil _)) (.nil _)
  have hx := k2.tx (hG.members a ha).1 m1
  refine ⟨_, _, o, n, .tx (Acting.trans (.tx .refl ha hx1) k1) ha m1, hblk3.trans k3.block, hi3, rfl, rfl, ?_, ?_⟩
  · exact (outcome_of (w := w3) hi3 hp3).trans rfl
  · have hle := C44_at_most_once hw ht hx (w.gov.pollCount + 1)
    have hge : 1 ≤ ranCount { w3 with log := w3.log ++ [.ran (w.gov.pollCount + 1)] } (w.gov.pollCount + 1) :=
      List.count_pos_iff.2 (List.mem_append_right _ (List.mem_singleton.2 rfl))
    omega

/-- Two of the three members of the council of the sample pass a proposal to change the metadata in the first block. -/
example : ∃ w' i o n, Acting sampleCfg [40, 41] sampleGenesis w' ∧ w'.block = sampleGenesis.block ∧
    w'.ctl.infos.get 1 = some i ∧ i.type = .council ∧ i.actions = [.updateMetadata 7] ∧
    outcome w' 1 = some (.passed o n) ∧ ranCount w' 1 = 1 :=
  C139_at_once sampleCfg_wf sampleCfg_tame (.init sample_genesis) (r := ⟨[.upgradeDao, .updateMetadata], ONE / 2, ONE / 2⟩) rfl
    ⟨by decide +kernel, by decide, by decide +kernel⟩ sampleExt (by decide) (by decide +kernel) (by decide +kernel)
    (by decide) (fun x hx => by rw [List.mem_singleton.1 hx]; trivial)
    (fun x hx => by rw [List.mem_singleton.1 hx]; exact ⟨_, by decide, .updateMetadata 7⟩)

end Verif.Dao
