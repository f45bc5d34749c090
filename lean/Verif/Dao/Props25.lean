import Verif.Dao.Props21

/-!
# The contracts of a DAO together: where execution may be early, a quorum of the members acts within the cooldown (C143)
-/

set_option linter.unusedSimpArgs false

namespace Verif.Dao
open Verif
open Verif.Controller (Action GovConfig CouncilConfig Info Proposable Changed ValidConfig)

/-! ### Specification -/

/-- A group of members who are accounts outside of the DAO, and who together have the share of the weight that the quorum
asks for. -/
structure Enough (c : Cfg) (w : World) (l : List Addr) : Prop where
  members : ∀ u ∈ l, c.outsider u ∧ 0 < w.mem.weight u
  someone : l ≠ []
  quorum : HasShare w (among l) w.ctl.config.quorum

/-- How long execution has to wait for once a vote turned the expected outcome: a tenth of the voting period, and no time at all
in a multisig. -/
def wait (w : World) : Nat :=
  if w.mem.daoType = .multisig then 0 else w.ctl.config.voteDuration / 10 * 10 ^ 9

/-! ### Lemmas -/

/-- While a proposal is voted on by the accounts `k` only, all for yes, in the block in which it was made. -/
structure Rushed (w0 w : World) (id : Nat) (l : List Action) (ends : Nat) (k : List Addr) : Prop where
  voting : Voting w0 w id l ends
  earliest : ∀ i t, w.ctl.infos.get id = some i → i.earliest = some t → t ≤ w0.block.time + wait w0
  choices : ∀ u, choice w id u = if u ∈ k then some .yes else none

theorem rushed_created {c : Cfg} (hw : c.Wf) (ht : c.Tame) {w w1 : World} (h : Reachable c w) {a : Addr} {e : Ext}
    {t d : Nat} {l : List Action} {f : List (Nat × Nat)}
    (hfit : w.block.time + w.ctl.config.voteDuration * 10 ^ 9 < 2 ^ 64) (room : w.gov.pollCount + 1 < 2 ^ 64)
    (hx : handle c e w a (.ctl (.createProposal ⟨t, d, l, none⟩ f)) = .ok (w1, []))
    (hv : Voting w w1 (w.gov.pollCount + 1) l (w.block.time + w.ctl.config.voteDuration * 10 ^ 9)) :
    Rushed w w1 (w.gov.pollCount + 1) l (w.block.time + w.ctl.config.voteDuration * 10 ^ 9) [] := by
  have hb := h.base hw ht
  obtain ⟨x, hx⟩ := handle_ctl hx
  obtain ⟨_, h2, _, h4, _⟩ := Controller.C89_general_terms rfl rfl hx.exec hfit room
  have hw1 := hx.world
  simp only at hw1
  refine ⟨hv, fun i t hi hit => ?_, fun u => ?_⟩
  · rw [hw1] at hi
    have hi := h2.symm.trans hi
    cases hi
    cases hit
  · rw [if_neg List.not_mem_nil]
    unfold choice Gov.queryPollVoter
    rw [hw1]
    simp only
    rw [h4]
    cases hv : w.gov.votes.get (Gov.vkey u (w.gov.pollCount + 1)) with
    | none => rfl
    | some v =>
      have := hb.ctl.inv.vkeys _ _ hv
      have h7 := (Gov.vkey_inj.1 this.1).2
      omega

theorem rushed_voted {c : Cfg} (hw : c.Wf) (ht : c.Tame) {w0 w : World} (h : Reachable c w) {id : Nat} {l : List Action}
    {ends : Nat} {k : List Addr} (hv : Rushed w0 w id l ends k) {a : Addr} (e : Ext) (hr : e.restricted a = false)
    (hm : 0 < w0.mem.weight a) (hends : w0.block.time < ends)
    (hfit : w0.block.time + w0.ctl.config.voteDuration * 10 ^ 9 < 2 ^ 64) :
    ∃ w1, handle c e w a (.ctl (.castVote id .yes)) = .ok (w1, []) ∧ Rushed w0 w1 id l ends (a :: k) := by
  obtain ⟨w1, hx, hv1, hch, _⟩ := voted_alone hw ht h hv.voting e hr hm hends
  obtain ⟨_, _, h2, _⟩ := C118_vote_effect hx
  refine ⟨w1, hx, hv1, fun i t hi hit => ?_, fun u => ?_⟩
  · obtain ⟨x, hx⟩ := handle_ctl hx
    have he := hx.exec
    simp only [Controller.exec, bind_ok_iff, pure_ok_iff] at he
    obtain ⟨y, hy, rfl⟩ := he
    obtain ⟨_, _, i', p', q, k3, _, k5, _, k6, k7, k8⟩ := Controller.castVote_ok_iff.1 hy
    have hw1 := hx.world
    simp only at hw1
    rw [hw1] at hi
    simp only at hi
    rw [k8] at hi
    have k3 : w.ctl.infos.get id = some i' := k3
    unfold Controller.voted Controller.restartCooldown at hi
    split at hi
    · rename_i hcond
      split at hi
      · have hi : (w.ctl.infos.set id _).get id = some i := hi
        rw [Map.get_set_self] at hi
        cases hi
        cases hit
        have hd : (c.env e w).daoType ≠ .multisig := hcond.2
        have hd : w0.mem.daoType ≠ .multisig := by rw [← hv.voting.mem]; exact hd
        refine le_trans (min_le_left _ _) ?_
        unfold wait
        rw [if_neg hd]
        show Controller.plusSeconds w.block.time (w.ctl.config.voteDuration / 10) ≤ _
        rw [hv.voting.block, hv.voting.config]
        unfold Controller.plusSeconds wadd64
        exact le_trans (Nat.mod_le _ _) (Nat.add_le_add_left (Nat.mod_le _ _) _)
      · exact hv.earliest i t hi hit
    · exact hv.earliest i t hi hit
  · by_cases hua : u = a
    · subst hua
      rw [hch, if_pos List.mem_cons_self]
    · have : choice w1 id u = choice w id u := by
        unfold choice
        rw [h2 id u (fun hk => hua hk.2)]
      rw [this, hv.choices u]
      have : u ∈ a :: k ↔ u ∈ k := by simp [hua]
      simp [this]

theorem rushed_votes {c : Cfg} (hw : c.Wf) (ht : c.Tame) {G : List Addr} (e : Ext) {w0 : World} {id : Nat}
    {l : List Action} {ends : Nat} (hends : w0.block.time < ends) (room : w0.gov.pollCount + 2 < 2 ^ 64)
    (hfit : w0.block.time + w0.ctl.config.voteDuration * 10 ^ 9 < 2 ^ 64)
    (hG : ∀ u ∈ G, c.outsider u ∧ 0 < w0.mem.weight u) (he : ∀ u ∈ G, e.restricted u = false) :
    ∀ (k : List Addr) {w : World} (k0 : List Addr), (∀ u ∈ k, u ∈ G) → Reachable c w → Rushed w0 w id l ends k0 →
    ∃ w1 k1, Acting c G w w1 ∧ Reachable c w1 ∧ Rushed w0 w1 id l ends k1 ∧ ∀ u, u ∈ k1 ↔ u ∈ k ∨ u ∈ k0 := by
  intro k
  induction k with
  | nil => intro w k0 _ hr hv; exact ⟨w, k0, .refl, hr, hv, fun u => by simp⟩
  | cons a k ih =>
    intro w k0 hk hr hv
    have ha := hk a List.mem_cons_self
    obtain ⟨w1, h1, h2⟩ := rushed_voted hw ht hr hv e (he a ha) (hG a ha).2 hends hfit
    have hx : Exec c w [.call a (.ctl (.castVote id .yes))] w1 :=
      .call e (by rw [hv.voting.count]; omega) h1 (.nil _) (.nil _)
    obtain ⟨w2, k1, j1, j2, j3, j4⟩ := @ih w1 (a :: k0) (fun u hu => hk u (List.mem_cons_of_mem _ hu))
      (hr.tx (hG a ha).1 hx) h2
    refine ⟨w2, k1, Acting.trans (.tx .refl ha hx) j1, j2, j3, fun u => ?_⟩
    rw [j4]
    simp only [List.mem_cons]
    tauto

theorem weighing_one {w : World} {a : Addr} : weighing w (among [a]) = w.mem.weight a := by
  unfold weighing
  have h := sum_pick w.mem.mem.weights a
  have h1 : w.mem.mem.weights.sum (fun u x => if among [a] u = true then x else 0) =
      w.mem.mem.weights.sum (fun u x => if u = a then x else 0) := by
    apply sum_congr
    intro u x
    simp [among]
  rw [h1, h]
  cases w.mem <;> rfl

theorem weighing_pos {w : World} {l : List Addr} (hl : l ≠ []) (h : ∀ u ∈ l, 0 < w.mem.weight u) :
    0 < weighing w (among l) := by
  cases l with
  | nil => exact absurd rfl hl
  | cons a t =>
    have ha := h a List.mem_cons_self
    have h1 : weighing w (among [a]) ≤ weighing w (among (a :: t)) := weighing_le w (fun u hu => by
      unfold among at hu ⊢
      simp only [decide_eq_true_eq, List.mem_singleton] at hu ⊢
      rw [hu]
      exact List.mem_cons_self)
    rw [weighing_one] at h1
    omega

/-- A group that is large enough brings its proposal to the end of the cooldown; whoever of it then executes it has it
passed. -/
theorem rushed {c : Cfg} (hw : c.Wf) (ht : c.Tame) {w : World} (h : Reachable c w) {G : List Addr} (hG : Enough c w G)
    (hearly : w.ctl.config.early = true)
    (e : Ext) (he : ∀ u ∈ G, e.restricted u = false) (hd : w.ctl.config.minDeposit = none ∨ w.mem.daoType = .denom)
    (hfit : w.block.time + w.ctl.config.voteDuration * 10 ^ 9 < 2 ^ 64) (room : w.gov.pollCount + 2 < 2 ^ 64)
    (t d : Nat) {l : List Action} (hten : l.length ≤ 10) (hl : ∀ x ∈ l, Proposable (c.env e w) w.ctl.config x) :
    ∃ a ∈ G, ∃ w1 b, Acting c G w { w1 with block := b } ∧ Reachable c { w1 with block := b } ∧
      Voting w w1 (w.gov.pollCount + 1) l (w.block.time + w.ctl.config.voteDuration * 10 ^ 9) ∧
      b = ⟨w.block.height, w.block.time + wait w⟩ ∧
      ∃ w2 subs o n, handle c e { w1 with block := b } a (.ctl (.execute (w.gov.pollCount + 1))) = .ok (w2, subs) ∧
        outcome w2 (w.gov.pollCount + 1) = some (.passed o n) := by
  have hb := h.base hw ht
  have hdur := hb.ctl.config.duration
  have hwait : wait w < w.ctl.config.voteDuration * 10 ^ 9 := by
    unfold wait
    split
    · exact Nat.mul_pos hdur (by norm_num)
    · exact Nat.mul_lt_mul_of_pos_right (by omega) (by norm_num)
  obtain ⟨a, ha⟩ := List.exists_mem_of_ne_nil G hG.someone
  obtain ⟨f, w1, h1, hv1⟩ := created_alone hw ht h e (he a ha) (hG.members a ha).2 hd hfit (by omega) t d hten hl
  have hx1 : Exec c w [.call a (.ctl (.createProposal ⟨t, d, l, none⟩ f))] w1 :=
    .call e (by omega) h1 (.nil _) (.nil _)
  obtain ⟨w2, k, k1, k2, k3, k4⟩ := rushed_votes hw ht e (by omega) room hfit hG.members he G [] (fun u hu => hu)
    (h.tx (hG.members a ha).1 hx1) (rushed_created hw ht h hfit (by omega) h1 hv1)
  obtain ⟨i, hi, hg, hact⟩ := k3.voting.info
  obtain ⟨p, hp, hpe, hpq, hpt, hpv⟩ := k3.voting.poll
  have hact2 : Acting c G w { w2 with block := ⟨w.block.height, w.block.time + wait w⟩ } :=
    .block (Acting.trans (.tx .refl ha hx1) k1) (by rw [k3.voting.block]) (by rw [k3.voting.block]; exact Nat.le_add_right _ _)
  have hrb := (hact2.later (fun u hu => (hG.members u hu).1)).reachable h
  have hk : ∀ u, choice w2 (w.gov.pollCount + 1) u = if u ∈ G then some .yes else none := by
    intro u
    rw [k3.choices u]
    have := k4 u
    simp only [List.not_mem_nil, or_false] at this
    simp [this]
  have hbb := hrb.base hw ht
  have hun : outcome { w2 with block := ⟨w.block.height, w.block.time + wait w⟩ } (w.gov.pollCount + 1) = none :=
    k3.voting.unresolved
  have hno : i.executedAt = none := by
    have hn := k3.voting.unresolved
    unfold outcome at hn
    rw [hp, hi] at hn
    simp only at hn
    cases hx : i.executedAt with
    | none => rfl
    | some b => rw [hx] at hn; cases hn
  have hopen : w.block.time + wait w < p.endsAt := by rw [hpe]; omega
  have hlive : p.live := (hbb.ctl.ended _ i p hi hp).1 hno
  have hheld : ∀ o, held { w2 with block := ⟨w.block.height, w.block.time + wait w⟩ } (w.gov.pollCount + 1) o =
      if o = .yes then weighing w (among G) else 0 := by
    intro o
    unfold held
    rw [show weighing { w2 with block := ⟨w.block.height, w.block.time + wait w⟩ } _ = weighing w _ from
      weighing_congr k3.voting.mem _]
    have hc : ∀ u, choice { w2 with block := ⟨w.block.height, w.block.time + wait w⟩ } (w.gov.pollCount + 1) u =
      if u ∈ G then some .yes else none := hk
    unfold weighing
    by_cases ho : o = .yes
    · subst ho
      rw [if_pos rfl]
      apply sum_congr
      intro u x
      simp only [hc u]
      by_cases hu : u ∈ G <;> simp [hu, among]
    · rw [if_neg ho]
      apply sum_zero
      intro u x _
      simp only [hc u]
      have hne : (Gov.Outcome.yes = o) ↔ False := ⟨fun h => ho h.symm, False.elim⟩
      by_cases hu : u ∈ G <;> simp [hu, hne]
  have hvs := fun o => votedSum_held hw ht hrb hi hg (Controller.queryPoll_ok_iff.2 hp) hlive hopen o
  have hall : w.mem.total .never = weighing w (fun _ => true) := weighing_all hw ht h
  have htot : Controller.endTotal (c.env e { w2 with block := ⟨w.block.height, w.block.time + wait w⟩ }) p .general =
      weighing w (fun _ => true) := by
    unfold Controller.endTotal
    rw [if_neg (by show ¬ p.endsAt ≤ w.block.time + wait w; omega), totalVotes_eq, ← hall, ← k3.voting.mem]
    rfl
  have hle : weighing w (among G) ≤ weighing w (fun _ => true) := weighing_le w (fun _ _ => rfl)
  have hpos := weighing_pos hG.someone (fun u hu => (hG.members u hu).2)
  have hsmall : weighing w (fun _ => true) < M128 := by
    rw [← hall]
    exact lt_of_eq_of_lt hb.mem.total hb.mem.small
  have hfit2 : Gov.votedTotal w2.gov (w.gov.pollCount + 1) < M128 := by
    rw [Gov.votedTotal_eq, hvs, hvs, hvs, hvs, hheld, hheld, hheld, hheld]
    simp
    omega
  have hrule : isPassed (Gov.ruleStatus (weighing w (among G)) 0 0 0 p.quorum p.threshold p.vetoThreshold
      (weighing w (fun _ => true))) = true := by
    rw [hpq, hpt, hpv]
    exact yes_passes hpos hle hG.quorum hb.ctl.config.threshold.2 hb.ctl.config.threshold.1
      (fun v hv => (hb.ctl.config.veto v hv).1)
  have hst : isPassed (p.finalStatus (weighing w (fun _ => true))) = true := by
    rw [Gov.finalStatus_rule_of_inv hbb.ctl.inv hp hfit2, hvs, hvs, hvs, hvs, hheld, hheld, hheld, hheld]
    simpa using hrule
  obtain ⟨⟨w3, subs⟩, hr⟩ := (execute_iff (a := a) (e := e) hw ht hrb hi hp).2 ⟨he a ha, hno, by
      unfold Info.pastEarliest
      cases hie : i.earliest with
      | none => rfl
      | some t => simpa using k3.earliest i t hi hie, by rw [hg, htot]; omega,
    Or.inr ⟨by
      rw [hg]
      show w2.ctl.config.early = true
      rw [k3.voting.config]
      exact hearly, by
      rw [hg, htot]
      refine earlyOk_status.2 ⟨?_, ?_⟩ <;> · intro hn; rw [hn] at hst; cases hst⟩⟩
  have hout := C116_early hw ht hrb hr hi hg (Controller.queryPoll_ok_iff.2 hp) hopen
  rw [hheld, hheld, hheld, hheld] at hout
  have htt : ({ w2 with block := ⟨w.block.height, w.block.time + wait w⟩ } : World).mem.total .never =
      weighing w (fun _ => true) := by rw [← hall, ← k3.voting.mem]
  rw [htt] at hout
  simp only [if_true, reduceCtorEq, if_false] at hout
  generalize Gov.ruleStatus (weighing w (among G)) 0 0 0 p.quorum p.threshold p.vetoThreshold
      (weighing w (fun _ => true)) = st at hout hrule
  obtain ⟨o, n, rfl⟩ : ∃ o n, st = .passed o n := by
    cases st with
    | passed o n => exact ⟨o, n, rfl⟩
    | inProgress z => cases hrule
    | rejected z => cases hrule
  exact ⟨a, ha, w2, _, hact2, hrb, k3.voting, rfl, w3, subs, o, n, hr, hout⟩

/-! ## C143 -/

/-- Whatever the state of the DAO: if proposals may be executed early, and members, none of whom is restricted, have the
share of the weight that the quorum asks for, then they can have any proposal of at most ten actions passed that can be
made (if no deposit is asked for, or one in coins, which they attach). It takes a tenth of the voting period, in a multisig no
time at all, and nobody else has to act; whether the others would have been against it does not matter if they are not faster. -/
theorem C143_passes {c : Cfg} (hw : c.Wf) (ht : c.Tame) {w : World} (h : Reachable c w) {G : List Addr}
    (hG : Enough c w G) (hearly : w.ctl.config.early = true) (e : Ext) (he : ∀ u ∈ G, e.restricted u = false)
    (hd : w.ctl.config.minDeposit = none ∨ w.mem.daoType = .denom)
    (hfit : w.block.time + w.ctl.config.voteDuration * 10 ^ 9 < 2 ^ 64) (room : w.gov.pollCount + 2 < 2 ^ 64)
    {l : List Action} (hten : l.length ≤ 10) (hl : ∀ x ∈ l, Proposable (c.env e w) w.ctl.config x) :
    ∃ w' i o n, Acting c G w w' ∧ w'.block = ⟨w.block.height, w.block.time + wait w⟩ ∧
      w'.ctl.infos.get (w.gov.pollCount + 1) = some i ∧ i.type = .general ∧ i.actions = l ∧
      outcome w' (w.gov.pollCount + 1) = some (.passed o n) ∧ sentCount w' (w.gov.pollCount + 1) = 1 := by
  obtain ⟨a, ha, w1, b, h1, h2, h3, h4, w2, subs, o, n, h5, h6⟩ := rushed hw ht h hG hearly e he hd hfit room 0 0 hten hl
  have hroom : w1.gov.pollCount + 1 < 2 ^ 64 := by rw [h3.count]; omega
  obtain ⟨w3, st, m1, m2, m3, m4, m5, m6⟩ := executed_run hw ht h2 h5 hroom
  rw [h6] at m3
  cases m3
  obtain ⟨i, hi, hg, hact⟩ := h3.info
  obtain ⟨i', hi', hg', hact'⟩ := m6 i hi
  have hx := h2.tx (hG.members a ha).1 m1
  refine ⟨w3, i', o, n, .tx h1 ha m1, by rw [m5]; exact h4, hi', hg'.trans hg, hact'.trans hact, m2, ?_⟩
  have hle := (C44_at_most_once hw ht hx (w.gov.pollCount + 1)).2
  have hge : 1 ≤ sentCount w3 (w.gov.pollCount + 1) := List.count_pos_iff.2 (m4 rfl)
  omega

/-- If the actions amend the rules, the group can bring it about in that time that the rules are as it wants them. -/
theorem C143_amends {c : Cfg} (hw : c.Wf) (ht : c.Tame) {w : World} (h : Reachable c w) {G : List Addr}
    (hG : Enough c w G) (hearly : w.ctl.config.early = true) (e : Ext) (he : ∀ u ∈ G, e.restricted u = false)
    (hd : w.ctl.config.minDeposit = none ∨ w.mem.daoType = .denom)
    (hfit : w.block.time + w.ctl.config.voteDuration * 10 ^ 9 < 2 ^ 64) (room : w.gov.pollCount + 2 < 2 ^ 64)
    {l : List Action} (hten : l.length ≤ 10) {g : GovConfig} (ha : Amendable w.mem.daoType w.ctl.config l g)
    (hc : ∀ ch, .updateGovConfig ch ∈ l → ∃ x, Changed w.ctl.config ch x ∧ ValidConfig w.mem.daoType x)
    (hr : Room w l) :
    ∃ w', Acting c G w w' ∧ w'.block = ⟨w.block.height, w.block.time + wait w⟩ ∧
      w'.ctl.config = g ∧ w'.ctl.council = l.foldl councilAfter w.ctl.council ∧ Amends w w' l := by
  obtain ⟨a, hin, w1, b, h1, h2, h3, h4, w2, subs, o, n, h5, h6⟩ := rushed hw ht h hG hearly e he hd hfit room 0 0 hten
    (amendable_proposable (e := c.env e w) ha hc)
  obtain ⟨i, hi, _, hact⟩ := h3.info
  obtain ⟨w3, m1, _, m3, m4, m5⟩ := C132_takes_effect hw ht h2 h5 (hG.members a hin).1 h6 (i := i) hi (g := g)
    (by rw [hact]; show Amendable w1.mem.daoType w1.ctl.config l g; rw [h3.mem, h3.config]; exact ha)
    (by
      rw [hact]
      refine ⟨?_, ?_, ?_, hr.council, ?_⟩
      · intro u
        show Distributor.owedOf w1.dist u < _
        rw [h3.dist]; exact hr.rewards u
      · show 2 * (w1.dist.weights.sum _ + _) < _
        rw [h3.dist]; exact hr.weights
      · show w1.mem.total .never + _ < _
        rw [h3.mem]; exact hr.members
      · show w1.gov.pollCount + 1 < _
        rw [h3.count]; omega)
  rw [hact] at m4 m5
  have hblk : w3.block = b := (m1.moved hw ht (fun j hj => by
    rw [List.mem_singleton.1 hj]; exact Or.inl (hG.members a hin).1) (h2.base hw ht)).2.block
  refine ⟨w3, .tx h1 hin m1, by rw [hblk]; exact h4, m3, ?_, ⟨?_, ?_, ?_, ?_⟩⟩
  · rw [m4]
    show l.foldl councilAfter w1.ctl.council = _
    rw [h3.rules]
  · rw [← h3.mem]; exact m5.period
  · rw [← h3.dist]; exact m5.minimum
  · rw [← h3.council]; exact m5.seats
  · rw [← h3.mem]; exact m5.shares

/-- So in a DAO for a native coin, someone who never had anything to do with it and is not restricted only needs the coins: once
they stake so much that they have the share that the quorum asks for, they can have any such proposal passed, all by themselves,
a tenth of a voting period later. -/
theorem C143_newcomer {c : Cfg} (hw : c.Wf) (ht : c.Tame) {w : World} (h : Reachable c w) {s : Staking.State}
    (hm : w.mem = .staking .denom s) (hearly : w.ctl.config.early = true) {a : Addr} (ho : c.outsider a) {n : Nat} (hn : 0 < n)
    (hshare : w.ctl.config.quorum * (w.mem.total .never + n) ≤ (w.mem.weight a + n) * 10 ^ 18)
    (hin : Fits w a n) (hf : RewardsFit w) (e : Ext) (he : e.restricted a = false)
    (hfit : w.block.time + w.ctl.config.voteDuration * 10 ^ 9 < 2 ^ 64) (room : w.gov.pollCount + 2 < 2 ^ 64)
    {l : List Action} (hten : l.length ≤ 10) (hl : ∀ x ∈ l, Proposable (c.env e w) w.ctl.config x) :
    ∃ w' i o m, Acting c [a] w w' ∧ w'.block = ⟨w.block.height, w.block.time + w.ctl.config.voteDuration / 10 * 10 ^ 9⟩ ∧
      w'.ctl.infos.get (w.gov.pollCount + 1) = some i ∧ i.type = .general ∧ i.actions = l ∧
      outcome w' (w.gov.pollCount + 1) = some (.passed o m) ∧ sentCount w' (w.gov.pollCount + 1) = 1 := by
  have hb := h.base hw ht
  obtain ⟨hacc, heff⟩ := C119_stake_denom hw ht h hm a none n hin hf e
  obtain ⟨⟨w1, subs⟩, hx⟩ := hacc.2 he
  obtain ⟨hsub, hj1, hj2⟩ := heff _ hx
  simp only at hsub
  subst hsub
  have hex : Exec c w [.call a (.mem (.staking (.stakeDenom [⟨s.asset, n⟩] none)))] w1 :=
    .call e (by omega) hx (.nil _) (.nil _)
  have hr1 := h.tx ho hex
  have hst := handle_mem hw hb.mem (fun hs => absurd hs (fun hs => ho.1 hs)) hx
  simp only at hst
  have hctl : w1.ctl = w.ctl := (congrArg World.ctl hst.same :)
  have hblk : w1.block = w.block := (congrArg World.block hst.same :)
  have htot : w1.mem.total .never = w.mem.total .never + n := by
    have hx0 := hx
    simp only [handle] at hx0
    obtain ⟨y, hy, hd⟩ := bind_ok_iff.1 hx0
    rw [hm] at hy
    simp only [Member.exec] at hy
    obtain ⟨z, hz, hy⟩ := bind_ok_iff.1 hy
    have hz : Staking.stakeFor s (c.menv e w a) a n = .ok z := by
      have : Staking.exec .denom s (c.menv e w a) (.stakeDenom [⟨s.asset, n⟩] none) =
          Staking.stakeFor s (c.menv e w a) a n := by simp [Staking.exec, Staking.stakeDenom, Cfg.menv]
      rw [← this]; exact hz
    obtain ⟨_, _, _, rfl⟩ := Staking.stakeFor_ok_iff.1 hz
    cases hy
    obtain ⟨g, d, hh⟩ := raise_handled (u := a) (o := s.mem.weight a) (n := s.mem.weight a + n) hw ht h hf (by
      have := hin.rewards
      rw [hm] at this
      exact this) (m := .staking (.stakeDenom [⟨s.asset, n⟩] none)) (e := e) (a := a) (by
        rw [hm]
        simp only [Member.exec]
        exact bind_ok_iff.2 ⟨_, (by
          have : Staking.exec .denom s (c.menv e w a) (.stakeDenom [⟨s.asset, n⟩] none) =
            Staking.stakeFor s (c.menv e w a) a n := by simp [Staking.exec, Staking.stakeDenom, Cfg.menv]
          rw [this]; exact hz), rfl⟩)
    rw [hx] at hh
    cases hh
    rw [hm]
    rfl
  have hcount : w1.gov.pollCount = w.gov.pollCount := by
    rcases hst.gov with ⟨l, e', _, _, hu, _⟩ | ⟨hg, _⟩
    · exact updateAll_count hu
    · rw [hg]
  have hty : w1.mem.daoType = .denom := by rw [hst.type, hm]; rfl
  have henough : Enough c w1 [a] := by
    refine ⟨fun u hu => ?_, by simp, ?_⟩
    · rw [List.mem_singleton.1 hu]
      have : w1.mem.weight a = w.mem.weight a + n := hj1
      exact ⟨ho, by omega⟩
    · unfold HasShare
      rw [weighing_one, ← weighing_all hw ht hr1, htot, hctl]
      rw [show w1.mem.weight a = w.mem.weight a + n from hj1]
      exact hshare
  have hwait : wait w1 = w.ctl.config.voteDuration / 10 * 10 ^ 9 := by
    unfold wait
    rw [hty, hctl]
    rfl
  obtain ⟨w', i, o, m, k1, k2, k3, k4, k5, k6, k7⟩ := C143_passes hw ht hr1 henough (by rw [hctl]; exact hearly) e
    (fun u hu => by rw [List.mem_singleton.1 hu]; exact he) (Or.inr hty) (by rw [hblk, hctl]; exact hfit)
    (by rw [hcount]; exact room) hten (fun x hx => by
      have := hl x hx
      rw [hctl]
      have hd : (c.env e w1).daoType = (c.env e w).daoType := hst.type
      cases x <;> first | exact this | (simp only [Proposable, hd] at this ⊢; exact this))
  rw [hcount] at k3 k6 k7
  rw [hblk, hwait] at k2
  exact ⟨w', i, o, m, Acting.trans (.tx .refl List.mem_cons_self hex) k1, k2, k3, k4, k5, k6, k7⟩

/-! ### Examples -/

/-- User 12 has 15 % of the weight, which is more than the quorum: they have funds of the treasury paid to themselves ten
seconds later, while 85 % of the members have not said anything. -/
example : ∃ w' i o n, Acting sampleCfg [12] (sampleRun samplePower) w' ∧
    w'.block.time = (sampleRun samplePower).block.time + 10 * 10 ^ 9 ∧
    w'.ctl.infos.get 1 = some i ∧ i.actions = [.requestFunding none 12 [⟨.native 20, 500⟩]] ∧
    outcome w' 1 = some (.passed o n) ∧ sentCount w' 1 = 1 := by
  have hty : (sampleRun samplePower).mem.daoType = .denom := by decide +kernel
  have hid : (sampleRun samplePower).gov.pollCount + 1 = 1 := by decide +kernel
  have hwait : wait (sampleRun samplePower) = 10 * 10 ^ 9 := by decide +kernel
  obtain ⟨w', i, o, n, h1, h2, h3, _, h4, h5, h6⟩ := C143_passes sampleCfg_wf sampleCfg_tame (sampleRun_reachable _)
    (G := [12]) ⟨by decide +kernel, by decide, by decide +kernel⟩ (by decide +kernel) sampleExt (by decide) (Or.inr hty)
    (by decide +kernel) (by decide +kernel) (l := [.requestFunding none 12 [⟨.native 20, 500⟩]]) (by decide)
    (fun x hx => by
      rw [List.mem_singleton.1 hx]
      intro _ a ha
      rw [List.mem_singleton.1 ha]
      exact fun _ _ hn => by cases hn)
  rw [hid] at h3 h5 h6
  exact ⟨w', i, o, n, h1, by rw [h2, hwait], h3, h4, h5, h6⟩

/-- User 50 is no member. With 20 coins they reach the quorum, and can do the same. -/
example : ∃ w' i o n, Acting sampleCfg [50] (sampleRun samplePower) w' ∧ (sampleRun samplePower).mem.weight 50 = 0 ∧
    w'.block.time = (sampleRun samplePower).block.time + 10 * 10 ^ 9 ∧
    w'.ctl.infos.get 1 = some i ∧ i.actions = [.requestFunding none 50 [⟨.native 20, 500⟩]] ∧
    outcome w' 1 = some (.passed o n) ∧ sentCount w' 1 = 1 := by
  have hid : (sampleRun samplePower).gov.pollCount + 1 = 1 := by decide +kernel
  have hdur : (sampleRun samplePower).ctl.config.voteDuration = 100 := by decide +kernel
  obtain ⟨s, hs⟩ : ∃ s, (sampleRun samplePower).mem = .staking .denom s := by
    have : (sampleRun samplePower).mem.daoType = .denom := by decide +kernel
    cases hm : (sampleRun samplePower).mem with
    | staking k s => 
      rw [hm] at this
      cases k with
      | token => cases this
      | denom => exact ⟨s, rfl⟩
    | nft s => rw [hm] at this; cases this
    | multisig s => rw [hm] at this; cases this
  obtain ⟨w', i, o, n, h1, h2, h3, _, h4, h5, h6⟩ := C143_newcomer sampleCfg_wf sampleCfg_tame (sampleRun_reachable samplePower)
    hs (by decide +kernel) (a := 50) (by decide +kernel) (n := 20) (by decide) (by decide +kernel)
    ⟨by decide +kernel, by decide +kernel⟩ (fun b => by rw [Distributor.owed_empty (by decide +kernel)]; decide)
    sampleExt (by decide) (by decide +kernel) (by decide +kernel)
    (l := [.requestFunding none 50 [⟨.native 20, 500⟩]]) (by decide)
    (fun x hx => by
      rw [List.mem_singleton.1 hx]
      intro _ a ha
      rw [List.mem_singleton.1 ha]
      exact fun _ _ hn => by cases hn)
  rw [hid] at h3 h5 h6
  rw [hdur] at h2
  exact ⟨w', i, o, n, h1, by decide +kernel, by rw [h2], h3, h4, h5, h6⟩

end Verif.Dao
