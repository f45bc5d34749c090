import Verif.Dao.Props26
import Mathlib.Data.List.Dedup

/-!
# The contracts of a DAO together: no cooldown for those who voted before they staked (C146)
-/

set_option linter.unusedSimpArgs false

namespace Verif.Dao
open Verif
open Verif.Controller (Action GovConfig CouncilConfig Info Proposable Changed ValidConfig Sub)

/-! ### Specification -/

/-- The result of a proposal by the published rule, if those who chose "yes" weigh `n` more. -/
def ifRaised (w : World) (id : Nat) (p : Gov.Poll) (n : Nat) : Gov.Status :=
  Gov.ruleStatus (held w id .yes + n) (held w id .no) (held w id .abstain) (held w id .veto) p.quorum p.threshold
    p.vetoThreshold (w.mem.total .never + n)

/-- A general proposal that is voted on, in a DAO where proposals may be executed early, and whose cooldown is over. -/
structure Ripe (w : World) (id : Nat) (i : Info) (p : Gov.Poll) : Prop where
  info : w.ctl.infos.get id = some i
  general : i.type = .general
  poll : Gov.queryPoll w.gov id = .ok p
  unresolved : outcome w id = none
  votable : w.block.time < p.endsAt
  early : w.ctl.config.early = true
  waited : ∀ t, i.earliest = some t → t ≤ w.block.time

/-! ### Lemmas -/

theorem sum_over (W : Map Addr Nat) (P : Addr → Bool) {l : List Addr} (hn : l.Nodup) (hl : ∀ u, W.has u = true → u ∈ l) :
    W.sum (fun u x => if P u then x else 0) = ((l.filter P).map (fun u => (W.get u).getD 0)).sum := by
  rw [sum_list W (l.filter P) (hn.filter _)]
  apply Map.sum_congr
  intro u x hx
  have : u ∈ l := hl u (by rw [Map.has_iff]; exact ⟨x, hx⟩)
  simp [List.mem_filter, this]

theorem sum_one (l : List Addr) (hn : l.Nodup) (a : Addr) (n : Nat) (g : Addr → Nat) :
    (l.map (fun u => g u + if u = a then n else 0)).sum = (l.map g).sum + if a ∈ l then n else 0 := by
  induction l with
  | nil => rfl
  | cons b t ih =>
    rw [List.nodup_cons] at hn
    rw [List.map_cons, List.sum_cons, List.map_cons, List.sum_cons, ih hn.2]
    by_cases hb : b = a
    · subst hb
      simp [hn.1]
      omega
    · have : a ∈ b :: t ↔ a ∈ t := by simp [Ne.symm hb]
      simp only [if_neg hb, this]
      omega

theorem joined_weighing {w w1 : World} {a : Addr} {n : Nat} (hj : Joined w w1 a n) (P : Addr → Bool) :
    weighing w1 P = weighing w P + if P a then n else 0 := by
  have hwt : ∀ (v : World) u, v.mem.weight u = (v.mem.mem.weights.get u).getD 0 := by
    intro v u
    cases v.mem <;> rfl
  have hn : (a :: (w.mem.mem.weights.keys ++ w1.mem.mem.weights.keys)).dedup.Nodup := List.nodup_dedup _
  generalize hL : (a :: (w.mem.mem.weights.keys ++ w1.mem.mem.weights.keys)).dedup = L at hn
  have hm : ∀ u, u ∈ L ↔ u = a ∨ u ∈ w.mem.mem.weights.keys ∨ u ∈ w1.mem.mem.weights.keys := by
    intro u
    rw [← hL]
    simp
  unfold weighing
  rw [sum_over w1.mem.mem.weights P hn (fun u hu => (hm u).2 (Or.inr (Or.inr (Map.mem_keys.2 (Map.has_iff.1 hu))))),
    sum_over w.mem.mem.weights P hn (fun u hu => (hm u).2 (Or.inr (Or.inl (Map.mem_keys.2 (Map.has_iff.1 hu)))))]
  have hg : (fun u => (w1.mem.mem.weights.get u).getD 0) =
      fun u => (w.mem.mem.weights.get u).getD 0 + if u = a then n else 0 := by
    funext u
    rw [← hwt, ← hwt]
    by_cases hu : u = a
    · subst hu
      rw [if_pos rfl]
      exact hj.1
    · rw [if_neg hu]
      exact hj.2 u hu
  rw [hg, sum_one _ (hn.filter _)]
  have : a ∈ L.filter P ↔ P a = true := by
    rw [List.mem_filter]
    exact ⟨fun h => h.2, fun h => ⟨(hm a).2 (Or.inl rfl), h⟩⟩
  simp only [this]

/-- A message to the membership contract leaves the choices and the terms as they are. -/
theorem member_keeps {c : Cfg} (hw : c.Wf) (ht : c.Tame) {w w1 : World} (h : Reachable c w) {e : Ext} {x : Addr}
    {m : MemberMsg} {subs : List Item} (hx : handle c e w x (.mem m) = .ok (w1, subs)) (hxo : c.outsider x) {id : Nat}
    {i : Info} {p : Gov.Poll} (hr : Ripe w id i p) :
    (∀ u, choice w1 id u = choice w id u) ∧ w1.gov.pollCount = w.gov.pollCount ∧ w1.block = w.block ∧
    ∃ p', Ripe w1 id i p' ∧ p'.quorum = p.quorum ∧ p'.threshold = p.threshold ∧ p'.vetoThreshold = p.vetoThreshold := by
  have hb := h.base hw ht
  have hst := handle_mem hw hb.mem (fun hs => absurd hs hxo.1) hx
  simp only at hst
  have hctl : w1.ctl = w.ctl := (congrArg World.ctl hst.same :)
  have hblk : w1.block = w.block := (congrArg World.block hst.same :)
  have hlog : w1.log = w.log := (congrArg World.log hst.same :)
  have hp0 := Controller.queryPoll_ok_iff.1 hr.poll
  have hch : ∀ u, choice w1 id u = choice w id u := by
    intro u
    unfold choice Gov.queryPollVoter
    rcases Handled.voted hw hb (Or.inl hxo) hx id u with ⟨_, h1⟩ | ⟨o, k, h1, _⟩ | ⟨mm, _, h1⟩
    · rw [h1]
    · cases h1
    · rw [h1, Option.map_map]
      rfl
  have hpoll : w1.gov.pollCount = w.gov.pollCount ∧ ∃ p', w1.gov.polls.get id = some p' ∧ p'.terms = p.terms ∧
      p'.status = p.status := by
    rcases hst.gov with ⟨l, e', _, hl, hu, _⟩ | ⟨hg, _⟩
    · obtain ⟨_, h2, h3⟩ := updateAll_inv (s := w.ctl) l hl (by
        have := hb.ctl
        rw [show (c.env e' w1).block.time = w.block.time from by rw [← hblk]; rfl,
          show (c.env e' w1).daoType = w.mem.daoType from hst.type]
        exact this) hu
      obtain ⟨p', h4, h5, h6⟩ := outline_get (fun j => (h2 j).symm) hp0
      exact ⟨h3, p', h4, h5.symm, h6.symm⟩
    · rw [hg]
      exact ⟨rfl, p, hp0, rfl, rfl⟩
  obtain ⟨hcount, p', hp', hterms, hstat⟩ := hpoll
  have hends : p'.endsAt = p.endsAt := (congrArg Gov.Terms.endsAt hterms :)
  refine ⟨hch, hcount, hblk, p', ⟨?_, hr.general, Controller.queryPoll_ok_iff.2 hp', ?_, ?_, ?_, ?_⟩,
    (congrArg Gov.Terms.quorum hterms :), (congrArg Gov.Terms.threshold hterms :),
    (congrArg Gov.Terms.vetoThreshold hterms :)⟩
  · rw [hctl]; exact hr.info
  · have := hr.unresolved
    unfold outcome at this ⊢
    rw [hp', hctl, hr.info]
    rw [hp0, hr.info] at this
    simp only at this ⊢
    cases hx : i.executedAt with
    | none => rfl
    | some b => rw [hx] at this; cases this
  · rw [hblk, hends]; exact hr.votable
  · rw [hctl]; exact hr.early
  · rw [hblk]; exact hr.waited

/-! ## C146 -/

/-- **No further wait.** Whoever is not restricted can execute a general proposal whose cooldown is over at once, if the rule
passes it for what those who voted weigh at that moment. Its actions are then dispatched. -/
theorem C146_now {c : Cfg} (hw : c.Wf) (ht : c.Tame) {w : World} (h : Reachable c w) {id : Nat} {i : Info} {p : Gov.Poll}
    (hr : Ripe w id i p) (hrule : isPassed (ifRaised w id p 0) = true) (hsome : w.mem.total .never ≠ 0) {a : Addr}
    (ho : c.outsider a) (e : Ext) (he : e.restricted a = false) (room : w.gov.pollCount + 1 < 2 ^ 64) :
    ∃ w' o n, Exec c w [.call a (.ctl (.execute id))] w' ∧ w'.block = w.block ∧
      outcome w' id = some (.passed o n) ∧ sentCount w' id = 1 := by
  have hb := h.base hw ht
  have hp := Controller.queryPoll_ok_iff.1 hr.poll
  have hno : i.executedAt = none := by
    have hn := hr.unresolved
    unfold outcome at hn
    rw [hp, hr.info] at hn
    simp only at hn
    cases hx : i.executedAt with
    | none => rfl
    | some b => rw [hx] at hn; cases hn
  have hlive : p.live := (hb.ctl.ended _ i p hr.info hp).1 hno
  have hvs := fun o => votedSum_held hw ht h hr.info hr.general hr.poll hlive hr.votable o
  unfold ifRaised at hrule
  rw [Nat.add_zero, Nat.add_zero] at hrule
  have hfit := (h.tally hw ht).fits id i hr.info hr.general
  have htot : Controller.endTotal (c.env e w) p .general = w.mem.total .never := by
    unfold Controller.endTotal
    rw [if_neg (by show ¬ p.endsAt ≤ w.block.time; have := hr.votable; omega), totalVotes_eq]
    rfl
  have hst : isPassed (p.finalStatus (w.mem.total .never)) = true := by
    rw [Gov.finalStatus_rule_of_inv hb.ctl.inv hp hfit, hvs, hvs, hvs, hvs]
    exact hrule
  obtain ⟨⟨w1, subs⟩, hx⟩ := (execute_iff (a := a) (e := e) hw ht h hr.info hp).2 ⟨he, hno, by
      unfold Info.pastEarliest
      cases hie : i.earliest with
      | none => rfl
      | some t => simpa using hr.waited t hie, by rw [hr.general, htot]; exact hsome,
    Or.inr ⟨by rw [hr.general]; exact hr.early, by
      rw [hr.general, htot]
      refine earlyOk_status.2 ⟨?_, ?_⟩ <;> · intro hn; rw [hn] at hst; cases hst⟩⟩
  have hout := C116_early hw ht h hx hr.info hr.general hr.poll hr.votable
  obtain ⟨w2, st, m1, m2, m3, m4, m5, _⟩ := executed_run hw ht h hx room
  rw [hout] at m3
  cases m3
  have hle := (C44_at_most_once hw ht (h.tx ho m1) id).2
  have hge : 1 ≤ sentCount w2 id := List.count_pos_iff.2 (m4 hrule)
  generalize Gov.ruleStatus (held w id .yes) (held w id .no) (held w id .abstain) (held w id .veto) p.quorum p.threshold
    p.vetoThreshold (w.mem.total .never) = st at m2 hrule
  obtain ⟨o, n, rfl⟩ : ∃ o n, st = .passed o n := by
    cases st with
    | passed o n => exact ⟨o, n, rfl⟩
    | inProgress z => cases hrule
    | rejected z => cases hrule
  exact ⟨w2, o, n, m1, m5, m2, by omega⟩

/-- **Stake and execute.** When a member who chose "yes" is given `n` more weight by any message to the membership contract,
and this turns the result, then the proposal can be executed in the same block: the cooldown does not start again. -/
theorem C146_staked {c : Cfg} (hw : c.Wf) (ht : c.Tame) {w w1 : World} (h : Reachable c w) {id : Nat} {i : Info}
    {p : Gov.Poll} (hr : Ripe w id i p) {a x : Addr} {n : Nat} (hn : 0 < n) (hyes : choice w id a = some .yes)
    (hrule : isPassed (ifRaised w id p n) = true) {e : Ext} {m : MemberMsg} (hxo : c.outsider x)
    (hx : handle c e w x (.mem m) = .ok (w1, [])) (hj : Joined w w1 a n) (ho : c.outsider a) (he : e.restricted a = false)
    (room : w.gov.pollCount + 1 < 2 ^ 64) :
    ∃ w' o k, Exec c w [.call x (.mem m)] w1 ∧ Exec c w1 [.call a (.ctl (.execute id))] w' ∧ w'.block = w.block ∧
      outcome w' id = some (.passed o k) ∧ sentCount w' id = 1 := by
  have hex : Exec c w [.call x (.mem m)] w1 := .call e room hx (.nil _) (.nil _)
  have hr1 := h.tx hxo hex
  obtain ⟨hch, hcount, hblk, p', hrip, hq, hth, hv⟩ := member_keeps hw ht h hx hxo hr
  have hheld : ∀ o, held w1 id o = held w id o + if o = .yes then n else 0 := by
    intro o
    unfold held
    rw [joined_weighing hj, show (fun u => decide (choice w1 id u = some o)) = fun u => decide (choice w id u = some o) from by
      funext u; rw [hch u], hch a, hyes]
    by_cases hoy : o = .yes
    · subst hoy; simp
    · simp [hoy, Ne.symm hoy]
  have htot : w1.mem.total .never = w.mem.total .never + n := by
    rw [weighing_all hw ht hr1, weighing_all hw ht h, joined_weighing hj]
    simp
  obtain ⟨w', o, k, k1, k2, k3, k4⟩ := C146_now hw ht hr1 hrip (by
    unfold ifRaised at hrule ⊢
    rw [hheld, hheld, hheld, hheld, htot, hq, hth, hv]
    simpa using hrule) (by omega) ho e he (by omega)
  exact ⟨w', o, k, hex, k1, by rw [k2, hblk], k3, k4⟩

/-- In a DAO for a native coin a member who chose "yes" can do so with coins. -/
theorem C146_denom {c : Cfg} (hw : c.Wf) (ht : c.Tame) {w : World} (h : Reachable c w) {id : Nat} {i : Info}
    {p : Gov.Poll} (hr : Ripe w id i p) {s : Staking.State} (hm : w.mem = .staking .denom s) {a : Addr} {n : Nat} (hn : 0 < n)
    (hyes : choice w id a = some .yes) (hrule : isPassed (ifRaised w id p n) = true) (ho : c.outsider a)
    (hin : Fits w a n) (hf : RewardsFit w) (e : Ext) (he : e.restricted a = false) (room : w.gov.pollCount + 1 < 2 ^ 64) :
    ∃ w' o k, Acting c [a] w w' ∧ w'.block = w.block ∧ outcome w' id = some (.passed o k) ∧ sentCount w' id = 1 := by
  obtain ⟨hacc, heff⟩ := C119_stake_denom hw ht h hm a none n hin hf e
  obtain ⟨⟨w1, subs⟩, hx⟩ := hacc.2 he
  obtain ⟨hsub, hj⟩ := heff _ hx
  simp only at hsub
  subst hsub
  obtain ⟨w', o, k, k1, k2, k3, k4, k5⟩ := C146_staked hw ht h hr hn hyes hrule ho hx hj ho he room
  exact ⟨w', o, k, .tx (.tx .refl List.mem_cons_self k1) List.mem_cons_self k2, k3, k4, k5⟩

/-- In a DAO for a token with tokens. -/
theorem C146_token {c : Cfg} (hw : c.Wf) (ht : c.Tame) {w : World} (h : Reachable c w) {id : Nat} {i : Info}
    {p : Gov.Poll} (hr : Ripe w id i p) {s : Staking.State} (hm : w.mem = .staking .token s) {a : Addr} {n : Nat} (hn : 0 < n)
    (hyes : choice w id a = some .yes) (hrule : isPassed (ifRaised w id p n) = true) (ho : c.outsider a)
    (htok : c.outsider s.asset) (hin : Fits w a n) (hf : RewardsFit w) (e : Ext) (he : e.restricted a = false)
    (room : w.gov.pollCount + 1 < 2 ^ 64) :
    ∃ w1 w' o k, Exec c w [.call s.asset (.mem (.staking (.receive n (.stake a))))] w1 ∧
      Exec c w1 [.call a (.ctl (.execute id))] w' ∧ w'.block = w.block ∧ outcome w' id = some (.passed o k) ∧
      sentCount w' id = 1 := by
  obtain ⟨hacc, heff⟩ := C119_stake_token hw ht h hm a n hin hf e
  obtain ⟨⟨w1, subs⟩, hx⟩ := hacc.2 he
  obtain ⟨hsub, hj⟩ := heff _ hx
  simp only at hsub
  subst hsub
  obtain ⟨w', o, k, k1, k2, k3, k4, k5⟩ := C146_staked hw ht h hr hn hyes hrule htok hx hj ho he room
  exact ⟨w1, w', o, k, k1, k2, k3, k4, k5⟩

/-- What those weigh who chose an option, if only one account voted, for "yes". -/
theorem held_single {w : World} {id : Nat} {a : Addr} (h : ∀ u, choice w id u = if u ∈ [a] then some .yes else none)
    (o : Gov.Outcome) : held w id o = if o = .yes then w.mem.weight a else 0 := by
  unfold held
  by_cases ho : o = .yes
  · subst ho
    rw [if_pos rfl, ← weighing_one]
    congr 1
    funext u
    rw [h u]
    unfold among
    by_cases hu : u ∈ [a] <;> simp [hu]
  · rw [if_neg ho]
    unfold weighing
    apply sum_zero
    intro u x _
    show (if decide (choice w id u = some o) = true then x else 0) = 0
    rw [h u]
    have hne : (Gov.Outcome.yes = o) ↔ False := ⟨fun h => ho h.symm, False.elim⟩
    by_cases hu : u ∈ [a] <;> simp [hu, hne]

/-- A vote that does not make up the quorum starts no cooldown: a member with little weight makes a proposal, votes for it,
and it is ripe. -/
theorem ripe_at_once {c : Cfg} (hw : c.Wf) (ht : c.Tame) {w : World} (h : Reachable c w) {a : Addr} (ho : c.outsider a)
    (hm : 0 < w.mem.weight a) (hlow : w.mem.weight a * 10 ^ 18 < w.ctl.config.quorum * w.mem.total .never)
    (hearly : w.ctl.config.early = true) (hty : w.mem.daoType ≠ .multisig) (e : Ext) (he : e.restricted a = false)
    (hd : w.ctl.config.minDeposit = none ∨ w.mem.daoType = .denom)
    (hfit : w.block.time + w.ctl.config.voteDuration * 10 ^ 9 < 2 ^ 64) (room : w.gov.pollCount + 2 < 2 ^ 64)
    {l : List Action} (hten : l.length ≤ 10) (hl : ∀ x ∈ l, Proposable (c.env e w) w.ctl.config x) :
    ∃ w2 i p, Acting c [a] w w2 ∧ Reachable c w2 ∧ Voting w w2 (w.gov.pollCount + 1) l
        (w.block.time + w.ctl.config.voteDuration * 10 ^ 9) ∧ Ripe w2 (w.gov.pollCount + 1) i p ∧ i.actions = l ∧
      (∀ u, choice w2 (w.gov.pollCount + 1) u = if u ∈ [a] then some .yes else none) ∧
      p.quorum = w.ctl.config.quorum ∧ p.threshold = w.ctl.config.threshold ∧ p.vetoThreshold = w.ctl.config.veto := by
  have hb := h.base hw ht
  have hdur := hb.ctl.config.duration
  obtain ⟨f, w1, h1, hv1⟩ := created_alone hw ht h e he hm hd hfit (by omega) 0 0 hten hl
  have hx1 : Exec c w [.call a (.ctl (.createProposal ⟨0, 0, l, none⟩ f))] w1 :=
    .call e (by omega) h1 (.nil _) (.nil _)
  have hr1 := h.tx ho hx1
  have hru := rushed_created hw ht h hfit (by omega) h1 hv1
  obtain ⟨w2, h2, hru2⟩ := rushed_voted hw ht hr1 hru e he hm (by omega) hfit
  have hx2 : Exec c w1 [.call a (.ctl (.castVote (w.gov.pollCount + 1) .yes))] w2 :=
    .call e (by rw [hv1.count]; omega) h2 (.nil _) (.nil _)
  have hr2 := hr1.tx ho hx2
  have hv2 := hru2.voting
  -- the recorded votes before and after
  have hres : ∀ (v : World), Reachable c v → Voting w v (w.gov.pollCount + 1) l
      (w.block.time + w.ctl.config.voteDuration * 10 ^ 9) →
      (∀ o, held v (w.gov.pollCount + 1) o ≤ if o = .yes then w.mem.weight a else 0) →
      Gov.simulateEnd v.gov (w.gov.pollCount + 1) (w.mem.total .never) = .ok (.rejected .quorumNotReached) := by
    intro v hrv hvv hh
    obtain ⟨i, hi, hg, _⟩ := hvv.info
    obtain ⟨p, hp, hpe, hpq, _, _⟩ := hvv.poll
    have hbv := hrv.base hw ht
    have hno : i.executedAt = none := by
      have hn := hvv.unresolved
      unfold outcome at hn
      rw [hp, hi] at hn
      simp only at hn
      cases hx : i.executedAt with
      | none => rfl
      | some b => rw [hx] at hn; cases hn
    have hlive : p.live := (hbv.ctl.ended _ i p hi hp).1 hno
    have hvs := fun o => votedSum_held hw ht hrv hi hg (Controller.queryPoll_ok_iff.2 hp) hlive
      (by rw [hvv.block, hpe]; omega) o
    have hy := hh .yes
    have hn := hh .no
    have hab := hh .abstain
    have hve := hh .veto
    simp only [if_true, reduceCtorEq, if_false] at hy hn hab hve
    rw [Gov.C05_final_status_rule hbv.ctl.gov.reachable (Controller.queryPoll_ok_iff.2 hp)
      ((hrv.tally hw ht).fits _ i hi hg)]
    rw [hvs, hvs, hvs, hvs]
    unfold Gov.ruleStatus
    simp only
    rw [if_pos]
    rw [hpq]
    unfold Gov.quorumMet
    rintro (h0 | ⟨_, h0, _⟩)
    · rw [h0] at hlow; omega
    · have : (held v (w.gov.pollCount + 1) .yes + held v (w.gov.pollCount + 1) .no + held v (w.gov.pollCount + 1) .abstain +
          held v (w.gov.pollCount + 1) .veto) * 10 ^ 18 ≤ w.mem.weight a * 10 ^ 18 := Nat.mul_le_mul_right _ (by omega)
      omega
  have hs1 := hres w1 hr1 hv1 (by
    intro o
    have : held w1 (w.gov.pollCount + 1) o = 0 := by
      unfold held weighing
      apply sum_zero
      intro u x _
      show (if decide (choice w1 (w.gov.pollCount + 1) u = some o) = true then x else 0) = 0
      rw [hru.choices u]
      simp
    omega)
  have hs2 := hres w2 hr2 hv2 (by
    intro o
    rw [held_single hru2.choices, hv2.mem])
  -- so the entry of the proposal is as it was made
  obtain ⟨x1, hx1'⟩ := handle_ctl h1
  obtain ⟨_, hinfo, _⟩ := Controller.C89_general_terms rfl rfl hx1'.exec hfit (by show w.gov.pollCount + 1 < _; omega)
  have hw1 := hx1'.world
  simp only at hw1
  obtain ⟨x2, hx2'⟩ := handle_ctl h2
  have hw2 := hx2'.world
  simp only at hw2
  obtain ⟨i, i', _, st, st', k1, k2, _, k3, k4, _, k6⟩ := Controller.C56_vote_restarts_cooldown_partial hx2'.exec
    (by rw [hv1.config]; exact hearly) (by show w1.mem.daoType ≠ _; rw [hv1.mem]; exact hty) (by
      show w1.block.time + _ < _
      rw [hv1.block, hv1.config]
      exact Nat.lt_of_le_of_lt (Nat.add_le_add_left (Nat.mul_le_mul_right _ (Nat.div_le_self _ _)) _) hfit)
  have htt : (c.env e w1).total .never = w.mem.total .never := by
    show w1.mem.total .never = _
    rw [hv1.mem]
  rw [htt] at k3 k4
  have k3 : Gov.simulateEnd w1.gov (w.gov.pollCount + 1) (w.mem.total .never) = .ok st := k3
  rw [hs1] at k3
  have k4 : Gov.simulateEnd w2.gov (w.gov.pollCount + 1) (w.mem.total .never) = .ok st' := by rw [hw2]; exact k4
  rw [hs2] at k4
  cases k3
  cases k4
  have hii := k6 rfl
  subst hii
  have hearl : i'.earliest = none := by
    have : w1.ctl.infos.get (w.gov.pollCount + 1) = some i' := k1
    rw [hw1] at this
    have := hinfo.symm.trans this
    cases this
    rfl
  obtain ⟨j, hj, hjg, hja⟩ := hv2.info
  obtain ⟨p, hp, hpe, hpq, hpt, hpv⟩ := hv2.poll
  have hji : j = i' := by
    have : w2.ctl.infos.get (w.gov.pollCount + 1) = some i' := by rw [hw2]; exact k2
    rw [hj] at this
    exact Option.some.inj this
  subst hji
  refine ⟨w2, j, p, .tx (.tx .refl List.mem_cons_self hx1) List.mem_cons_self hx2, hr2, hv2,
    ⟨hj, hjg, Controller.queryPoll_ok_iff.2 hp, hv2.unresolved, by rw [hv2.block, hpe]; omega, by rw [hv2.config]; exact hearly,
      fun t ht => by rw [hearl] at ht; cases ht⟩, hja, hru2.choices, hpq, hpt, hpv⟩

/-- **All in one block.** In a DAO for a native coin where proposals may be executed early, a member who has less weight than
the quorum asks for, but can reach it with `n` more coins, makes a proposal, votes for it, stakes the coins and executes it, all
in one block: the vote came too early to turn the result, so that no cooldown starts, and the stake turns it without one. -/
theorem C146_one_block {c : Cfg} (hw : c.Wf) (ht : c.Tame) {w : World} (h : Reachable c w) {s : Staking.State}
    (hm : w.mem = .staking .denom s) (hearly : w.ctl.config.early = true) {a : Addr} (ho : c.outsider a)
    (hpos : 0 < w.mem.weight a) (hlow : w.mem.weight a * 10 ^ 18 < w.ctl.config.quorum * w.mem.total .never) {n : Nat}
    (hn : 0 < n) (hshare : w.ctl.config.quorum * (w.mem.total .never + n) ≤ (w.mem.weight a + n) * 10 ^ 18)
    (hin : Fits w a n) (hf : RewardsFit w) (e : Ext) (he : e.restricted a = false)
    (hfit : w.block.time + w.ctl.config.voteDuration * 10 ^ 9 < 2 ^ 64) (room : w.gov.pollCount + 2 < 2 ^ 64)
    {l : List Action} (hten : l.length ≤ 10) (hl : ∀ x ∈ l, Proposable (c.env e w) w.ctl.config x) :
    ∃ w' i o k, Acting c [a] w w' ∧ w'.block = w.block ∧ w'.ctl.infos.get (w.gov.pollCount + 1) = some i ∧ i.actions = l ∧
      outcome w' (w.gov.pollCount + 1) = some (.passed o k) ∧ sentCount w' (w.gov.pollCount + 1) = 1 := by
  have hb := h.base hw ht
  have hty : w.mem.daoType = .denom := by rw [hm]; rfl
  obtain ⟨w2, i, p, h1, h2, h3, h4, h5, h6, h7, h8, h9⟩ := ripe_at_once hw ht h ho hpos hlow hearly
    (by rw [hty]; intro hh; cases hh) e he (Or.inr hty) hfit room hten hl
  have hle : w.mem.weight a ≤ w.mem.total .never := by
    rw [← weighing_one, weighing_all hw ht h]
    exact weighing_le w (fun _ _ => rfl)
  obtain ⟨w', o, k, k1, k2, k3, k4⟩ := C146_denom hw ht h2 h4 (h3.mem.trans hm) hn (by rw [h6, if_pos List.mem_cons_self])
    (by
      unfold ifRaised
      rw [held_single h6, held_single h6, held_single h6, held_single h6, h7, h8, h9, h3.mem]
      simp only [if_true, reduceCtorEq, if_false]
      exact yes_passes (by omega) (by omega) hshare hb.ctl.config.threshold.2 hb.ctl.config.threshold.1
        (fun v hv => (hb.ctl.config.veto v hv).1)) ho
    ⟨by rw [h3.mem]; exact hin.stakes, by rw [h3.mem, h3.dist]; exact hin.rewards⟩
    (fun b => by rw [h3.dist]; exact hf b) e he (by rw [h3.count]; omega)
  obtain ⟨i', hi', _, _, hact, _⟩ := ((k1.later (fun u hu => by rw [List.mem_singleton.1 hu]; exact ho)).moved hw ht h2).1.infos
    _ i h4.info
  exact ⟨w', i', o, k, h1.trans k1, by rw [k2, h3.block], hi', hact.trans h5, k3, k4⟩

/-- **Enough is enough.** Whatever the others chose and weigh, some amount turns the result, unless the rules ask for all of
the weight. -/
theorem C146_amount {c : Cfg} (hw : c.Wf) (ht : c.Tame) {w : World} (h : Reachable c w) {id : Nat} {p : Gov.Poll}
    (hy : 0 < held w id .yes) (hq : p.quorum < 10 ^ 18) (hth : p.threshold < 10 ^ 18)
    (hv : 0 < p.vetoThreshold.getD p.threshold) {n : Nat} (hn : 10 ^ 18 * w.mem.total .never ≤ n) :
    isPassed (ifRaised w id p n) = true := by
  have hT := turnout_all w id
  rw [← weighing_all hw ht h] at hT
  unfold ifRaised
  generalize held w id .yes = y at *
  generalize held w id .no = k at *
  generalize held w id .abstain = b at *
  generalize held w id .veto = v at *
  generalize w.mem.total .never = T at *
  have share : ∀ t B z : Nat, t < 10 ^ 18 → B ≤ T → t * (B + n) ≤ (z + n) * 10 ^ 18 := by
    intro t B z ht hB
    have h1 : t + 1 ≤ 10 ^ 18 := ht
    calc t * (B + n) = t * B + t * n := Nat.mul_add _ _ _
      _ ≤ 10 ^ 18 * T + t * n := Nat.add_le_add_right (Nat.mul_le_mul (Nat.le_of_lt ht) hB) _
      _ ≤ n + t * n := Nat.add_le_add_right hn _
      _ = (t + 1) * n := by rw [Nat.add_mul, Nat.one_mul, Nat.add_comm]
      _ ≤ 10 ^ 18 * n := Nat.mul_le_mul_right _ h1
      _ = n * 10 ^ 18 := Nat.mul_comm _ _
      _ ≤ (z + n) * 10 ^ 18 := Nat.mul_le_mul_right _ (Nat.le_add_left _ _)
  have hTn : T ≤ n := le_trans (Nat.le_mul_of_pos_left T (by norm_num)) hn
  refine rule_passed_iff.2 ⟨Or.inr ⟨by omega, ?_, ?_⟩, ?_, Or.inr ⟨by omega, ?_⟩, Or.inr (by omega)⟩
  · have := share p.quorum T (y + k + b + v) hq le_rfl
    rw [show y + n + k + b + v = y + k + b + v + n from by omega]
    exact this
  · calc (y + n + k + b + v) * 10 ^ 18 ≤ (T + n) * 10 ^ 18 := Nat.mul_le_mul_right _ (by omega)
      _ = 10 ^ 18 * (T + n) := Nat.mul_comm _ _
      _ < 2 ^ 128 * (T + n) := Nat.mul_lt_mul_of_pos_right (by norm_num) (by omega)
  · rintro (h0 | ⟨_, h0⟩)
    · omega
    · have h1 : v * 10 ^ 18 ≤ 10 ^ 18 * T := by rw [Nat.mul_comm]; exact Nat.mul_le_mul_left _ (by omega)
      have h2 : y + n + k + v ≤ p.vetoThreshold.getD p.threshold * (y + n + k + v) := Nat.le_mul_of_pos_left _ hv
      have h3 := le_trans h2 (le_trans h0 (le_trans h1 hn))
      omega
  · have := share p.threshold (y + k + v) y hth (by omega)
    rw [show y + n + k + v = y + k + v + n from by omega]
    exact this

/-! ### Examples -/

/-- Proposal 1 of a run, if it is ripe. -/
def ripeB (w : World) : Bool :=
  match w.ctl.infos.get 1, w.gov.polls.get 1 with
  | some i, some p => decide (i.type = .general) && (outcome w 1).isNone && decide (w.block.time < p.endsAt) &&
      w.ctl.config.early && (match i.earliest with | some t => decide (t ≤ w.block.time) | none => true)
  | _, _ => false

theorem ripeB_ripe {w : World} (h : ripeB w = true) : ∃ i p, w.gov.polls.get 1 = some p ∧ Ripe w 1 i p := by
  unfold ripeB at h
  cases hi : w.ctl.infos.get 1 with
  | none => rw [hi] at h; simp at h
  | some i =>
    cases hp : w.gov.polls.get 1 with
    | none => rw [hi, hp] at h; simp at h
    | some p =>
      rw [hi, hp] at h
      simp only [Bool.and_eq_true, decide_eq_true_eq] at h
      obtain ⟨⟨⟨⟨h1, h2⟩, h3⟩, h4⟩, h5⟩ := h
      refine ⟨i, p, rfl, hi, h1, Controller.queryPoll_ok_iff.2 hp, by simpa using h2, h3, h4, fun t ht => ?_⟩
      rw [ht] at h5
      simpa using h5

/-- Whether proposal 1 would pass if those for it weighed `n` more. -/
def turnedB (w : World) (n : Nat) : Bool :=
  match w.gov.polls.get 1 with
  | some p => isPassed (ifRaised w 1 p n)
  | none => false

theorem turnedB_rule {w : World} {n : Nat} {p : Gov.Poll} (h : turnedB w n = true) (hp : w.gov.polls.get 1 = some p) :
    isPassed (ifRaised w 1 p n) = true := by
  unfold turnedB at h
  rw [hp] at h
  exact h

/-- User 10 voted for a proposal with 60 coins, user 11 against it with 100. Long after both, user 10 stakes 41 coins and has
it executed in the same block. -/
example : ∃ w' o k, Acting sampleCfg [10] (sampleRun sampleAgainst) w' ∧ w'.block = (sampleRun sampleAgainst).block ∧
    outcome (sampleRun sampleAgainst) 1 = none ∧ outcome w' 1 = some (.passed o k) ∧ sentCount w' 1 = 1 := by
  obtain ⟨i, p, hp, hr⟩ := ripeB_ripe (w := sampleRun sampleAgainst) (by decide +kernel)
  obtain ⟨s, hs⟩ : ∃ s, (sampleRun sampleAgainst).mem = .staking .denom s := by
    have : (sampleRun sampleAgainst).mem.daoType = .denom := by decide +kernel
    cases hm : (sampleRun sampleAgainst).mem with
    | staking k s =>
      rw [hm] at this
      cases k with
      | token => cases this
      | denom => exact ⟨s, rfl⟩
    | nft s => rw [hm] at this; cases this
    | multisig s => rw [hm] at this; cases this
  obtain ⟨w', o, k, h1, h2, h3, h4⟩ := C146_denom sampleCfg_wf sampleCfg_tame (sampleRun_reachable _) hr hs (a := 10) (n := 41)
    (by decide) (by decide +kernel) (turnedB_rule (by decide +kernel) hp) (by decide +kernel)
    ⟨by decide +kernel, by decide +kernel⟩ (fun b => by rw [Distributor.owed_empty (by decide +kernel)]; decide)
    sampleExt (by decide) (by decide +kernel)
  exact ⟨w', o, k, h1, h2, hr.unresolved, h3, h4⟩

/-- Before that, the proposal would be rejected. A vote of 60 coins that does not turn the result starts no cooldown at all; a
vote of 160 coins that does turn it starts one. -/
example : turnedB (sampleRun sampleAgainst) 0 = false ∧
    ripeB (sampleRun ([stake 10 60, stake 11 100, at_ 2, propose 12 [.updateGovConfig sampleChange], at_ 3, vote 11 1 .no,
      at_ 60, vote 10 1 .yes])) = true ∧
    ripeB (sampleRun ([stake 10 160, stake 11 100, at_ 2, propose 12 [.updateGovConfig sampleChange], at_ 3, vote 11 1 .no,
      at_ 60, vote 10 1 .yes])) = false := by decide +kernel

/-- User 10 could have passed it without staking, had user 11 not voted. -/
example : ∃ w' o n, Exec sampleCfg (sampleRun (sampleVoted ++ [at_ 20])) [.call 13 (.ctl (.execute 1))] w' ∧
    outcome w' 1 = some (.passed o n) ∧ sentCount w' 1 = 1 := by
  obtain ⟨i, p, hp, hr⟩ := ripeB_ripe (w := sampleRun (sampleVoted ++ [at_ 20])) (by decide +kernel)
  obtain ⟨w', o, n, h1, _, h3, h4⟩ := C146_now sampleCfg_wf sampleCfg_tame (sampleRun_reachable _) hr
    (turnedB_rule (by decide +kernel) hp) (by decide +kernel) (a := 13) (by decide +kernel) sampleExt (by decide)
    (by decide +kernel)
  exact ⟨w', o, n, h1, h3, h4⟩

/-- The world after a run of the sample DAO for a token. -/
def tokenRun (l : List Step) : World := (runAll sampleCfg tokenGenesis l).getD tokenGenesis

theorem tokenRun_reachable (l : List Step) : Reachable sampleCfg (tokenRun l) := by
  unfold tokenRun
  cases h : runAll sampleCfg tokenGenesis l with
  | none => exact .init token_genesis
  | some w => exact runAll_reachable l (.init token_genesis) h

/-- The same votes with tokens. -/
def tokenAgainst : List Step :=
  [.tx sampleExt 21 (.mem (.staking (.receive 60 (.stake 10)))), .tx sampleExt 21 (.mem (.staking (.receive 100 (.stake 11)))),
   at_ 2, .tx sampleExt 10 (.ctl (.createProposal ⟨0, 0, [.updateMinWeight 5], none⟩ [])), at_ 3, vote 10 1 .yes,
   vote 11 1 .no, at_ 60]

example : ∃ w1 w' o k, Exec sampleCfg (tokenRun tokenAgainst) [.call 21 (.mem (.staking (.receive 41 (.stake 10))))] w1 ∧
    Exec sampleCfg w1 [.call 10 (.ctl (.execute 1))] w' ∧ outcome w' 1 = some (.passed o k) := by
  obtain ⟨i, p, hp, hr⟩ := ripeB_ripe (w := tokenRun tokenAgainst) (by decide +kernel)
  obtain ⟨s, hs⟩ : ∃ s, (tokenRun tokenAgainst).mem = .staking .token s := by
    have : (tokenRun tokenAgainst).mem.daoType = .token := by decide +kernel
    cases hm : (tokenRun tokenAgainst).mem with
    | staking k s =>
      rw [hm] at this
      cases k with
      | token => exact ⟨s, rfl⟩
      | denom => cases this
    | nft s => rw [hm] at this; cases this
    | multisig s => rw [hm] at this; cases this
  have ha : s.asset = 21 := by
    have : (tokenRun tokenAgainst).mem.token = some 21 := by decide +kernel
    rw [hs] at this
    simpa [Member.token] using this
  obtain ⟨w1, w', o, k, h1, h2, _, h3, _⟩ := C146_token sampleCfg_wf sampleCfg_tame (tokenRun_reachable _) hr hs (a := 10)
    (n := 41) (by decide) (by decide +kernel) (turnedB_rule (by decide +kernel) hp) (by decide +kernel)
    (by rw [ha]; decide +kernel) ⟨by decide +kernel, by decide +kernel⟩
    (fun b => by rw [Distributor.owed_empty (by decide +kernel)]; decide) sampleExt (by decide) (by decide +kernel)
  rw [ha] at h1
  exact ⟨w1, w', o, k, h1, h2, h3⟩

/-- Any amount from 160 * 10^18 on turns the result for sure. -/
example : ∃ i p, Ripe (sampleRun sampleAgainst) 1 i p ∧ isPassed (ifRaised (sampleRun sampleAgainst) 1 p (160 * 10 ^ 18)) = true := by
  obtain ⟨i, p, hp, hr⟩ := ripeB_ripe (w := sampleRun sampleAgainst) (by decide +kernel)
  have h : ∀ p, (sampleRun sampleAgainst).gov.polls.get 1 = some p →
      p.quorum < 10 ^ 18 ∧ p.threshold < 10 ^ 18 ∧ 0 < p.vetoThreshold.getD p.threshold := by
    intro p hp
    have hb : ((sampleRun sampleAgainst).gov.polls.get 1).map (fun p => (p.quorum, p.threshold, p.vetoThreshold)) =
      some (ONE / 10, ONE / 2, none) := by decide +kernel
    rw [hp] at hb
    simp only [Option.map_some, Option.some.injEq, Prod.mk.injEq] at hb
    obtain ⟨h1, h2, h3⟩ := hb
    rw [h1, h2, h3]
    decide
  obtain ⟨h1, h2, h3⟩ := h p hp
  exact ⟨i, p, hr, C146_amount sampleCfg_wf sampleCfg_tame (sampleRun_reachable _) (by decide +kernel) h1 h2 h3
    (by rw [show (sampleRun sampleAgainst).mem.total .never = 160 from by decide +kernel]; norm_num)⟩

/-- Of 205 coins user 12 has staked 5. In one block they propose to pay themselves 500 coins of the treasury, vote for it, stake
18 coins more, and have it executed. -/
example : ∃ w' i o k, Acting sampleCfg [12] (sampleRun [stake 12 5, stake 11 200, at_ 2]) w' ∧
    w'.block = (sampleRun [stake 12 5, stake 11 200, at_ 2]).block ∧ w'.ctl.infos.get 1 = some i ∧
    i.actions = [.requestFunding none 12 [⟨.native 20, 500⟩]] ∧ outcome w' 1 = some (.passed o k) ∧ sentCount w' 1 = 1 := by
  have hid : (sampleRun [stake 12 5, stake 11 200, at_ 2]).gov.pollCount + 1 = 1 := by decide +kernel
  obtain ⟨s, hs⟩ : ∃ s, (sampleRun [stake 12 5, stake 11 200, at_ 2]).mem = .staking .denom s := by
    have : (sampleRun [stake 12 5, stake 11 200, at_ 2]).mem.daoType = .denom := by decide +kernel
    cases hm : (sampleRun [stake 12 5, stake 11 200, at_ 2]).mem with
    | staking k s =>
      rw [hm] at this
      cases k with
      | token => cases this
      | denom => exact ⟨s, rfl⟩
    | nft s => rw [hm] at this; cases this
    | multisig s => rw [hm] at this; cases this
  obtain ⟨w', i, o, k, h1, h2, h3, h4, h5, h6⟩ := C146_one_block sampleCfg_wf sampleCfg_tame (sampleRun_reachable _) hs
    (by decide +kernel) (a := 12) (by decide +kernel) (by decide +kernel) (by decide +kernel) (n := 18) (by decide)
    (by decide +kernel) ⟨by decide +kernel, by decide +kernel⟩
    (fun b => by rw [Distributor.owed_empty (by decide +kernel)]; decide) sampleExt (by decide) (by decide +kernel)
    (by decide +kernel) (l := [.requestFunding none 12 [⟨.native 20, 500⟩]]) (by decide)
    (fun x hx => by
      rw [List.mem_singleton.1 hx]
      intro _ a ha
      rw [List.mem_singleton.1 ha]
      exact fun _ _ hn => by cases hn)
  rw [hid] at h3 h5 h6
  exact ⟨w', i, o, k, h1, h2, h3, h4, h5, h6⟩

end Verif.Dao
