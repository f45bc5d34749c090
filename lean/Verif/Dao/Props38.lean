import Verif.Dao.Shadow
import Verif.Dao.Props9
import Verif.Dao.Props13

/-!
# The contracts of a DAO together: distributions and claims of rewards matter to nothing else (C173)
-/

set_option linter.unusedSimpArgs false

namespace Verif.Dao
open Verif
open Verif.Controller (Transfer Sub)
open Verif.Distributor (Shadow)

/-! ## Specification -/

/-- The message distributes rewards or claims them. -/
def Msg.isReward : Msg → Bool
  | .dist (.distributeNative _) => true
  | .dist (.receiveCw20 _ _) => true
  | .dist (.claim _ _ _) => true
  | _ => false

/-- The two DAOs are the same but for the rewards: the same members, council, proposals, votes and rules, the same transfers
of deposits, and in the distributor the same weights, the same total and the same minimum weight. -/
structure SameButRewards (w v : World) : Prop where
  block : v.block = w.block
  members : v.mem = w.mem
  council : v.council = w.council
  controller : v.ctl = w.ctl
  governance : v.gov = w.gov
  transfers : v.log = w.log
  admin : v.dist.admin = w.dist.admin
  minimum : v.dist.min = w.dist.min
  weights : v.dist.weights = w.dist.weights
  effective : ∀ u, Distributor.effective v.dist u = Distributor.effective w.dist u
  total : v.dist.total = w.dist.total

/-! ## Lemmas -/

theorem Unpaid.sameButRewards {w v : World} (h : Unpaid w v) : SameButRewards w v := by
  obtain ⟨d, rfl⟩ : ∃ d, v = { w with dist := d } := ⟨_, h.same⟩
  obtain ⟨n, k, hd⟩ : ∃ n k, d = { w.dist with native := n, cw20 := k } := ⟨_, _, h.dist.same⟩
  rw [hd]
  exact ⟨rfl, rfl, rfl, rfl, rfl, rfl, rfl, rfl, rfl, fun _ => rfl, rfl⟩

theorem Unpaid.base {c : Cfg} {w v : World} (h : Unpaid w v) (hb : Base c w) : Base c v := by
  rw [h.same]
  exact ⟨hb.ctl, hb.mem, hb.council⟩

theorem handle_shadow {c : Cfg} {e : Ext} {w v w1 : World} {a : Addr} {m : Msg} {subs : List Item}
    (h : Unpaid w v) (hm : m.isReward = false) (hr : handle c e w a m = .ok (w1, subs)) :
    ∃ v1, handle c e v a m = .ok (v1, subs) ∧ Unpaid w1 v1 := by
  obtain ⟨d, rfl⟩ : ∃ d, v = { w with dist := d } := ⟨_, h.same⟩
  have hd : Shadow w.dist d := h.dist
  cases m with
  | ctl m =>
    simp only [handle, bind_ok_iff, pure_ok_iff] at hr ⊢
    obtain ⟨r, h1, h2⟩ := hr
    cases h2
    exact ⟨{ w with ctl := r.1, gov := r.2.1, dist := d, log := w.log ++ ranOf m ++ r.2.2.filterMap eventOf },
      ⟨r, h1, rfl⟩, rfl, hd⟩
  | gov m =>
    simp only [handle, bind_ok_iff, pure_ok_iff] at hr ⊢
    obtain ⟨g, h1, h2⟩ := hr
    cases h2
    exact ⟨{ w with gov := g, dist := d }, ⟨g, h1, rfl⟩, rfl, hd⟩
  | dist m =>
    have hs : m.sets = true := by cases m <;> first | rfl | cases hm
    simp only [handle, bind_ok_iff, pure_ok_iff] at hr ⊢
    obtain ⟨r, h1, h2⟩ := hr
    cases h2
    obtain ⟨r2, k1, k2, k3⟩ := Distributor.exec_shadow hd hs h1
    exact ⟨{ w with dist := r2.1 }, ⟨r2, k1, by rw [k3]⟩, rfl, k2⟩
  | mem m =>
    simp only [handle, bind_ok_iff] at hr ⊢
    obtain ⟨x, h1, h2⟩ := hr
    obtain ⟨d1, k1, k2⟩ := deliver_shadow _ (w := { w with mem := x.1 }) hd h2
    exact ⟨{ w1 with dist := d1 }, ⟨x, h1, k1⟩, rfl, k2⟩
  | council m =>
    simp only [handle, bind_ok_iff] at hr ⊢
    obtain ⟨x, h1, h2⟩ := hr
    obtain ⟨d1, k1, k2⟩ := deliver_shadow _ (w := { w with council := x.1 }) hd h2
    exact ⟨{ w1 with dist := d1 }, ⟨x, h1, k1⟩, rfl, k2⟩

/-- A distribution or claim changes nothing but the rewards. -/
theorem handle_reward {c : Cfg} {e : Ext} {w v w1 : World} {a : Addr} {m : Msg} {subs : List Item}
    (h : Unpaid w v) (hm : m.isReward = true) (hr : handle c e w a m = .ok (w1, subs)) :
    Unpaid w1 v ∧ ∀ i ∈ subs, i = .other := by
  cases m with
  | dist m =>
    have hs : m.sets = false := by cases m <;> first | rfl | cases hm
    simp only [handle, bind_ok_iff, pure_ok_iff] at hr
    obtain ⟨r, h1, h2⟩ := hr
    cases h2
    refine ⟨⟨?_, Distributor.exec_aside h.dist hs h1⟩, ?_⟩
    · rw [h.same]
    · intro i hi
      obtain ⟨_, _, rfl⟩ := List.mem_map.1 hi
      rfl
  | _ => cases hm

theorem Traced.append {c : Cfg} {w w1 w2 : World} {l k : List Item} {t s : List Entry} (h : Traced c w l w1 t) :
    Traced c w1 k w2 s → Traced c w (l ++ k) w2 (t ++ s) := by
  induction h with
  | nil w => exact fun h => h
  | call e room h h1 _ _ ih2 =>
    intro h2
    rw [List.cons_append, List.cons_append, List.append_assoc]
    exact .call e room h h1 (ih2 h2)
  | actions e room h h1 _ _ ih2 =>
    intro h2
    rw [List.cons_append, List.cons_append, List.append_assoc]
    exact .actions e room h h1 (ih2 h2)
  | failed _ ih => exact fun h2 => .failed (ih h2)
  | deposit hc h1 _ _ ih2 =>
    intro h2
    rw [List.cons_append, List.append_assoc]
    exact .deposit hc h1 (ih2 h2)
  | other hc h1 _ _ ih2 =>
    intro h2
    rw [List.cons_append, List.append_assoc]
    exact .other hc h1 (ih2 h2)

/-- The calls that other contracts make. -/
theorem Traced.flatten {c : Cfg} : ∀ (l : List Item), (∀ i ∈ l, i = .other) → ∀ {w w' : World} {t : List Entry},
    Traced c w l w' t → ∃ calls, Calls c calls ∧ Traced c w calls w' t
  | [], _, w, w', t, h => ⟨[], by simp [Calls], h⟩
  | i :: l, hl, w, w', t, h => by
    cases hl i List.mem_cons_self
    cases h with
    | @other _ w1 _ calls _ t1 t2 hc h1 h2 =>
      obtain ⟨k, hk, h3⟩ := Traced.flatten l (fun i hi => hl i (List.mem_cons_of_mem _ hi)) h2
      refine ⟨calls ++ k, fun i hi => ?_, h1.append h3⟩
      rcases List.mem_append.1 hi with hi | hi
      · exact hc i hi
      · exact hk i hi

/-- Calls one after the other are transactions one after the other. -/
theorem Traced.history {c : Cfg} : ∀ (l : List Item), Calls c l → ∀ {u w w' : World} {s t : List Entry}, History c u w s →
    Traced c w l w' t → History c u w' (s ++ t)
  | [], _, u, w, w', s, t, hh, h => by
    cases h
    rw [List.append_nil]
    exact hh
  | i :: l, hl, u, w, w', s, t, hh, h => by
    obtain ⟨a, m, rfl, ha⟩ := hl i List.mem_cons_self
    cases h with
    | @call _ w1 w2 _ _ _ subs _ t1 t2 e room h h1 h2 =>
      have hx : Traced c w [.call a m] w2 (⟨w, e, a, m⟩ :: (t1 ++ [])) := .call e room h h1 (.nil w2)
      rw [List.append_nil] at hx
      have := Traced.history l (fun i hi => hl i (List.mem_cons_of_mem _ hi)) (.tx hh ha hx) h2
      rw [List.append_assoc] at this
      exact this

/-- Everything in a queue but the distributions and claims by others than the controller. -/
def remains (c : Cfg) : Item → Bool
  | .call a m => !(m.isReward && decide (a ≠ c.self))
  | _ => true

theorem subs_remain {c : Cfg} {w w1 : World} {a : Addr} {m : Msg} {subs : List Item} (h : Handled c w a m w1 subs) :
    ∀ i ∈ subs, remains c i = true := by
  intro i hi
  rcases h.kind with ⟨e, m', r, _, hx⟩ | ⟨_, _, _, ho⟩
  · rw [hx.subs] at hi
    obtain ⟨s, _, rfl⟩ := List.mem_map.1 hi
    cases s with
    | custom n =>
      simp only [toItem]
      rcases c.decode n with _ | _ | y <;> simp [remains]
    | _ => simp [toItem, remains]
  · rw [ho i hi]; rfl

theorem Traced.unpaid {c : Cfg} (hw : c.Wf) (ht : c.Tame) {w w' : World} {l : List Item} {t : List Entry}
    (h : Traced c w l w' t) : ∀ v, (∀ i ∈ l, Allowed c i) → Base c w → Unpaid w v →
      (∀ x ∈ t, x.msg.isReward = true → x.sender ≠ c.self) →
      ∃ v' t' l', Traced c v l' v' t' ∧
        t'.map Entry.label = (t.filter (fun x => !x.msg.isReward)).map Entry.label ∧ (Calls c l → Calls c l') ∧
        ((∀ i ∈ l, remains c i = true) → l' = l) ∧ Base c w' ∧ Unpaid w' v' := by
  induction h with
  | nil w => intro v _ hb ha _; exact ⟨v, [], [], .nil v, rfl, id, fun _ => rfl, hb, ha⟩
  | @call w w1 w2 w3 a m subs rest t1 t2 e room h h1 h2 ih1 ih2 =>
    intro v hl hb ha hs
    have hal : c.outsider a ∨ (a = c.self ∧ m.tame = true) := hl _ List.mem_cons_self
    have hk : Known c a m := by
      rcases hal with ha | ⟨ha, hm⟩
      · exact Or.inl ha
      · exact Or.inr ⟨ha, Or.inl hm⟩
    have hh := handled hw ht hb hk room h
    have hrest : ∀ i ∈ rest, Allowed c i := fun i hi => hl i (List.mem_cons_of_mem _ hi)
    have hs1 : ∀ x ∈ t1, x.msg.isReward = true → x.sender ≠ c.self := fun x hx' => hs x (by simp [hx'])
    have hs2 : ∀ x ∈ t2, x.msg.isReward = true → x.sender ≠ c.self := fun x hx' => hs x (by simp [hx'])
    have hcr : Calls c (.call a m :: rest) → Calls c rest := fun hc i hi => hc i (List.mem_cons_of_mem _ hi)
    by_cases hm : m.isReward = true
    · obtain ⟨g1, g2⟩ := handle_reward ha hm h
      have hne : a ≠ c.self := hs ⟨w, e, a, m⟩ List.mem_cons_self hm
      obtain ⟨v2, s1, l1, k1, k2, _, k4, b2, a2⟩ := ih1 v hh.allowed hh.base g1 hs1
      cases k4 (subs_remain hh)
      obtain ⟨calls, j1, j2⟩ := Traced.flatten _ g2 k1
      obtain ⟨v3, s2, l2, m1, m2, m3, m4, b3, a3⟩ := ih2 v2 hrest b2 a2 hs2
      refine ⟨v3, s1 ++ s2, calls ++ l2, j2.append m1, ?_, fun hc i hi => ?_, fun hr => ?_, b3, a3⟩
      · rw [List.filter_cons_of_neg (by simp [hm]), List.map_append, List.filter_append, List.map_append, k2, m2]
      · rcases List.mem_append.1 hi with hi | hi
        · exact j1 i hi
        · exact m3 (hcr hc) i hi
      · have := hr _ List.mem_cons_self
        simp [remains, hm, hne] at this
    · have hm : m.isReward = false := by simpa using hm
      obtain ⟨v1, g1, g2⟩ := handle_shadow ha hm h
      have room' : v.gov.pollCount + 1 < 2 ^ 64 := by rw [ha.same]; exact room
      obtain ⟨v2, s1, l1, k1, k2, _, k4, b2, a2⟩ := ih1 v1 hh.allowed hh.base g2 hs1
      cases k4 (subs_remain hh)
      obtain ⟨v3, s2, l2, m1, m2, m3, m4, b3, a3⟩ := ih2 v2 hrest b2 a2 hs2
      refine ⟨v3, ⟨v, e, a, m⟩ :: (s1 ++ s2), .call a m :: l2, .call e room' g1 k1 m1, ?_, fun hc i hi => ?_,
        fun hr => ?_, b3, a3⟩
      · rw [List.filter_cons_of_pos (by simp [hm]), List.map_cons, List.map_cons, List.map_append, List.filter_append,
          List.map_append, k2, m2]
        rfl
      · rcases List.mem_cons.1 hi with rfl | hi
        · exact hc _ List.mem_cons_self
        · exact m3 (hcr hc) i hi
      · rw [m4 (fun i hi => hr i (List.mem_cons_of_mem _ hi))]
  | @actions w w1 w2 w3 id subs rest t1 t2 e room h h1 h2 ih1 ih2 =>
    intro v hl hb ha hs
    have hk : Known c c.self (.ctl (.executeActions id)) := Or.inr ⟨rfl, Or.inr ⟨id, rfl⟩⟩
    have hh := handled hw ht hb hk room h
    obtain ⟨v1, g1, g2⟩ := handle_shadow ha rfl h
    have room' : v.gov.pollCount + 1 < 2 ^ 64 := by rw [ha.same]; exact room
    obtain ⟨v2, s1, l1, k1, k2, _, k4, b2, a2⟩ := ih1 v1 hh.allowed hh.base g2 (fun x hx' => hs x (by simp [hx']))
    cases k4 (subs_remain hh)
    obtain ⟨v3, s2, l2, m1, m2, m3, m4, b3, a3⟩ := ih2 v2 (fun i hi => hl i (List.mem_cons_of_mem _ hi)) b2 a2
      (fun x hx' => hs x (by simp [hx']))
    refine ⟨v3, ⟨v, e, c.self, .ctl (.executeActions id)⟩ :: (s1 ++ s2), .actions id :: l2, .actions e room' g1 k1 m1, ?_,
      fun hc => ?_, fun hr => ?_, b3, a3⟩
    · rw [List.filter_cons_of_pos rfl, List.map_cons, List.map_cons, List.map_append, List.filter_append,
        List.map_append, k2, m2]
      rfl
    · obtain ⟨_, _, hh, _⟩ := hc _ List.mem_cons_self
      cases hh
    · rw [m4 (fun i hi => hr i (List.mem_cons_of_mem _ hi))]
  | @failed w w1 id rest t h ih =>
    intro v hl hb ha hs
    obtain ⟨v', t', l', k1, k2, k3, k4, k5⟩ := ih v (fun i hi => hl i (List.mem_cons_of_mem _ hi)) hb ha hs
    refine ⟨v', t', .actions id :: l', .failed k1, k2, fun hc => ?_, fun hr => ?_, k5⟩
    · obtain ⟨_, _, hh, _⟩ := hc _ List.mem_cons_self
      cases hh
    · rw [k4 (fun i hi => hr i (List.mem_cons_of_mem _ hi))]
  | @deposit w w1 w2 id t calls rest t1 t2 hc h1 h2 ih1 ih2 =>
    intro v hl hb ha hs
    have hlog : Unpaid { w with log := w.log ++ [.paid id t] } { v with log := v.log ++ [.paid id t] } := by
      refine ⟨?_, ha.dist⟩
      rw [ha.same]
    obtain ⟨v1, s1, l1, k1, k2, k3, k4, b2, a2⟩ := ih1 { v with log := v.log ++ [.paid id t] } hc.allowed
      ⟨hb.ctl, hb.mem, hb.council⟩ hlog (fun x hx' => hs x (by simp [hx']))
    obtain ⟨v3, s2, l2, m1, m2, m3, m4, b3, a3⟩ := ih2 v1 (fun i hi => hl i (List.mem_cons_of_mem _ hi)) b2 a2
      (fun x hx' => hs x (by simp [hx']))
    refine ⟨v3, s1 ++ s2, .deposit id t :: l2, .deposit (k3 hc) k1 m1, ?_, fun hc => ?_, fun hr => ?_, b3, a3⟩
    · rw [List.map_append, List.filter_append, List.map_append, k2, m2]
    · obtain ⟨_, _, hh, _⟩ := hc _ List.mem_cons_self
      cases hh
    · rw [m4 (fun i hi => hr i (List.mem_cons_of_mem _ hi))]
  | @other w w1 w2 calls rest t1 t2 hc h1 h2 ih1 ih2 =>
    intro v hl hb ha hs
    obtain ⟨v1, s1, l1, k1, k2, k3, k4, b2, a2⟩ := ih1 v hc.allowed hb ha (fun x hx' => hs x (by simp [hx']))
    obtain ⟨v3, s2, l2, m1, m2, m3, m4, b3, a3⟩ := ih2 v1 (fun i hi => hl i (List.mem_cons_of_mem _ hi)) b2 a2
      (fun x hx' => hs x (by simp [hx']))
    refine ⟨v3, s1 ++ s2, .other :: l2, .other (k3 hc) k1 m1, ?_, fun hc => ?_, fun hr => ?_, b3, a3⟩
    · rw [List.map_append, List.filter_append, List.map_append, k2, m2]
    · obtain ⟨_, _, hh, _⟩ := hc _ List.mem_cons_self
      cases hh
    · rw [m4 (fun i hi => hr i (List.mem_cons_of_mem _ hi))]

theorem History.unpaid {c : Cfg} (hw : c.Wf) (ht : c.Tame) {w w' : World} {t : List Entry} (hr : Reachable c w)
    (hf : RewardsFit w) (h : History c w w' t) : (∀ x ∈ t, x.msg.isReward = true → x.sender ≠ c.self) →
      ∃ v' t', History c w v' t' ∧ t'.map Entry.label = (t.filter (fun x => !x.msg.isReward)).map Entry.label ∧
        Unpaid w' v' := by
  induction h with
  | start => exact fun _ => ⟨w, [], .start, rfl, rfl, rfl, (hr.dist hw ht).inv, hf⟩
  | @tx w1 w2 a m t t1 h ha hx ih =>
    intro hs
    obtain ⟨v1, s1, k1, k2, a1⟩ := ih (fun x hx' => hs x (by simp [hx']))
    have hb := (h.later.reachable hr).base hw ht
    obtain ⟨v2, s2, l', k3, k4, k5, _, _, a2⟩ := hx.unpaid hw ht v1
      (fun i hi => by rw [List.mem_singleton.1 hi]; exact Or.inl ha) hb a1 (fun x hx' => hs x (by simp [hx']))
    have hc : Calls c [.call a m] := fun i hi => ⟨a, m, List.mem_singleton.1 hi, ha⟩
    refine ⟨v2, s1 ++ s2, Traced.history l' (k5 hc) k1 k3, ?_, a2⟩
    rw [List.map_append, List.filter_append, List.map_append, k2, k4]
  | @block w1 b t h hh htm ih =>
    intro hs
    obtain ⟨v1, s1, k1, k2, a1⟩ := ih hs
    have hbl : v1.block = w1.block := by rw [a1.same]
    refine ⟨{ v1 with block := b }, s1, .block k1 (by rw [hbl]; exact hh) (by rw [hbl]; exact htm), k2, ?_, a1.dist⟩
    rw [a1.same]

/-! ## C173 -/

/-- **Distributions and claims of rewards matter to nothing else.** From a history of a DAO leave out everything that others
than the controller distribute to the members or claim. Then all other messages are handled as before, with what they lead
to, and in the end everything is the same but for the rewards. -/
theorem C173_rewards {c : Cfg} (hw : c.Wf) (ht : c.Tame) {w w' : World} {t : List Entry} (hr : Reachable c w)
    (hf : RewardsFit w) (h : History c w w' t) (hs : ∀ x ∈ t, x.msg.isReward = true → x.sender ≠ c.self) :
    ∃ v' t', History c w v' t' ∧ t'.map Entry.label = (t.filter (fun x => !x.msg.isReward)).map Entry.label ∧
      SameButRewards w' v' := by
  obtain ⟨v', t', h1, h2, h3⟩ := h.unpaid hw ht hr hf hs
  exact ⟨v', t', h1, h2, h3.sameButRewards⟩

/-- Two distributions and a claim, between stakes, votes and the execution of a proposal. -/
example : ∃ w' t, Reachable sampleCfg sampleGenesis ∧ RewardsFit sampleGenesis ∧ History sampleCfg sampleGenesis w' t ∧
    (∀ x ∈ t, x.msg.isReward = true → x.sender ≠ sampleCfg.self) ∧ (t.filter (fun x => x.msg.isReward)).length = 3 ∧
    Distributor.claimable w'.dist 11 (.native 5) = 42 ∧ (∃ m, outcome w' 1 = some m) := by
  have hs : ((traceAll sampleCfg sampleGenesis [stake 10 60, stake 11 40,
      .tx rewardExt 12 (.dist (.distributeNative [(5, 101)])), at_ 2,
      propose 12 [.updateGovConfig sampleChange, .executeMsgs [1, 2]], at_ 3, vote 10 1 .yes,
      .tx rewardExt 10 (.dist (.claim 10 [5] [])), stake 10 10, at_ 5, vote 11 1 .no,
      .tx rewardExt 12 (.dist (.distributeNative [(5, 7)])), at_ 20, execute 13 1]).map (fun r =>
        r.2.all (fun x => ! x.msg.isReward || decide (x.sender ≠ sampleCfg.self)) &&
          decide ((r.2.filter (fun x => x.msg.isReward)).length = 3 ∧
            Distributor.claimable r.1.dist 11 (.native 5) = 42 ∧ (outcome r.1 1).isSome))) =
      some true := by decide +kernel
  obtain ⟨⟨w', t⟩, h1, h2⟩ := Option.map_eq_some_iff.1 hs
  simp only [Bool.and_eq_true, decide_eq_true_eq] at h2
  refine ⟨w', t, .init sample_genesis, fun a => ?_, traceAll_history _ .start h1, fun x hx hm => ?_, h2.2.1, h2.2.2.1,
    Option.isSome_iff_exists.1 h2.2.2.2⟩
  · rw [Distributor.owed_empty (by decide +kernel)]
    decide
  · have := List.all_eq_true.1 h2.1 x hx
    rw [hm] at this
    exact of_decide_eq_true this

end Verif.Dao
