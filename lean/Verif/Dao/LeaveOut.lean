import Verif.Dao.Props40

/-!
# Lemmas: histories of a DAO from which messages of one kind are left out (for C177)
-/

set_option linter.unusedSimpArgs false

namespace Verif.Dao
open Verif

/-- Messages of the kind `skip` can be left out, up to `R`: they change nothing that `R` sees and send nothing to the DAO, and
the others are handled alike in states related by `R`. -/
structure Spare (c : Cfg) (skip : Msg → Bool) (R : World → World → Prop) : Prop where
  sim : ∀ {e : Ext} {w v w1 : World} {a : Addr} {m : Msg} {subs : List Item}, Base c w → R w v → skip m = false →
    handle c e w a m = .ok (w1, subs) → ∃ v1, handle c e v a m = .ok (v1, subs) ∧ R w1 v1
  drop : ∀ {e : Ext} {w v w1 : World} {a : Addr} {m : Msg} {subs : List Item}, Base c w → R w v → skip m = true →
    handle c e w a m = .ok (w1, subs) → R w1 v ∧ ∀ i ∈ subs, i = .other
  actions : ∀ id, skip (.ctl (.executeActions id)) = false
  count : ∀ {w v : World}, R w v → v.gov.pollCount = w.gov.pollCount
  same : ∀ {w v : World}, R w v → v.block = w.block
  log : ∀ {w v : World}, R w v → ∀ x : Event, R { w with log := w.log ++ [x] } { v with log := v.log ++ [x] }
  block : ∀ {w v : World}, R w v → ∀ b : Block, R { w with block := b } { v with block := b }

/-- Everything in a queue but the messages to be left out that are not from the controller. -/
def stays (c : Cfg) (skip : Msg → Bool) : Item → Bool
  | .call a m => !(skip m && decide (a ≠ c.self))
  | _ => true

theorem subs_stay {c : Cfg} {skip : Msg → Bool} {w w1 : World} {a : Addr} {m : Msg} {subs : List Item} (h : Handled c w a m w1 subs) :
    ∀ i ∈ subs, stays c skip i = true := by
  intro i hi
  rcases h.kind with ⟨e, m', r, _, hx⟩ | ⟨_, _, _, ho⟩
  · rw [hx.subs] at hi
    obtain ⟨s, _, rfl⟩ := List.mem_map.1 hi
    cases s with
    | custom n =>
      simp only [toItem]
      rcases c.decode n with _ | _ | y <;> simp [stays]
    | _ => simp [toItem, stays]
  · rw [ho i hi]; rfl

theorem Traced.without {c : Cfg} {skip : Msg → Bool} {R : World → World → Prop} (S : Spare c skip R) (hw : c.Wf) (ht : c.Tame) {w w' : World} {l : List Item} {t : List Entry}
    (h : Traced c w l w' t) : ∀ v, (∀ i ∈ l, Allowed c i) → Base c w → R w v →
      (∀ x ∈ t, skip x.msg = true → x.sender ≠ c.self) →
      ∃ v' t' l', Traced c v l' v' t' ∧
        t'.map Entry.label = (t.filter (fun x => !skip x.msg)).map Entry.label ∧ (Calls c l → Calls c l') ∧
        ((∀ i ∈ l, stays c skip i = true) → l' = l) ∧ Base c w' ∧ R w' v' := by
  induction h with
  | nil w => intro v _ hb ha _; exact ⟨v, [], [], .nil v, rfl, id, fun _ => rfl, hb, ha⟩
  | @call w w1 w2 w3 a m subs rest t1 t2 e room h h1 h2 ih1 ih2 =>
    intro v hl hb ha hs
    have hal : c.outsider a ∨ (a = c.self ∧ m.tame = true) := hl _ List.mem_cons_self
    have hk : Known c a m := by
      rcases hal with ha | ⟨ha, hm⟩
      · exact Or.inl ha
      · exact Or.inr ⟨ha, Or.inl hm⟩
    have hh := handled hw ht hb hk room h
    have hrest : ∀ i ∈ rest, Allowed c i := fun i hi => hl i (List.mem_cons_of_mem _ hi)
    have hs1 : ∀ x ∈ t1, skip x.msg = true → x.sender ≠ c.self := fun x hx' => hs x (by simp [hx'])
    have hs2 : ∀ x ∈ t2, skip x.msg = true → x.sender ≠ c.self := fun x hx' => hs x (by simp [hx'])
    have hcr : Calls c (.call a m :: rest) → Calls c rest := fun hc i hi => hc i (List.mem_cons_of_mem _ hi)
    by_cases hm : skip m = true
    · obtain ⟨g1, g2⟩ := S.drop hb ha hm h
      have hne : a ≠ c.self := hs ⟨w, e, a, m⟩ List.mem_cons_self hm
      obtain ⟨v2, s1, l1, k1, k2, _, k4, b2, a2⟩ := ih1 v hh.allowed hh.base g1 hs1
      cases k4 (subs_stay hh)
      obtain ⟨calls, j1, j2⟩ := Traced.flatten _ g2 k1
      obtain ⟨v3, s2, l2, m1, m2, m3, m4, b3, a3⟩ := ih2 v2 hrest b2 a2 hs2
      refine ⟨v3, s1 ++ s2, calls ++ l2, j2.append m1, ?_, fun hc i hi => ?_, fun hr => ?_, b3, a3⟩
      · rw [List.filter_cons_of_neg (by simp [hm]), List.map_append, List.filter_append, List.map_append, k2, m2]
      · rcases List.mem_append.1 hi with hi | hi
        · exact j1 i hi
        · exact m3 (hcr hc) i hi
      · have := hr _ List.mem_cons_self
        simp [stays, hm, hne] at this
    · have hm : skip m = false := by simpa using hm
      obtain ⟨v1, g1, g2⟩ := S.sim hb ha hm h
      have room' : v.gov.pollCount + 1 < 2 ^ 64 := by rw [S.count ha]; exact room
      obtain ⟨v2, s1, l1, k1, k2, _, k4, b2, a2⟩ := ih1 v1 hh.allowed hh.base g2 hs1
      cases k4 (subs_stay hh)
      obtain ⟨v3, s2, l2, m1, m2, m3, m4, b3, a3⟩ := ih2 v2 hrest b2 a2 hs2
      refine ⟨v3, ⟨v, e, a, m⟩ :: (s1 ++ s2), .call a m :: l2, .call e room' g1 k1 m1, ?_, fun hc i hi => ?_,
        fun hr => ?_, b3, a3⟩
      · rw [List.filter_cons_of_pos (by simp [hm]), List.map_cons, List.map_cons, List.map_append, List.filter_append,
          List.map_append, k2, m2]
        rfl
      · rcases List.mem_cons.1 hi with rfl | hi
        · exact hc _ List.mem_cons_self
        · exact m3 (hcr hc) i hi
      · rw [m4 (fun i hi => hr i (List.mem_cons_of_mem _ hi))]
  | @actions w w1 w2 w3 id subs rest t1 t2 e room h h1 h2 ih1 ih2 =>
    intro v hl hb ha hs
    have hk : Known c c.self (.ctl (.executeActions id)) := Or.inr ⟨rfl, Or.inr ⟨id, rfl⟩⟩
    have hh := handled hw ht hb hk room h
    obtain ⟨v1, g1, g2⟩ := S.sim hb ha (S.actions id) h
    have room' : v.gov.pollCount + 1 < 2 ^ 64 := by rw [S.count ha]; exact room
    obtain ⟨v2, s1, l1, k1, k2, _, k4, b2, a2⟩ := ih1 v1 hh.allowed hh.base g2 (fun x hx' => hs x (by simp [hx']))
    cases k4 (subs_stay hh)
    obtain ⟨v3, s2, l2, m1, m2, m3, m4, b3, a3⟩ := ih2 v2 (fun i hi => hl i (List.mem_cons_of_mem _ hi)) b2 a2
      (fun x hx' => hs x (by simp [hx']))
    refine ⟨v3, ⟨v, e, c.self, .ctl (.executeActions id)⟩ :: (s1 ++ s2), .actions id :: l2, .actions e room' g1 k1 m1, ?_,
      fun hc => ?_, fun hr => ?_, b3, a3⟩
    · rw [List.filter_cons_of_pos (by simp [S.actions id]), List.map_cons, List.map_cons, List.map_append, List.filter_append,
        List.map_append, k2, m2]
      rfl
    · obtain ⟨_, _, hh, _⟩ := hc _ List.mem_cons_self
      cases hh
    · rw [m4 (fun i hi => hr i (List.mem_cons_of_mem _ hi))]
  | @failed w w1 id rest t h ih =>
    intro v hl hb ha hs
    obtain ⟨v', t', l', k1, k2, k3, k4, k5⟩ := ih v (fun i hi => hl i (List.mem_cons_of_mem _ hi)) hb ha hs
    refine ⟨v', t', .actions id :: l', .failed k1, k2, fun hc => ?_, fun hr => ?_, k5⟩
    · obtain ⟨_, _, hh, _⟩ := hc _ List.mem_cons_self
      cases hh
    · rw [k4 (fun i hi => hr i (List.mem_cons_of_mem _ hi))]
  | @deposit w w1 w2 id t calls rest t1 t2 hc h1 h2 ih1 ih2 =>
    intro v hl hb ha hs
    have hlog : R { w with log := w.log ++ [.paid id t] } { v with log := v.log ++ [.paid id t] } := S.log ha _
    obtain ⟨v1, s1, l1, k1, k2, k3, k4, b2, a2⟩ := ih1 { v with log := v.log ++ [.paid id t] } hc.allowed
      ⟨hb.ctl, hb.mem, hb.council⟩ hlog (fun x hx' => hs x (by simp [hx']))
    obtain ⟨v3, s2, l2, m1, m2, m3, m4, b3, a3⟩ := ih2 v1 (fun i hi => hl i (List.mem_cons_of_mem _ hi)) b2 a2
      (fun x hx' => hs x (by simp [hx']))
    refine ⟨v3, s1 ++ s2, .deposit id t :: l2, .deposit (k3 hc) k1 m1, ?_, fun hc => ?_, fun hr => ?_, b3, a3⟩
    · rw [List.map_append, List.filter_append, List.map_append, k2, m2]
    · obtain ⟨_, _, hh, _⟩ := hc _ List.mem_cons_self
      cases hh
    · rw [m4 (fun i hi => hr i (List.mem_cons_of_mem _ hi))]
  | @other w w1 w2 calls rest t1 t2 hc h1 h2 ih1 ih2 =>
    intro v hl hb ha hs
    obtain ⟨v1, s1, l1, k1, k2, k3, k4, b2, a2⟩ := ih1 v hc.allowed hb ha (fun x hx' => hs x (by simp [hx']))
    obtain ⟨v3, s2, l2, m1, m2, m3, m4, b3, a3⟩ := ih2 v1 (fun i hi => hl i (List.mem_cons_of_mem _ hi)) b2 a2
      (fun x hx' => hs x (by simp [hx']))
    refine ⟨v3, s1 ++ s2, .other :: l2, .other (k3 hc) k1 m1, ?_, fun hc => ?_, fun hr => ?_, b3, a3⟩
    · rw [List.map_append, List.filter_append, List.map_append, k2, m2]
    · obtain ⟨_, _, hh, _⟩ := hc _ List.mem_cons_self
      cases hh
    · rw [m4 (fun i hi => hr i (List.mem_cons_of_mem _ hi))]

theorem History.without {c : Cfg} {skip : Msg → Bool} {R : World → World → Prop} (S : Spare c skip R) (hw : c.Wf) (ht : c.Tame)
    {w v w' : World} {t : List Entry} (hr : Reachable c w) (hR : R w v) (h : History c w w' t) : (∀ x ∈ t, skip x.msg = true → x.sender ≠ c.self) →
      ∃ v' t', History c v v' t' ∧ t'.map Entry.label = (t.filter (fun x => !skip x.msg)).map Entry.label ∧
        R w' v' := by
  induction h with
  | start => exact fun _ => ⟨v, [], .start, rfl, hR⟩
  | @tx w1 w2 a m t t1 h ha hx ih =>
    intro hs
    obtain ⟨v1, s1, k1, k2, a1⟩ := ih (fun x hx' => hs x (by simp [hx']))
    have hb := (h.later.reachable hr).base hw ht
    obtain ⟨v2, s2, l', k3, k4, k5, _, _, a2⟩ := hx.without S hw ht v1
      (fun i hi => by rw [List.mem_singleton.1 hi]; exact Or.inl ha) hb a1 (fun x hx' => hs x (by simp [hx']))
    have hc : Calls c [.call a m] := fun i hi => ⟨a, m, List.mem_singleton.1 hi, ha⟩
    refine ⟨v2, s1 ++ s2, Traced.history l' (k5 hc) k1 k3, ?_, a2⟩
    rw [List.map_append, List.filter_append, List.map_append, k2, k4]
  | @block w1 b t h hh htm ih =>
    intro hs
    obtain ⟨v1, s1, k1, k2, a1⟩ := ih hs
    have hbl : v1.block = w1.block := S.same a1
    exact ⟨{ v1 with block := b }, s1, .block k1 (by rw [hbl]; exact hh) (by rw [hbl]; exact htm), k2, S.block a1 b⟩

end Verif.Dao
