import Verif.Many.Props

/-!
# Many DAOs on one chain: whatever a DAO can do alone it can do among others (C178)
-/

set_option linter.unusedSimpArgs false

namespace Verif.Many
open Verif
open Verif.Dao (Cfg World Item Entry Msg Ext Genesis handle Calls Traced History Reachable)
open Verif.Controller (Transfer)

variable {ι : Type} [DecidableEq ι]

/-! ## Lemmas -/

theorem set_set (W : Daos ι) (d : ι) (v w : World) : (W.set d v).set d w = W.set d w := by
  funext k
  unfold Daos.set
  split <;> rfl

theorem set_id {W : Daos ι} {d : ι} {w : World} (h : W d = some w) : W.set d w = W := by
  funext k
  unfold Daos.set
  split
  · next hk => rw [hk, h]
  · rfl

theorem pick_own (d : ι) (t : List Entry) : pick d (t.map (d, ·)) = t := by
  induction t with
  | nil => rfl
  | cons x t ih => rw [List.map_cons, pick_same, ih]

theorem pick_none {d k : ι} (h : k ≠ d) (t : List Entry) : pick d (t.map (k, ·)) = [] := by
  induction t with
  | nil => rfl
  | cons x t ih => rw [List.map_cons, pick_other h, ih]

theorem calls_foreign {cs : ι → Cfg} {d : ι} {l : List Item} (h : Calls (cs d) l) : Foreign cs (l.map (d, ·)) := by
  intro x hx
  obtain ⟨i, hi, rfl⟩ := List.mem_map.1 hx
  exact h i hi

/-- What happens in a DAO alone happens among others, none of which changes. -/
theorem Traced.among {cs : ι → Cfg} {d : ι} {w w' : World} {l : List Item} {t : List Entry} (h : Traced (cs d) w l w' t) :
    ∀ W : Daos ι, W d = some w → Run cs W (l.map (d, ·)) (W.set d w') (t.map (d, ·)) := by
  induction h with
  | nil w =>
    intro W hW
    rw [set_id hW]
    exact .nil W
  | @call w w1 w2 w3 a m subs rest t1 t2 e room h _ _ ih1 ih2 =>
    intro W hW
    have r1 := ih1 _ (set_same W d w1)
    have r2 := ih2 _ (set_same W d w2)
    rw [set_set] at r1 r2
    rw [List.map_cons, List.map_cons, List.map_append]
    exact .call e hW room h r1 r2
  | @actions w w1 w2 w3 id subs rest t1 t2 e room h _ _ ih1 ih2 =>
    intro W hW
    have r1 := ih1 _ (set_same W d w1)
    have r2 := ih2 _ (set_same W d w2)
    rw [set_set] at r1 r2
    rw [List.map_cons, List.map_cons, List.map_append]
    exact .actions e hW room h r1 r2
  | failed _ ih => exact fun W hW => .failed (ih W hW)
  | @deposit w w1 w2 id tr calls rest t1 t2 hc _ _ ih1 ih2 =>
    intro W hW
    have r1 := ih1 _ (set_same W d _)
    have r2 := ih2 _ (set_same W d w1)
    rw [set_set] at r1 r2
    rw [List.map_cons, List.map_append]
    exact .deposit hW (calls_foreign hc) r1 r2
  | @other w w1 w2 calls rest t1 t2 hc _ _ ih1 ih2 =>
    intro W hW
    have r1 := ih1 _ hW
    have r2 := ih2 _ (set_same W d w1)
    rw [set_set] at r2
    rw [List.map_cons, List.map_append]
    exact .other (calls_foreign hc) r1 r2

theorem deliver_block {c : Cfg} {e : Ext} {a : Addr} {w : World} {l : List Out} {r : World × List Item}
    (h : Dao.deliver c e a w l = .ok r) : r.1.block = w.block := by
  induction l generalizing w with
  | nil => cases h; rfl
  | cons o l ih =>
    cases o with
    | notify x y =>
      unfold Dao.deliver at h
      split at h
      · obtain ⟨g, _, h⟩ := bind_ok_iff.1 h
        obtain ⟨d, _, h⟩ := bind_ok_iff.1 h
        have hb := ih h
        exact hb
      · cases h; rfl
    | _ => cases h; rfl

theorem handle_block {c : Cfg} {e : Ext} {w w1 : World} {a : Addr} {m : Msg} {subs : List Item}
    (h : handle c e w a m = .ok (w1, subs)) : w1.block = w.block := by
  cases m with
  | ctl m =>
    obtain ⟨r, _, h⟩ := bind_ok_iff.1 h
    cases h; rfl
  | gov m =>
    obtain ⟨r, _, h⟩ := bind_ok_iff.1 h
    cases h; rfl
  | dist m =>
    obtain ⟨r, _, h⟩ := bind_ok_iff.1 h
    cases h; rfl
  | mem m =>
    obtain ⟨r, _, h⟩ := bind_ok_iff.1 h
    exact deliver_block h
  | council m =>
    obtain ⟨r, _, h⟩ := bind_ok_iff.1 h
    exact deliver_block h

theorem traced_block {c : Cfg} {w w' : World} {l : List Item} {t : List Entry} (h : Traced c w l w' t) :
    w'.block = w.block := by
  induction h with
  | nil w => rfl
  | call e room h _ _ ih1 ih2 => rw [ih2, ih1, handle_block h]
  | actions e room h _ _ ih1 ih2 => rw [ih2, ih1, handle_block h]
  | failed _ ih => exact ih
  | deposit hc _ _ ih1 ih2 => rw [ih2, ih1]
  | other hc _ _ ih1 ih2 => rw [ih2, ih1]

/-! ## C178 -/

/-- **One clock.** All DAOs are in the same block. -/
theorem C178_clock {cs : ι → Cfg} {W : Daos ι} {T : List (ι × Entry)} (h : Story cs W T) {d k : ι} {w v : World}
    (hd : W d = some w) (hk : W k = some v) : v.block = w.block := by
  induction h generalizing d k w v with
  | start => cases hd
  | @birth W T j u h hj hg hb ih =>
    unfold Daos.set at hd hk
    split at hd <;> split at hk
    · cases hd; cases hk; rfl
    · cases hd; exact hb k v hk
    · cases hk; exact (hb d w hd).symm
    · exact ih hd hk
  | @tx W W' T t j a m h ha hx ih =>
    have back : ∀ {i : ι} {x : World}, W' i = some x → ∃ y, W i = some y ∧ x.block = y.block := by
      intro i x hi
      cases hW : W i with
      | none => rw [(hx.unborn i hW).1] at hi; cases hi
      | some y =>
        obtain ⟨x', l, s⟩ := hx.seen i y hW
        rw [s.after] at hi
        cases hi
        exact ⟨y, rfl, traced_block s.run⟩
    obtain ⟨y, h1, h2⟩ := back hd
    obtain ⟨z, h3, h4⟩ := back hk
    rw [h2, h4]
    exact ih h1 h3
  | @block W T b h hb ih =>
    obtain ⟨y, _, rfl⟩ := Option.map_eq_some_iff.1 hd
    obtain ⟨z, _, rfl⟩ := Option.map_eq_some_iff.1 hk
    rfl

/-- **Others do not stand in the way of a transaction.** A transaction that a DAO accepts alone it accepts among any others, in
any state that they are in, with the same result and the same messages handled; nothing else changes. -/
theorem C178_transaction {cs : ι → Cfg} {W : Daos ι} {T : List (ι × Entry)} (h : Story cs W T) {d : ι} {w w' : World}
    (hd : W d = some w) {a : Addr} {m : Msg} {t : List Entry} (ha : (cs d).outsider a)
    (hx : Traced (cs d) w [.call a m] w' t) : Story cs (W.set d w') (T ++ t.map (d, ·)) :=
  .tx h ha (Traced.among hx W hd)

/-- **Whatever a DAO can do alone it can do among others.** To any history of a chain add a DAO, and to this a history of the DAO
alone: the two make a history of the chain. For the other DAOs only time passes. -/
theorem C178_among {cs : ι → Cfg} {W : Daos ι} {T : List (ι × Entry)} (h : Story cs W T) {d : ι} {w0 w : World} {t : List Entry}
    (hd : W d = none) (hg : Genesis (cs d) w0) (hb : ∀ k v, W k = some v → v.block = w0.block)
    (hh : History (cs d) w0 w t) : ∃ W', Story cs W' (T ++ t.map (d, ·)) ∧ W' d = some w ∧
      ∀ k, k ≠ d → W' k = (W k).map (fun v => { v with block := w.block }) := by
  induction hh with
  | start =>
    refine ⟨W.set d w0, by simpa using Story.birth h hd hg hb, set_same _ _ _, fun k hk => ?_⟩
    rw [set_other _ hk]
    cases hv : W k with
    | none => rfl
    | some v => rw [Option.map_some, ← hb k v hv]
  | @tx w1 w2 a m t t1 _ ha hx ih =>
    obtain ⟨W', h1, h2, h3⟩ := ih
    refine ⟨W'.set d w2, ?_, set_same _ _ _, fun k hk => ?_⟩
    · rw [List.map_append, ← List.append_assoc]
      exact C178_transaction h1 h2 ha hx
    · rw [set_other _ hk, h3 k hk, traced_block hx]
  | @block w1 b t _ hh ht ih =>
    obtain ⟨W', h1, h2, h3⟩ := ih
    refine ⟨_, Story.block (b := b) h1 fun k v hv => ?_, by rw [h2]; rfl, fun k hk => ?_⟩
    · rw [C178_clock h1 h2 hv]
      exact ⟨hh, ht⟩
    · rw [h3 k hk, Option.map_map]
      rfl

/-- **The histories of a DAO among others are exactly its histories alone.** With C174. -/
theorem C178_exactly (cs : ι → Cfg) (d : ι) (w : World) (t : List Entry) :
    (∃ W T, Story cs W T ∧ W d = some w ∧ pick d T = t) ↔ ∃ w0, Genesis (cs d) w0 ∧ History (cs d) w0 w t := by
  constructor
  · rintro ⟨W, T, h, hw, rfl⟩
    exact (C174_alone h d).1 w hw
  · rintro ⟨w0, hg, hh⟩
    obtain ⟨W, h1, h2, _⟩ := C178_among (cs := cs) .start rfl hg (fun k v hv => by cases hv) hh
    exact ⟨W, _, h1, h2, pick_own d t⟩

/-- Hypotheses of `C178_among` and `C178_clock`: the second of two DAOs is there, and the first is added, with a history in which
the members vote. -/
example : ∃ W w t, Story twoCfg W [] ∧ W true = none ∧ W false = some secondGenesis ∧ Genesis (twoCfg true) Dao.sampleGenesis ∧
    (∀ k v, W k = some v → v.block = Dao.sampleGenesis.block) ∧ History (twoCfg true) Dao.sampleGenesis w t ∧
    w.mem.weight 10 = 60 ∧ Gov.queryPollVoter w.gov 1 10 = some ⟨1, 10, .yes, 60⟩ := by
  have hs : ((Dao.traceAll Dao.sampleCfg Dao.sampleGenesis Dao.sampleDone).map (fun r =>
      (r.1.mem.weight 10, Gov.queryPollVoter r.1.gov 1 10))) = some (60, some ⟨1, 10, .yes, 60⟩) := by decide +kernel
  obtain ⟨⟨w, t⟩, h1, h2⟩ := Option.map_eq_some_iff.1 hs
  simp only [Prod.mk.injEq] at h2
  refine ⟨Daos.set (fun _ => none) false secondGenesis, w, t, .birth .start rfl second_genesis fun k v h => (by cases h), rfl,
    rfl, Dao.sample_genesis, fun k v h => ?_, Dao.traceAll_history _ .start h1, h2.1, h2.2⟩
  cases k with
  | false => cases h; rfl
  | true => cases h

/-- Hypotheses of `C178_transaction`: a stake in the first of two DAOs. -/
example : ∃ w' t, Story twoCfg twoNew [] ∧ twoNew true = some Dao.sampleGenesis ∧ (twoCfg true).outsider 10 ∧
    Traced (twoCfg true) Dao.sampleGenesis [.call 10 (.mem (.staking (.stakeDenom [⟨20, 60⟩] none)))] w' t ∧
    w'.mem.weight 10 = 60 := by
  have hs : ((sim twoCfg Dao.sampleExt 60 twoNew [] [(true, .call 10 (.mem (.staking (.stakeDenom [⟨20, 60⟩] none))))]).map
      (fun r => (r.1 true).map (fun w => w.mem.weight 10))) = some (some 60) := by
    decide +kernel
  obtain ⟨r, h1, h2⟩ := Option.map_eq_some_iff.1 hs
  obtain ⟨w', h3, h4⟩ := Option.map_eq_some_iff.1 h2
  obtain ⟨v, l, s⟩ := (sim_run _ h1).seen true Dao.sampleGenesis rfl
  have hv := s.after
  rw [h3] at hv
  cases hv
  have hl := s.own (fun x hx => by rw [List.mem_singleton.1 hx])
  have hr := s.run
  rw [hl] at hr
  exact ⟨w', _, two_story, rfl, by decide, hr, h4⟩

end Verif.Many
