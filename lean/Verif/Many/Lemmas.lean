import Verif.Many.Model
import Verif.Dao.Props38

/-!
# Many DAOs on one chain: what one of them sees

Helper lemmas for C174.
-/

set_option linter.unusedSimpArgs false

namespace Verif.Many
open Verif
open Verif.Dao (Cfg World Item Entry Msg Ext Genesis handle Calls Traced History Reachable)
open Verif.Controller (Transfer)

variable {ι : Type} [DecidableEq ι]

theorem pick_nil (d : ι) : pick d [] = [] := rfl

theorem pick_append (d : ι) (S T : List (ι × Entry)) : pick d (S ++ T) = pick d S ++ pick d T := by
  unfold pick
  rw [List.filter_append, List.map_append]

theorem pick_same (d : ι) (x : Entry) (T : List (ι × Entry)) : pick d ((d, x) :: T) = x :: pick d T := by
  unfold pick
  rw [List.filter_cons_of_pos (by simp), List.map_cons]

theorem pick_other {d k : ι} (h : k ≠ d) (x : Entry) (T : List (ι × Entry)) : pick d ((k, x) :: T) = pick d T := by
  unfold pick
  rw [List.filter_cons_of_neg (by simp [h])]

theorem set_same (W : Daos ι) (d : ι) (w : World) : W.set d w d = some w := by simp [Daos.set]

theorem set_other (W : Daos ι) {d k : ι} (h : k ≠ d) (w : World) : W.set d w k = W k := by simp [Daos.set, h]

/-- All messages of a queue to this DAO come from outside of it. -/
def Outside (cs : ι → Cfg) (d : ι) (L : List (ι × Item)) : Prop :=
  ∀ x ∈ L, x.1 = d → ∃ a m, x.2 = .call a m ∧ (cs d).outsider a

theorem Foreign.outside {cs : ι → Cfg} {L : List (ι × Item)} (h : Foreign cs L) (d : ι) : Outside cs d L := by
  intro x hx he
  obtain ⟨a, m, h1, h2⟩ := h x hx
  exact ⟨a, m, h1, he ▸ h2⟩

theorem Outside.tail {cs : ι → Cfg} {d : ι} {x : ι × Item} {L : List (ι × Item)} (h : Outside cs d (x :: L)) :
    Outside cs d L := fun y hy => h y (List.mem_cons_of_mem _ hy)

theorem subs_outside {cs : ι → Cfg} {d k : ι} (h : k ≠ d) (l : List Item) : Outside cs d (l.map (k, ·)) := by
  intro x hx he
  obtain ⟨i, _, rfl⟩ := List.mem_map.1 hx
  exact absurd he h

theorem calls_append {c : Cfg} {l k : List Item} (h : Calls c l) (h' : Calls c k) : Calls c (l ++ k) := by
  intro i hi
  rcases List.mem_append.1 hi with hi | hi
  · exact h i hi
  · exact h' i hi

/-- What the execution of a queue is to one DAO. -/
structure Seen (cs : ι → Cfg) (d : ι) (w : World) (L : List (ι × Item)) (W' : Daos ι) (T : List (ι × Entry)) (w' : World)
    (l : List Item) : Prop where
  after : W' d = some w'
  run : Traced (cs d) w l w' (pick d T)
  outside : Outside cs d L → Calls (cs d) l
  own : (∀ x ∈ L, x.1 = d) → l = L.map (·.2)

theorem map_own (d : ι) (l : List Item) : (∀ x ∈ l.map (d, ·), x.1 = d) ∧ (l.map (d, ·)).map (·.2) = l := by
  constructor
  · intro x hx
    obtain ⟨i, _, rfl⟩ := List.mem_map.1 hx
    rfl
  · rw [List.map_map]
    exact List.map_id _

theorem Run.seen {cs : ι → Cfg} {W W' : Daos ι} {L : List (ι × Item)} {T : List (ι × Entry)} (h : Run cs W L W' T) (d : ι) :
    ∀ w, W d = some w → ∃ w' l, Seen cs d w L W' T w' l := by
  induction h with
  | nil W =>
    intro w hw
    exact ⟨w, [], hw, .nil w, fun _ i hi => absurd hi List.not_mem_nil, fun _ => rfl⟩
  | @call W W2 W3 k v v1 a m subs rest t1 t2 e hd room h h1 h2 ih1 ih2 =>
    intro w hw
    by_cases hk : k = d
    · subst hk
      rw [hd] at hw
      cases hw
      obtain ⟨w2, l1, s1⟩ := ih1 v1 (set_same _ _ _)
      obtain ⟨w3, l2, s2⟩ := ih2 w2 s1.after
      have hl := s1.own (map_own k subs).1
      rw [(map_own k subs).2] at hl
      subst hl
      refine ⟨w3, .call a m :: l2, s2.after, ?_, fun ho => ?_, fun hx => ?_⟩
      · rw [pick_same, pick_append]
        exact .call e room h s1.run s2.run
      · intro i hi
        rcases List.mem_cons.1 hi with rfl | hi
        · exact ho _ List.mem_cons_self rfl
        · exact s2.outside ho.tail i hi
      · rw [List.map_cons, s2.own (fun x h => hx x (List.mem_cons_of_mem _ h))]
    · obtain ⟨w2, l1, s1⟩ := ih1 w ((set_other _ (Ne.symm hk) _).trans hw)
      obtain ⟨w3, l2, s2⟩ := ih2 w2 s1.after
      refine ⟨w3, l1 ++ l2, s2.after, ?_, fun ho => ?_, fun hx => ?_⟩
      · rw [pick_other hk, pick_append]
        exact s1.run.append s2.run
      · exact calls_append (s1.outside (subs_outside hk _)) (s2.outside ho.tail)
      · exact absurd (hx _ List.mem_cons_self) hk
  | @actions W W2 W3 k v v1 id subs rest t1 t2 e hd room h h1 h2 ih1 ih2 =>
    intro w hw
    by_cases hk : k = d
    · subst hk
      rw [hd] at hw
      cases hw
      obtain ⟨w2, l1, s1⟩ := ih1 v1 (set_same _ _ _)
      obtain ⟨w3, l2, s2⟩ := ih2 w2 s1.after
      have hl := s1.own (map_own k subs).1
      rw [(map_own k subs).2] at hl
      subst hl
      refine ⟨w3, .actions id :: l2, s2.after, ?_, fun ho => ?_, fun hx => ?_⟩
      · rw [pick_same, pick_append]
        exact .actions e room h s1.run s2.run
      · obtain ⟨_, _, hh, _⟩ := ho _ List.mem_cons_self rfl
        cases hh
      · rw [List.map_cons, s2.own (fun x h => hx x (List.mem_cons_of_mem _ h))]
    · obtain ⟨w2, l1, s1⟩ := ih1 w ((set_other _ (Ne.symm hk) _).trans hw)
      obtain ⟨w3, l2, s2⟩ := ih2 w2 s1.after
      refine ⟨w3, l1 ++ l2, s2.after, ?_, fun ho => ?_, fun hx => ?_⟩
      · rw [pick_other hk, pick_append]
        exact s1.run.append s2.run
      · exact calls_append (s1.outside (subs_outside hk _)) (s2.outside ho.tail)
      · exact absurd (hx _ List.mem_cons_self) hk
  | @failed W W1 k id rest t h ih =>
    intro w hw
    obtain ⟨w2, l1, s1⟩ := ih w hw
    by_cases hk : k = d
    · subst hk
      refine ⟨w2, .actions id :: l1, s1.after, .failed s1.run, fun ho => ?_, fun hx => ?_⟩
      · obtain ⟨_, _, hh, _⟩ := ho _ List.mem_cons_self rfl
        cases hh
      · rw [List.map_cons, s1.own (fun x h => hx x (List.mem_cons_of_mem _ h))]
    · exact ⟨w2, l1, s1.after, s1.run, fun ho => s1.outside ho.tail, fun hx => absurd (hx _ List.mem_cons_self) hk⟩
  | @deposit W W1 W2 k v id t calls rest t1 t2 hd hc h1 h2 ih1 ih2 =>
    intro w hw
    by_cases hk : k = d
    · subst hk
      rw [hd] at hw
      cases hw
      obtain ⟨w2, l1, s1⟩ := ih1 _ (set_same _ _ _)
      obtain ⟨w3, l2, s2⟩ := ih2 w2 s1.after
      refine ⟨w3, .deposit id t :: l2, s2.after, ?_, fun ho => ?_, fun hx => ?_⟩
      · rw [pick_append]
        exact .deposit (s1.outside (hc.outside k)) s1.run s2.run
      · obtain ⟨_, _, hh, _⟩ := ho _ List.mem_cons_self rfl
        cases hh
      · rw [List.map_cons, s2.own (fun x h => hx x (List.mem_cons_of_mem _ h))]
    · obtain ⟨w2, l1, s1⟩ := ih1 w ((set_other _ (Ne.symm hk) _).trans hw)
      obtain ⟨w3, l2, s2⟩ := ih2 w2 s1.after
      refine ⟨w3, l1 ++ l2, s2.after, ?_, fun ho => ?_, fun hx => ?_⟩
      · rw [pick_append]
        exact s1.run.append s2.run
      · exact calls_append (s1.outside (hc.outside d)) (s2.outside ho.tail)
      · exact absurd (hx _ List.mem_cons_self) hk
  | @other W W1 W2 k calls rest t1 t2 hc h1 h2 ih1 ih2 =>
    intro w hw
    obtain ⟨w2, l1, s1⟩ := ih1 w hw
    obtain ⟨w3, l2, s2⟩ := ih2 w2 s1.after
    by_cases hk : k = d
    · subst hk
      refine ⟨w3, .other :: l2, s2.after, ?_, fun ho => ?_, fun hx => ?_⟩
      · rw [pick_append]
        exact .other (s1.outside (hc.outside k)) s1.run s2.run
      · obtain ⟨_, _, hh, _⟩ := ho _ List.mem_cons_self rfl
        cases hh
      · rw [List.map_cons, s2.own (fun x h => hx x (List.mem_cons_of_mem _ h))]
    · refine ⟨w3, l1 ++ l2, s2.after, ?_, fun ho => ?_, fun hx => ?_⟩
      · rw [pick_append]
        exact s1.run.append s2.run
      · exact calls_append (s1.outside (hc.outside d)) (s2.outside ho.tail)
      · exact absurd (hx _ List.mem_cons_self) hk

/-- Nothing can be sent to a DAO that does not exist. -/
theorem Run.unborn {cs : ι → Cfg} {W W' : Daos ι} {L : List (ι × Item)} {T : List (ι × Entry)} (h : Run cs W L W' T) (d : ι) :
    W d = none → W' d = none ∧ pick d T = [] := by
  induction h with
  | nil W => exact fun hw => ⟨hw, rfl⟩
  | @call W W2 W3 k v v1 a m subs rest t1 t2 e hd room h h1 h2 ih1 ih2 =>
    intro hw
    have hk : k ≠ d := by rintro rfl; rw [hd] at hw; cases hw
    obtain ⟨a1, a2⟩ := ih1 ((set_other _ (Ne.symm hk) _).trans hw)
    obtain ⟨b1, b2⟩ := ih2 a1
    exact ⟨b1, by rw [pick_other hk, pick_append, a2, b2]; rfl⟩
  | @actions W W2 W3 k v v1 id subs rest t1 t2 e hd room h h1 h2 ih1 ih2 =>
    intro hw
    have hk : k ≠ d := by rintro rfl; rw [hd] at hw; cases hw
    obtain ⟨a1, a2⟩ := ih1 ((set_other _ (Ne.symm hk) _).trans hw)
    obtain ⟨b1, b2⟩ := ih2 a1
    exact ⟨b1, by rw [pick_other hk, pick_append, a2, b2]; rfl⟩
  | failed h ih => exact ih
  | @deposit W W1 W2 k v id t calls rest t1 t2 hd hc h1 h2 ih1 ih2 =>
    intro hw
    have hk : k ≠ d := by rintro rfl; rw [hd] at hw; cases hw
    obtain ⟨a1, a2⟩ := ih1 ((set_other _ (Ne.symm hk) _).trans hw)
    obtain ⟨b1, b2⟩ := ih2 a1
    exact ⟨b1, by rw [pick_append, a2, b2]; rfl⟩
  | @other W W1 W2 k calls rest t1 t2 hc h1 h2 ih1 ih2 =>
    intro hw
    obtain ⟨a1, a2⟩ := ih1 hw
    obtain ⟨b1, b2⟩ := ih2 a1
    exact ⟨b1, by rw [pick_append, a2, b2]; rfl⟩

theorem tx_outside {cs : ι → Cfg} (d k : ι) {a : Addr} (m : Msg) (ha : (cs k).outsider a) :
    Outside cs d [(k, .call a m)] := by
  intro x hx he
  rw [List.mem_singleton.1 hx] at he ⊢
  exact ⟨a, m, rfl, he ▸ ha⟩

end Verif.Many
