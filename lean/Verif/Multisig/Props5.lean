import Verif.Multisig.Props4
import Verif.Staking.Props4

/-!
# Multisig membership: updating members in parts (C190)
-/

set_option linter.unusedSimpArgs false

namespace Verif.Multisig
open Verif

/-! ## Specification -/

/-- Every message of a list is accepted, one after the other. -/
def allAccepted : Members → List Call → Prop
  | _, [] => True
  | s, c :: t => accepted s c ∧ allAccepted (step s c).1 t

/-- The changes that a hook is told about, in order. -/
def told (g : Addr) (outs : List Out) : List WeightChange :=
  outs.flatMap (fun o => match o with | .notify h cs => if h = g then cs else [] | _ => [])

/-- An update of these members. -/
def updating (e : Env) (l : List (Addr × Nat)) : Call := ⟨e, .updateMembers l, true⟩

/-! ## Lemmas -/

theorem told_append (g : Addr) (a b : List Out) : told g (a ++ b) = told g a ++ told g b := by
  unfold told; rw [List.flatMap_append]

theorem told_report (m : Members) (g : Addr) (cs : List WeightChange) :
    told g (m.report cs) = if g ∈ m.hooks.keys then cs else [] := by
  have key : ∀ ks : List Addr, ks.Nodup →
      told g (ks.map (fun h => Out.notify h cs)) = if g ∈ ks then cs else [] := by
    intro ks
    induction ks with
    | nil => intro _; rfl
    | cons k t ih =>
      intro hn
      obtain ⟨h1, h2⟩ := List.nodup_cons.1 hn
      have e : told g ((k :: t).map (fun h => Out.notify h cs)) =
          (if k = g then cs else []) ++ told g (t.map (fun h => Out.notify h cs)) := rfl
      rw [e, ih h2]
      by_cases hk : k = g
      · subst hk; simp [h1]
      · have : ¬ g = k := fun hh => hk hh.symm
        simp [hk, this]
  exact key _ (Map.nodup_keys _)

theorem setAll_append (m : Members) (l l' : List (Addr × Nat)) : setAll m (l ++ l') = setAll (setAll m l) l' := by
  unfold setAll; rw [List.foldl_append]

theorem setAll_saveTotal (l : List (Addr × Nat)) (m : Members) (w : Nat) (b : Block) :
    setAll (m.saveTotal w b) l = (setAll m l).saveTotal w b := by
  induction l generalizing m with
  | nil => rfl
  | cons p t ih => exact ih (m.setWeight p.1 p.2)

theorem saveTotal_twice (m : Members) (v w : Nat) (b : Block) : (m.saveTotal v b).saveTotal w b = m.saveTotal w b := by
  unfold Members.saveTotal
  simp only [Staking.save_save]

theorem distinct_append {l l' : List (Addr × Nat)} (h : Distinct (l ++ l')) :
    Distinct l ∧ Distinct l' ∧ ∀ p ∈ l', p.1 ∉ l.map (·.1) := by
  unfold Distinct at h ⊢
  rw [List.map_append, List.nodup_append] at h
  exact ⟨h.1, h.2.1, fun p hp hh => h.2.2 _ hh _ (List.mem_map_of_mem hp) rfl⟩

theorem fit_append {s : Members} {l l' : List (Addr × Nat)} (h : Distinct (l ++ l')) :
    Fit s s.wsum (l ++ l') ↔ Fit s s.wsum l ∧ Fit (setAll s l) (setAll s l).wsum l' := by
  obtain ⟨h1, h2, _⟩ := distinct_append h
  constructor
  · intro hf
    have g := (updateLoop_ok_iff (l ++ l') (x := (s, s.wsum, [])) h rfl).2 ⟨hf, rfl⟩
    rw [List.foldlM_append, bind_ok_iff] at g
    obtain ⟨z, g1, g2⟩ := g
    obtain ⟨f1, rfl⟩ := (updateLoop_ok_iff l (x := (s, s.wsum, [])) h1 rfl).1 g1
    exact ⟨f1, ((updateLoop_ok_iff l' h2 rfl).1 g2).1⟩
  · rintro ⟨f1, f2⟩
    have g1 := (updateLoop_ok_iff l (x := (s, s.wsum, [])) h1 rfl).2 ⟨f1, rfl⟩
    have g2 := (updateLoop_ok_iff l' (x := (setAll s l, (setAll s l).wsum,
      ([] : List WeightChange) ++ l.map (fun p => ⟨p.1, s.weight p.1, p.2⟩))) h2 rfl).2 ⟨f2, rfl⟩
    have g : ∃ y, (l ++ l').foldlM updateOne (s, s.wsum, []) = .ok y := by
      rw [List.foldlM_append]
      exact ⟨_, bind_ok_iff.2 ⟨_, g1, g2⟩⟩
    obtain ⟨y, g⟩ := g
    exact ((updateLoop_ok_iff (l ++ l') (x := (s, s.wsum, [])) h rfl).1 g).1

theorem accepted_updating {s : Members} (hi : Inv s) {e : Env} {l : List (Addr × Nat)} :
    accepted s (updating e l) ↔ e.sender = e.controller ∧ Distinct l ∧ Fit s s.wsum l := by
  rw [← hi.total]
  unfold accepted updating
  simp only [exec, true_and]
  constructor
  · rintro ⟨r, hr⟩
    obtain ⟨h1, h2, h3, _⟩ := (updateMembers_ok_iff hi).1 hr
    exact ⟨h1, h2, h3⟩
  · rintro ⟨h1, h2, h3⟩
    exact ⟨_, (updateMembers_ok_iff hi).2 ⟨h1, h2, h3, rfl⟩⟩

theorem step_updating {s : Members} (hi : Inv s) {e : Env} {l : List (Addr × Nat)} (h : accepted s (updating e l)) :
    step s (updating e l) = ((setAll s l).saveTotal (setAll s l).wsum e.block,
      s.report (l.map (fun p => ⟨p.1, s.weight p.1, p.2⟩))) := by
  obtain ⟨h1, h2, h3⟩ := (accepted_updating hi).1 h
  rw [← hi.total] at h3
  have := (updateMembers_ok_iff hi).2 ⟨h1, h2, h3, rfl⟩
  unfold step updating
  simp only [exec, this, if_true]

theorem weight_setAll_ne {l : List (Addr × Nat)} {u : Addr} (m : Members) (h : u ∉ l.map (·.1)) :
    (setAll m l).weight u = m.weight u := by
  induction l generalizing m with
  | nil => rfl
  | cons p t ih =>
    rw [List.map_cons, List.mem_cons, not_or] at h
    rw [setAll_cons, ih _ h.2, Members.weight_setWeight, if_neg h.1]

/-! ## C190 -/

/-- C190. Updating members by several messages in a block, nobody being listed twice, is accepted exactly when one
message with all of it is; it then leaves exactly the same state, and every hook is told about the same changes in the
same order. -/
theorem C190_parts {s : Members} (hs : Reachable s) (e : Env) {ls : List (List (Addr × Nat))} (hne : ls ≠ [])
    (hd : Distinct ls.flatten) :
    (allAccepted s (ls.map (updating e)) ↔ accepted s (updating e ls.flatten)) ∧
    (accepted s (updating e ls.flatten) →
      run s (ls.map (updating e)) = run s [updating e ls.flatten] ∧
      ∀ g, told g (sent s (ls.map (updating e))) = told g (sent s [updating e ls.flatten])) := by
  have key : ∀ (ls : List (List (Addr × Nat))) {s : Members}, Inv s → ls ≠ [] → Distinct ls.flatten →
      (allAccepted s (ls.map (updating e)) ↔ accepted s (updating e ls.flatten)) ∧
      (accepted s (updating e ls.flatten) →
        run s (ls.map (updating e)) = (step s (updating e ls.flatten)).1 ∧
        ∀ g, told g (sent s (ls.map (updating e))) = told g (step s (updating e ls.flatten)).2) := by
    intro ls
    induction ls with
    | nil => intro s _ h; exact absurd rfl h
    | cons l t ih =>
      intro s hi _ hd
      by_cases ht : t = []
      · subst ht
        have : [l].flatten = l := by simp
        rw [this]
        refine ⟨⟨fun h => h.1, fun h => ⟨h, trivial⟩⟩, fun _ => ⟨rfl, fun g => ?_⟩⟩
        show told g (_ ++ []) = _
        rw [List.append_nil]
      · rw [List.flatten_cons] at hd ⊢
        obtain ⟨d1, d2, d3⟩ := distinct_append hd
        by_cases h1 : accepted s (updating e l)
        · have hi' : Inv (step s (updating e l)).1 := inv_step hi _
          have st := step_updating hi h1
          obtain ⟨i1, i2⟩ := ih hi' ht d2
          obtain ⟨a1, a2, a3⟩ := (accepted_updating hi).1 h1
          have hacc : accepted (step s (updating e l)).1 (updating e t.flatten) ↔
              accepted s (updating e (l ++ t.flatten)) := by
            rw [accepted_updating hi', accepted_updating hi, fit_append hd, st]
            have hf : Fit ((setAll s l).saveTotal (setAll s l).wsum e.block)
                ((setAll s l).saveTotal (setAll s l).wsum e.block).wsum t.flatten ↔
                Fit (setAll s l) (setAll s l).wsum t.flatten := Iff.rfl
            simp only
            rw [hf]
            exact ⟨fun h => ⟨h.1, hd, a3, h.2.2⟩, fun h => ⟨h.1, d2, h.2.2.2⟩⟩
          refine ⟨⟨fun h => hacc.1 (i1.1 h.2), fun h => ⟨h1, i1.2 (hacc.2 h)⟩⟩, fun h => ?_⟩
          obtain ⟨j1, j2⟩ := i2 (hacc.2 h)
          have s2 := step_updating hi' (hacc.2 h)
          have s3 := step_updating hi h
          refine ⟨?_, fun g => ?_⟩
          · show run (step s (updating e l)).1 (t.map (updating e)) = _
            rw [j1, s2, s3, st]
            simp only
            rw [setAll_saveTotal, saveTotal_twice, setAll_append, Members.saveTotal_wsum]
          · show told g ((step s (updating e l)).2 ++ sent (step s (updating e l)).1 (t.map (updating e))) = _
            rw [told_append, j2 g, s2, s3]
            simp only
            rw [told_report, told_report, st]
            simp only
            rw [told_report, Members.saveTotal_hooks, (setAll_frame s l).2.2, List.map_append]
            have : t.flatten.map (fun p => (⟨p.1, ((setAll s l).saveTotal (setAll s l).wsum e.block).weight p.1, p.2⟩ :
                WeightChange)) = t.flatten.map (fun p => ⟨p.1, s.weight p.1, p.2⟩) := by
              apply List.map_congr_left
              intro p hp
              rw [Members.saveTotal_weight, weight_setAll_ne s (d3 p hp)]
            rw [this]
            split <;> simp
        · have h2 : ¬ accepted s (updating e (l ++ t.flatten)) := by
            intro h
            obtain ⟨a1, _, a3⟩ := (accepted_updating hi).1 h
            exact h1 ((accepted_updating hi).2 ⟨a1, d1, ((fit_append hd).1 a3).1⟩)
          exact ⟨⟨fun h => absurd h.1 h1, fun h => absurd h h2⟩, fun h => absurd h h2⟩
  obtain ⟨k1, k2⟩ := key ls hs.inv hne hd
  refine ⟨k1, fun h => ⟨(k2 h).1, fun g => ?_⟩⟩
  show _ = told g ((step s (updating e ls.flatten)).2 ++ [])
  rw [List.append_nil]
  exact (k2 h).2 g

/-- The controller (9) changes one member, adds another one, and removes a third one. -/
example : Reachable (run smpInit (smp.take 1)) ∧ Distinct ([[(2, 9)], [(4, 3), (1, 0)]] : List (List (Addr × Nat))).flatten ∧
    allAccepted (run smpInit (smp.take 1)) ([[(2, 9)], [(4, 3), (1, 0)]].map (updating (smpEnv 12 9))) ∧
    told 7 (sent (run smpInit (smp.take 1)) ([[(2, 9)], [(4, 3), (1, 0)]].map (updating (smpEnv 12 9)))) =
      [⟨2, 7, 9⟩, ⟨4, 0, 3⟩, ⟨1, 5, 0⟩] :=
  ⟨smp_reachable 1, by decide +kernel, ⟨⟨rfl, _, rfl⟩, ⟨rfl, _, rfl⟩, trivial⟩, by decide +kernel⟩

end Verif.Multisig
