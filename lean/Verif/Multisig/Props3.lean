import Verif.Membership.Rename
import Verif.Multisig.Props2

/-!
# Multisig membership: all members are treated alike (C168)
-/

set_option linter.unusedSimpArgs false

namespace Verif.Multisig
open Verif
open Verif.Staking (At)

/-! ## Specification -/

/-- Members and weights, with other names for the members. -/
def listRen (π : Renaming) (l : List (Addr × Nat)) : List (Addr × Nat) := l.map (fun p => (π p.1, p.2))

/-- A message with other names for the members; the hook contracts keep theirs. -/
def Msg.ren (π : Renaming) : Msg → Msg
  | .updateMembers l => .updateMembers (listRen π l)
  | .setMembers l => .setMembers (listRen π l)
  | .addHook h => .addHook h
  | .removeHook h => .removeHook h

/-- A call with other names for the members. -/
def Call.ren (π : Renaming) (c : Call) : Call := ⟨c.env.ren π, c.msg.ren π, c.delivered⟩

/-- Sub-messages sent during a history. -/
def sent (s : Members) : List Call → List Out
  | [] => []
  | c :: t => (step s c).2 ++ sent (step s c).1 t

/-! ## The renamed state -/

theorem ren_uniqueBy (π : Renaming) : ∀ (l : List (Addr × Nat)) (seen : List Addr),
    uniqueBy (seen.map π) (listRen π l) = listRen π (uniqueBy seen l)
  | [], _ => rfl
  | p :: t, seen => by
    show (if π p.1 ∈ seen.map π then uniqueBy (seen.map π) (listRen π t) else _) = listRen π (if p.1 ∈ seen then _ else _)
    have hm : π p.1 ∈ seen.map π ↔ p.1 ∈ seen := by simp
    simp only [hm]
    split
    · exact ren_uniqueBy π t seen
    · exact congrArg (List.cons _) (ren_uniqueBy π t (p.1 :: seen))

theorem ren_dedup (π : Renaming) (l : List (Addr × Nat)) : dedup (listRen π l) = (dedup l).map (listRen π) := by
  unfold dedup
  have h := ren_uniqueBy π l []
  rw [show ([] : List Addr).map π = [] from rfl] at h
  rw [h]
  have h1 : (listRen π (uniqueBy [] l)).length = (uniqueBy [] l).length := List.length_map _
  have h2 : (listRen π l).length = l.length := List.length_map _
  rw [h1, h2]
  split <;> rfl

theorem ren_initOne (π : Renaming) (x : Members × Nat) (p : Addr × Nat) :
    initOne (x.1.ren π, x.2) (π p.1, p.2) = (initOne x p).map (fun y => (y.1.ren π, y.2)) := by
  unfold initOne
  dsimp only
  rw [Members.ren_weight]
  cases csub x.2 (x.1.weight p.1) with
  | error e => rfl
  | ok t =>
    show (do let t ← cadd128 t p.2; _) = Except.map _ (do let t ← cadd128 t p.2; _)
    cases cadd128 t p.2 with
    | error e => rfl
    | ok t' => exact congrArg (fun m => Except.ok (m, t')) (Members.ren_setWeight π x.1 p.1 p.2).symm

theorem ren_initL (π : Renaming) : ∀ (l : List (Addr × Nat)) (x : Members × Nat),
    (listRen π l).foldlM initOne (x.1.ren π, x.2) = (l.foldlM initOne x).map (fun y => (y.1.ren π, y.2))
  | [], _ => rfl
  | p :: t, x => by
    show ((π p.1, p.2) :: listRen π t).foldlM _ _ = _
    rw [List.foldlM_cons, List.foldlM_cons, ren_initOne]
    cases initOne x p with
    | error e => rfl
    | ok x1 => exact ren_initL π t x1

theorem ren_init (π : Renaming) (b : Block) (w : Option (List (Addr × Nat))) (hooks : List Addr) (bh bs : List (Nat × Nat)) :
    init b (w.map (listRen π)) hooks bh bs = (init b w hooks bh bs).map (Members.ren π) := by
  unfold init
  cases w with
  | none => rfl
  | some l =>
    show (do let m ← saveInitial (Members.empty.saveCheckpoints bh bs) b (listRen π l); _) =
      Except.map _ (do let m ← saveInitial (Members.empty.saveCheckpoints bh bs) b l; _)
    unfold saveInitial
    rw [ren_dedup]
    cases dedup l with
    | error e => rfl
    | ok d =>
      have h := ren_initL π d (Members.empty.saveCheckpoints bh bs, 0)
      rw [show ((Members.empty.saveCheckpoints bh bs).ren π) = Members.empty.saveCheckpoints bh bs from rfl] at h
      show (do let m ← (do let r ← (listRen π d).foldlM initOne _; _); _) =
        Except.map _ (do let m ← (do let r ← d.foldlM initOne _; _); _)
      rw [h]
      cases d.foldlM initOne (Members.empty.saveCheckpoints bh bs, 0) <;> rfl

/-- Accumulator of the loops. -/
def accRen (π : Renaming) (x : Members × Nat × List WeightChange) : Members × Nat × List WeightChange :=
  (x.1.ren π, x.2.1, x.2.2.map (WeightChange.ren π))

theorem ren_updateOne (π : Renaming) (x : Members × Nat × List WeightChange) (p : Addr × Nat) :
    updateOne (accRen π x) (π p.1, p.2) = (updateOne x p).map (accRen π) := by
  unfold updateOne
  show (do let t ← csub x.2.1 ((x.1.ren π).weight (π p.1)); _) = _
  rw [Members.ren_weight]
  cases csub x.2.1 (x.1.weight p.1) with
  | error e => rfl
  | ok t =>
    show (do let t ← cadd128 t p.2; _) = Except.map (accRen π) (do let t ← cadd128 t p.2; _)
    cases cadd128 t p.2 with
    | error e => rfl
    | ok t' =>
      refine congrArg Except.ok ?_
      unfold accRen
      dsimp only
      rw [Members.ren_setWeight, List.map_append, Members.ren_weight]
      rfl

theorem ren_updateL (π : Renaming) : ∀ (l : List (Addr × Nat)) (x : Members × Nat × List WeightChange),
    (listRen π l).foldlM updateOne (accRen π x) = (l.foldlM updateOne x).map (accRen π)
  | [], _ => rfl
  | p :: t, x => by
    show ((π p.1, p.2) :: listRen π t).foldlM _ _ = _
    rw [List.foldlM_cons, List.foldlM_cons, ren_updateOne]
    cases updateOne x p with
    | error e => rfl
    | ok x1 => exact ren_updateL π t x1

theorem ren_setOne (π : Renaming) (old : Map Addr Nat) (x : Members × Nat × List WeightChange) (p : Addr × Nat) :
    setOne (old.rename π id) (accRen π x) (π p.1, p.2) = (setOne old x p).map (accRen π) := by
  unfold setOne
  show (do let t ← cadd128 x.2.1 p.2; _) = Except.map (accRen π) (do let t ← cadd128 x.2.1 p.2; _)
  cases cadd128 x.2.1 p.2 with
  | error e => rfl
  | ok t' =>
    refine congrArg Except.ok ?_
    unfold accRen
    dsimp only
    rw [Members.ren_setWeight, List.map_append, Map.get_rename, Option.map_id]
    rfl

theorem ren_setL (π : Renaming) (old : Map Addr Nat) : ∀ (l : List (Addr × Nat)) (x : Members × Nat × List WeightChange),
    (listRen π l).foldlM (setOne (old.rename π id)) (accRen π x) = (l.foldlM (setOne old) x).map (accRen π)
  | [], _ => rfl
  | p :: t, x => by
    show ((π p.1, p.2) :: listRen π t).foldlM _ _ = _
    rw [List.foldlM_cons, List.foldlM_cons, ren_setOne]
    cases setOne old x p with
    | error e => rfl
    | ok x1 => exact ren_setL π old t x1

/-- A result with other names for the members. -/
def resRen (π : Renaming) (r : Members × List Out) : Members × List Out := (r.1.ren π, r.2.map (Out.ren π))

theorem ren_finish (π : Renaming) (r : Members × Nat × List WeightChange) (b : Block) :
    ((accRen π r).1.saveTotal (accRen π r).2.1 b, ((accRen π r).1.saveTotal (accRen π r).2.1 b).report (accRen π r).2.2) =
      resRen π (r.1.saveTotal r.2.1 b, (r.1.saveTotal r.2.1 b).report r.2.2) :=
  Prod.ext rfl (Members.ren_report π (r.1.saveTotal r.2.1 b) r.2.2)

theorem ren_exec (π : Renaming) (s : Members) (e : Env) (m : Msg) :
    exec (s.ren π) (e.ren π) (m.ren π) = (exec s e m).map (resRen π) := by
  cases m with
  | updateMembers l =>
    show updateMembers (s.ren π) (e.ren π) (listRen π l) = (updateMembers s e l).map (resRen π)
    unfold updateMembers
    show (if π e.sender ≠ π e.controller then _ else _) = _
    by_cases h : e.sender = e.controller
    · rw [if_neg (by simp [h]), if_neg (by simp [h]), ren_dedup]
      cases dedup l with
      | error x => rfl
      | ok d =>
        show (do let r ← (listRen π d).foldlM updateOne (accRen π (s, s.total, [])); _) =
          Except.map (resRen π) (do let r ← d.foldlM updateOne (s, s.total, []); _)
        rw [ren_updateL]
        cases d.foldlM updateOne (s, s.total, []) with
        | error x => rfl
        | ok r => exact congrArg Except.ok (ren_finish π r e.block)
    · rw [if_pos (by simpa using h), if_pos h]
      rfl
  | setMembers l =>
    show setMembers (s.ren π) (e.ren π) (listRen π l) = (setMembers s e l).map (resRen π)
    unfold setMembers
    show (if π e.sender ≠ π e.controller then _ else _) = _
    by_cases h : e.sender = e.controller
    · rw [if_neg (by simp [h]), if_neg (by simp [h]), ren_dedup]
      dsimp only
      cases dedup l with
      | error x => rfl
      | ok d =>
        let x0 : Members × Nat × List WeightChange := ({ s with weights := Map.empty }, 0, [])
        show (do let r ← (listRen π d).foldlM (setOne (s.weights.rename π id)) (accRen π x0); _) =
          Except.map (resRen π) (do let r ← d.foldlM (setOne s.weights) x0; _)
        rw [ren_setL]
        cases d.foldlM (setOne s.weights) x0 with
        | error x => rfl
        | ok r => exact congrArg Except.ok (ren_finish π r e.block)
    · rw [if_pos (by simpa using h), if_pos h]
      rfl
  | addHook h =>
    show (do let m ← (s.ren π).addHook (e.ren π) h; _) = Except.map _ (do let m ← s.addHook e h; _)
    rw [Members.ren_addHook]
    cases s.addHook e h <;> rfl
  | removeHook h =>
    show (do let m ← (s.ren π).removeHook (e.ren π) h; _) = Except.map _ (do let m ← s.removeHook e h; _)
    rw [Members.ren_removeHook]
    cases s.removeHook e h <;> rfl

theorem ren_step (π : Renaming) (s : Members) (c : Call) : step (s.ren π) (c.ren π) = resRen π (step s c) := by
  unfold step
  show (match exec (s.ren π) (c.env.ren π) (c.msg.ren π) with | .ok r => if c.delivered then r else _ | .error _ => _) = _
  rw [ren_exec π s c.env c.msg]
  cases exec s c.env c.msg with
  | error e => rfl
  | ok r =>
    show (if c.delivered then resRen π r else (s.ren π, [])) = resRen π (if c.delivered then r else (s, []))
    split <;> rfl

theorem ren_run (π : Renaming) : ∀ (h : List Call) (s : Members),
    run (s.ren π) (h.map (Call.ren π)) = (run s h).ren π ∧
    sent (s.ren π) (h.map (Call.ren π)) = (sent s h).map (Out.ren π)
  | [], _ => ⟨rfl, rfl⟩
  | c :: t, s => by
    have ih := ren_run π t (step s c).1
    have h1 := ren_step π s c
    rw [List.map_cons]
    show run (step (s.ren π) (c.ren π)).1 _ = _ ∧
      (step (s.ren π) (c.ren π)).2 ++ sent (step (s.ren π) (c.ren π)).1 _ = ((step s c).2 ++ _).map (Out.ren π)
    rw [h1, List.map_append]
    exact ⟨ih.1, congrArg _ ih.2⟩

/-! ## C168 -/

/-- Multisig membership: if all the members get other names, in the initial list and in all the messages, then every
message is answered as before, with the same error if it is refused; everyone has under the new name the weight there was
under the old one, the total weights are the same, and the same changes were reported, with the new names. -/
theorem C168_multisig (π : Renaming) (b : Block) (w : Option (List (Addr × Nat))) (hooks : List Addr)
    (bh bs : List (Nat × Nat)) :
    (∀ e, init b (w.map (listRen π)) hooks bh bs = .error e ↔ init b w hooks bh bs = .error e) ∧
    ∀ s0, init b w hooks bh bs = .ok s0 → ∃ s0', init b (w.map (listRen π)) hooks bh bs = .ok s0' ∧
      ∀ h : List Call,
      let s := run s0 h
      let s' := run s0' (h.map (Call.ren π))
      (∀ u, queryWeight s' (π u) = queryWeight s u) ∧
      (∀ t, queryTotal s' t = queryTotal s t) ∧
      sent s0' (h.map (Call.ren π)) = (sent s0 h).map (Out.ren π) ∧
      ∀ c : Call, (exec s' (c.env.ren π) (c.msg.ren π)).toBool = (exec s c.env c.msg).toBool ∧
        ∀ e, exec s' (c.env.ren π) (c.msg.ren π) = .error e ↔ exec s c.env c.msg = .error e := by
  rw [ren_init]
  refine ⟨fun e => ?_, fun s0 h0 => ⟨s0.ren π, by rw [h0]; rfl, fun h => ?_⟩⟩
  · cases init b w hooks bh bs <;> simp [Except.map]
  intro s s'
  obtain ⟨hs, ho⟩ := ren_run π h s0
  have hs' : s' = s.ren π := hs
  rw [hs']
  refine ⟨fun u => Members.ren_weight π s u, fun t => ?_, ho, fun c => ?_⟩
  · cases t <;> rfl
  · rw [ren_exec π s c.env c.msg]
    cases exec s c.env c.msg with
    | ok t => simp [Except.map, Except.toBool]
    | error e => simp [Except.map, Except.toBool]

/-- The sample with members 1 and 3 exchanged. -/
example : (init ⟨10, 10 * 10 ^ 9⟩ (some [(3, 5), (2, 6)]) [7, 8] [] []).toOption.map
      (fun s => (queryWeight (run s ((smp.take 1).map (Call.ren (swap2 1 3)))) 1,
        queryWeight (run s ((smp.take 1).map (Call.ren (swap2 1 3)))) 3)) = some (1, 5) ∧
    queryWeight (run smpInit (smp.take 1)) 3 = 1 ∧ queryWeight (run smpInit (smp.take 1)) 1 = 5 := by decide +kernel

end Verif.Multisig
