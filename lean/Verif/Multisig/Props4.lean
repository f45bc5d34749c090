import Verif.Multisig.Props3
import Verif.Staking.Props6

/-!
# Multisig membership: the date does not matter (C170)
-/

set_option linter.unusedSimpArgs false

namespace Verif.Multisig
open Verif
open Verif.Staking (At yearLater)

/-! ## Specification -/

/-- A call made later. -/
def Call.fwd (d : Forward) (c : Call) : Call := ⟨c.env.fwd d, c.msg, c.delivered⟩

/-! ## The state moved forward -/

theorem fwd_initOne (d : Forward) (x : Members × Nat) (p : Addr × Nat) :
    initOne (x.1.fwd d, x.2) p = (initOne x p).map (fun y => (y.1.fwd d, y.2)) := by
  unfold initOne
  dsimp only
  rw [show (x.1.fwd d).weight p.1 = x.1.weight p.1 from rfl]
  cases csub x.2 (x.1.weight p.1) with
  | error e => rfl
  | ok t =>
    show (do let t ← cadd128 t p.2; _) = Except.map _ (do let t ← cadd128 t p.2; _)
    cases cadd128 t p.2 <;> rfl

theorem fwd_initL (d : Forward) : ∀ (l : List (Addr × Nat)) (x : Members × Nat),
    l.foldlM initOne (x.1.fwd d, x.2) = (l.foldlM initOne x).map (fun y => (y.1.fwd d, y.2))
  | [], _ => rfl
  | p :: t, x => by
    rw [List.foldlM_cons, List.foldlM_cons, fwd_initOne]
    cases initOne x p with
    | error e => rfl
    | ok x1 => exact fwd_initL d t x1

theorem fwd_init {d : Forward} (hd : d.Whole) (b : Block) (w : Option (List (Addr × Nat))) (hooks : List Addr)
    (bh bs : List (Nat × Nat)) :
    init (b.fwd d) w hooks (cpFwd d.blocks bh) (cpFwd (d.nanos / 10 ^ 9) bs) =
      (init b w hooks bh bs).map (Members.fwd d) := by
  have h0 : (Members.empty.saveCheckpoints bh bs).fwd d =
      Members.empty.saveCheckpoints (cpFwd d.blocks bh) (cpFwd (d.nanos / 10 ^ 9) bs) := by
    rw [Members.fwd_checkpoints]
    rfl
  unfold init
  dsimp only
  rw [← h0]
  cases w with
  | none =>
    refine congrArg Except.ok ?_
    rw [Members.fwd_saveTotal hd]
    rfl
  | some l =>
    show (do let m ← saveInitial ((Members.empty.saveCheckpoints bh bs).fwd d) (b.fwd d) l; _) =
      Except.map _ (do let m ← saveInitial (Members.empty.saveCheckpoints bh bs) b l; _)
    unfold saveInitial
    cases dedup l with
    | error e => rfl
    | ok dl =>
      have h := fwd_initL d dl (Members.empty.saveCheckpoints bh bs, 0)
      show (do let m ← (do let r ← dl.foldlM initOne ((Members.empty.saveCheckpoints bh bs).fwd d, 0); _); _) =
        Except.map _ (do let m ← (do let r ← dl.foldlM initOne _; _); _)
      rw [h]
      cases dl.foldlM initOne (Members.empty.saveCheckpoints bh bs, 0) with
      | error e => rfl
      | ok r =>
        refine congrArg Except.ok ?_
        show ((r.1.fwd d).saveTotal r.2 (b.fwd d)).saveHooks hooks = _
        rw [Members.fwd_saveTotal hd]
        rfl

/-- Accumulator of the loops. -/
def accFwd (d : Forward) (x : Members × Nat × List WeightChange) : Members × Nat × List WeightChange :=
  (x.1.fwd d, x.2.1, x.2.2)

theorem fwd_updateOne (d : Forward) (x : Members × Nat × List WeightChange) (p : Addr × Nat) :
    updateOne (accFwd d x) p = (updateOne x p).map (accFwd d) := by
  unfold updateOne
  show (do let t ← csub x.2.1 (x.1.weight p.1); _) = _
  cases csub x.2.1 (x.1.weight p.1) with
  | error e => rfl
  | ok t =>
    show (do let t ← cadd128 t p.2; _) = Except.map (accFwd d) (do let t ← cadd128 t p.2; _)
    cases cadd128 t p.2 <;> rfl

theorem fwd_updateL (d : Forward) : ∀ (l : List (Addr × Nat)) (x : Members × Nat × List WeightChange),
    l.foldlM updateOne (accFwd d x) = (l.foldlM updateOne x).map (accFwd d)
  | [], _ => rfl
  | p :: t, x => by
    rw [List.foldlM_cons, List.foldlM_cons, fwd_updateOne]
    cases updateOne x p with
    | error e => rfl
    | ok x1 => exact fwd_updateL d t x1

theorem fwd_setOne (d : Forward) (old : Map Addr Nat) (x : Members × Nat × List WeightChange) (p : Addr × Nat) :
    setOne old (accFwd d x) p = (setOne old x p).map (accFwd d) := by
  unfold setOne
  show (do let t ← cadd128 x.2.1 p.2; _) = Except.map (accFwd d) (do let t ← cadd128 x.2.1 p.2; _)
  cases cadd128 x.2.1 p.2 <;> rfl

theorem fwd_setL (d : Forward) (old : Map Addr Nat) : ∀ (l : List (Addr × Nat)) (x : Members × Nat × List WeightChange),
    l.foldlM (setOne old) (accFwd d x) = (l.foldlM (setOne old) x).map (accFwd d)
  | [], _ => rfl
  | p :: t, x => by
    rw [List.foldlM_cons, List.foldlM_cons, fwd_setOne]
    cases setOne old x p with
    | error e => rfl
    | ok x1 => exact fwd_setL d old t x1

/-- A result moved forward. -/
def resFwd (d : Forward) (r : Members × List Out) : Members × List Out := (r.1.fwd d, r.2)

theorem fwd_finish {d : Forward} (hd : d.Whole) (r : Members × Nat × List WeightChange) (b : Block) :
    ((accFwd d r).1.saveTotal (accFwd d r).2.1 (b.fwd d),
      ((accFwd d r).1.saveTotal (accFwd d r).2.1 (b.fwd d)).report (accFwd d r).2.2) =
      resFwd d (r.1.saveTotal r.2.1 b, (r.1.saveTotal r.2.1 b).report r.2.2) :=
  Prod.ext (Members.fwd_saveTotal hd r.1 r.2.1 b) rfl

theorem fwd_exec {d : Forward} (hd : d.Whole) (s : Members) (e : Env) (m : Msg) :
    exec (s.fwd d) (e.fwd d) m = (exec s e m).map (resFwd d) := by
  cases m with
  | updateMembers l =>
    show updateMembers (s.fwd d) (e.fwd d) l = (updateMembers s e l).map (resFwd d)
    unfold updateMembers
    rw [show (e.fwd d).sender = e.sender from rfl, show (e.fwd d).controller = e.controller from rfl]
    split
    · rfl
    cases dedup l with
    | error x => rfl
    | ok dl =>
      show (do let r ← dl.foldlM updateOne (accFwd d (s, s.total, [])); _) =
        Except.map (resFwd d) (do let r ← dl.foldlM updateOne (s, s.total, []); _)
      rw [fwd_updateL]
      cases dl.foldlM updateOne (s, s.total, []) with
      | error x => rfl
      | ok r => exact congrArg Except.ok (fwd_finish hd r e.block)
  | setMembers l =>
    show setMembers (s.fwd d) (e.fwd d) l = (setMembers s e l).map (resFwd d)
    unfold setMembers
    rw [show (e.fwd d).sender = e.sender from rfl, show (e.fwd d).controller = e.controller from rfl]
    split
    · rfl
    dsimp only
    cases dedup l with
    | error x => rfl
    | ok dl =>
      let x0 : Members × Nat × List WeightChange := ({ s with weights := Map.empty }, 0, [])
      show (do let r ← dl.foldlM (setOne s.weights) (accFwd d x0); _) =
        Except.map (resFwd d) (do let r ← dl.foldlM (setOne s.weights) x0; _)
      rw [fwd_setL]
      cases dl.foldlM (setOne s.weights) x0 with
      | error x => rfl
      | ok r => exact congrArg Except.ok (fwd_finish hd r e.block)
  | addHook h =>
    show (do let m ← (s.fwd d).addHook (e.fwd d) h; _) = Except.map _ (do let m ← s.addHook e h; _)
    rw [Members.fwd_addHook]
    cases s.addHook e h <;> rfl
  | removeHook h =>
    show (do let m ← (s.fwd d).removeHook (e.fwd d) h; _) = Except.map _ (do let m ← s.removeHook e h; _)
    rw [Members.fwd_removeHook]
    cases s.removeHook e h <;> rfl

theorem fwd_step {d : Forward} (hd : d.Whole) (s : Members) (c : Call) :
    step (s.fwd d) (c.fwd d) = resFwd d (step s c) := by
  unfold step
  show (match exec (s.fwd d) (c.env.fwd d) c.msg with | .ok r => if c.delivered then r else _ | .error _ => _) = _
  rw [fwd_exec hd s c.env c.msg]
  cases exec s c.env c.msg with
  | error e => rfl
  | ok r =>
    show (if c.delivered then resFwd d r else (s.fwd d, [])) = resFwd d (if c.delivered then r else (s, []))
    split <;> rfl

theorem fwd_run {d : Forward} (hd : d.Whole) : ∀ (h : List Call) (s : Members),
    run (s.fwd d) (h.map (Call.fwd d)) = (run s h).fwd d ∧ sent (s.fwd d) (h.map (Call.fwd d)) = sent s h
  | [], _ => ⟨rfl, rfl⟩
  | c :: t, s => by
    have ih := fwd_run hd t (step s c).1
    have h1 := fwd_step hd s c
    rw [List.map_cons]
    show run (step (s.fwd d) (c.fwd d)).1 _ = _ ∧
      (step (s.fwd d) (c.fwd d)).2 ++ sent (step (s.fwd d) (c.fwd d)).1 _ = (step s c).2 ++ _
    rw [h1]
    exact ⟨ih.1, congrArg _ ih.2⟩

/-! ## C170 -/

/-- Multisig membership: a history that takes place later, by any number of blocks and whole seconds, goes as it did.
Every message is answered as before, with the same error if it is refused; the same changes are reported; weights are the
same, and total weights are the same at the moments moved forward. -/
theorem C170_multisig {d : Forward} (hd : d.Whole) (b : Block) (w : Option (List (Addr × Nat))) (hooks : List Addr)
    (bh bs : List (Nat × Nat)) :
    (∀ e, init (b.fwd d) w hooks (cpFwd d.blocks bh) (cpFwd (d.nanos / 10 ^ 9) bs) = .error e ↔
      init b w hooks bh bs = .error e) ∧
    ∀ s0, init b w hooks bh bs = .ok s0 →
      ∃ s0', init (b.fwd d) w hooks (cpFwd d.blocks bh) (cpFwd (d.nanos / 10 ^ 9) bs) = .ok s0' ∧
      ∀ h : List Call,
      let s := run s0 h
      let s' := run s0' (h.map (Call.fwd d))
      (∀ u, queryWeight s' u = queryWeight s u) ∧
      (∀ t, queryTotal s' (t.fwd d) = queryTotal s t) ∧
      sent s0' (h.map (Call.fwd d)) = sent s0 h ∧
      ∀ c : Call, (exec s' (c.fwd d).env c.msg).toBool = (exec s c.env c.msg).toBool ∧
        ∀ e, exec s' (c.fwd d).env c.msg = .error e ↔ exec s c.env c.msg = .error e := by
  rw [fwd_init hd]
  refine ⟨fun e => ?_, fun s0 h0 => ⟨s0.fwd d, by rw [h0]; rfl, fun h => ?_⟩⟩
  · cases init b w hooks bh bs <;> simp [Except.map]
  intro s s'
  obtain ⟨hs, ho⟩ := fwd_run hd h s0
  have hs' : s' = s.fwd d := hs
  rw [hs']
  refine ⟨fun u => rfl, fun t => ?_, ho, fun c => ?_⟩
  · cases t with
    | height x => exact Members.fwd_totalAtHeight d s x
    | time x => exact Members.fwd_totalAtTime hd s x
    | never => rfl
  · rw [show (c.fwd d).env = c.env.fwd d from rfl, fwd_exec hd s c.env c.msg]
    cases exec s c.env c.msg with
    | ok t => simp [Except.map, Except.toBool]
    | error e => simp [Except.map, Except.toBool]

/-- The sample a year later. -/
example : yearLater.Whole ∧
    (init (Block.fwd yearLater ⟨10, 10 * 10 ^ 9⟩) (some [(1, 5), (2, 6)]) [7, 8] [] []).toOption.map
      (fun s => (queryTotal (run s (smp.map (Call.fwd yearLater))) (.height (12 + 5256000)),
        queryTotal (run s (smp.map (Call.fwd yearLater))) (.time ((13 + 31536000) * 10 ^ 9)))) = some (13, 13) ∧
    queryTotal (run smpInit smp) (.height 12) = 13 ∧ queryTotal (run smpInit smp) (.time (13 * 10 ^ 9)) = 13 :=
  ⟨⟨31536000, by decide +kernel⟩, by decide +kernel, by decide +kernel, by decide +kernel⟩

end Verif.Multisig
