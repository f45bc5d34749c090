import Verif.Many.Lemmas
import Verif.Dao.Sample

/-!
# Running several DAOs, for the example of C174
-/

namespace Verif.Many
open Verif
open Verif.Dao (Cfg World Item Entry Msg Ext Genesis handle)

variable {ι : Type} [DecidableEq ι]

/-- Messages that other contracts send to the contracts of DAOs. -/
abbrev Answers (ι : Type) := List (List (ι × Addr × Msg))

/-- The queue of such messages. -/
def items (l : List (ι × Addr × Msg)) : List (ι × Item) := l.map (fun x => (x.1, .call x.2.1 x.2.2))

/-- Run a queue. The answers say what the other contracts do, one list for every message that they get. -/
def sim (cs : ι → Cfg) (e : Ext) : Nat → Daos ι → Answers ι → List (ι × Item) →
    Option (Daos ι × List (ι × Entry) × Answers ι)
  | 0, _, _, _ => none
  | _ + 1, W, p, [] => some (W, [], p)
  | n + 1, W, p, (d, .call a m) :: rest => do
    let w ← W d
    if w.gov.pollCount + 1 < 2 ^ 64 then do
      let r ← (handle (cs d) e w a m).toOption
      let x ← sim cs e n (W.set d r.1) p (r.2.map (d, ·))
      let y ← sim cs e n x.1 x.2.2 rest
      return (y.1, (d, ⟨w, e, a, m⟩) :: (x.2.1 ++ y.2.1), y.2.2)
    else none
  | n + 1, W, p, (d, .actions id) :: rest => do
    let w ← W d
    if w.gov.pollCount + 1 < 2 ^ 64 then do
      let r ← (handle (cs d) e w (cs d).self (.ctl (.executeActions id))).toOption
      let x ← sim cs e n (W.set d r.1) p (r.2.map (d, ·))
      let y ← sim cs e n x.1 x.2.2 rest
      return (y.1, (d, ⟨w, e, (cs d).self, .ctl (.executeActions id)⟩) :: (x.2.1 ++ y.2.1), y.2.2)
    else none
  | n + 1, W, p, (d, .deposit id t) :: rest => do
    let w ← W d
    sim cs e n (W.set d { w with log := w.log ++ [.paid id t] }) p rest
  | n + 1, W, p, (_, .other) :: rest =>
    match p with
    | [] => sim cs e n W [] rest
    | l :: p =>
      if ∀ x ∈ l, (cs x.1).outsider x.2.1 then do
        let x ← sim cs e n W p (items l)
        let y ← sim cs e n x.1 x.2.2 rest
        return (y.1, x.2.1 ++ y.2.1, y.2.2)
      else none

theorem toOption_some {α : Type} {x : Except Err α} {a : α} (h : x.toOption = some a) : x = .ok a := by
  cases x with
  | error e => cases h
  | ok b => cases h; rfl

theorem sim_run {cs : ι → Cfg} {e : Ext} : ∀ (n : Nat) {W : Daos ι} {p : Answers ι} {L : List (ι × Item)}
    {r : Daos ι × List (ι × Entry) × Answers ι}, sim cs e n W p L = some r → Run cs W L r.1 r.2.1
  | 0, _, _, _, _, h => by cases h
  | n + 1, W, p, [], r, h => by
    cases h
    exact .nil W
  | n + 1, W, p, (d, .call a m) :: rest, r, h => by
    simp only [sim, Option.bind_eq_bind, Option.bind_eq_some_iff] at h
    obtain ⟨w, hw, h⟩ := h
    split at h
    · rename_i room
      simp only [Option.bind_eq_some_iff] at h
      obtain ⟨q, hq, x, hx, y, hy, h⟩ := h
      cases h
      exact .call e hw room (toOption_some hq) (sim_run n hx) (sim_run n hy)
    · cases h
  | n + 1, W, p, (d, .actions id) :: rest, r, h => by
    simp only [sim, Option.bind_eq_bind, Option.bind_eq_some_iff] at h
    obtain ⟨w, hw, h⟩ := h
    split at h
    · rename_i room
      simp only [Option.bind_eq_some_iff] at h
      obtain ⟨q, hq, x, hx, y, hy, h⟩ := h
      cases h
      exact .actions e hw room (toOption_some hq) (sim_run n hx) (sim_run n hy)
    · cases h
  | n + 1, W, p, (d, .deposit id t) :: rest, r, h => by
    simp only [sim, Option.bind_eq_bind, Option.bind_eq_some_iff] at h
    obtain ⟨w, hw, h⟩ := h
    exact .deposit (t1 := []) hw (fun x hx => absurd hx List.not_mem_nil) (.nil _) (sim_run n h)
  | n + 1, W, p, (d, .other) :: rest, r, h => by
    cases p with
    | nil =>
      simp only [sim] at h
      exact .other (t1 := []) (fun x hx => absurd hx List.not_mem_nil) (.nil _) (sim_run n h)
    | cons l p =>
      simp only [sim] at h
      split at h
      · rename_i hl
        simp only [Option.bind_eq_bind, Option.bind_eq_some_iff] at h
        obtain ⟨x, hx, y, hy, h⟩ := h
        cases h
        refine .other (fun z hz => ?_) (sim_run n hx) (sim_run n hy)
        obtain ⟨q, hq, rfl⟩ := List.mem_map.1 hz
        exact ⟨q.2.1, q.2.2, rfl, hl q hq⟩
      · cases h

/-- A step of an example with two DAOs. -/
inductive Step
  /-- a transaction, and what other contracts do -/
  | tx (d : Bool) (a : Addr) (m : Msg) (p : Answers Bool)
  | block (b : Block)

/-- Run one step. -/
def Step.run (cs : Bool → Cfg) (e : Ext) (W : Daos Bool) : Step → Option (Daos Bool × List (Bool × Entry))
  | .tx d a m p =>
    if (cs d).outsider a then (sim cs e 60 W p [(d, .call a m)]).map (fun r => (r.1, r.2.1)) else none
  | .block b =>
    if ∀ k : Bool, (W k).all (fun v => decide (v.block.height ≤ b.height ∧ v.block.time ≤ b.time)) = true then
      some (fun k => (W k).map (fun v => { v with block := b }), [])
    else none

/-- Run all steps. -/
def runSteps (cs : Bool → Cfg) (e : Ext) (W : Daos Bool) : List Step → Option (Daos Bool × List (Bool × Entry))
  | [] => some (W, [])
  | s :: l =>
    match s.run cs e W with
    | none => none
    | some (W1, t1) => (runSteps cs e W1 l).map (fun r => (r.1, t1 ++ r.2))

theorem runSteps_story {cs : Bool → Cfg} {e : Ext} : ∀ (l : List Step) {W W' : Daos Bool} {T t : List (Bool × Entry)},
    Story cs W T → runSteps cs e W l = some (W', t) → Story cs W' (T ++ t) := by
  intro l
  induction l with
  | nil => intro W W' T t h hr; cases hr; rw [List.append_nil]; exact h
  | cons s l ih =>
    intro W W' T t h hr
    simp only [runSteps] at hr
    cases hs : s.run cs e W with
    | none => rw [hs] at hr; cases hr
    | some q =>
      obtain ⟨W1, t1⟩ := q
      rw [hs] at hr
      obtain ⟨r, h1, h2⟩ := Option.map_eq_some_iff.1 hr
      cases h2
      have hstep : Story cs W1 (T ++ t1) := by
        cases s with
        | tx d a m p =>
          simp only [Step.run] at hs
          split at hs
          · rename_i ha
            obtain ⟨r, h3, h4⟩ := Option.map_eq_some_iff.1 hs
            cases h4
            exact .tx h ha (sim_run _ h3)
          · cases hs
        | block b =>
          simp only [Step.run] at hs
          split at hs
          · rename_i hb
            cases hs
            rw [List.append_nil]
            refine .block h fun k v hv => ?_
            have := hb k
            rw [hv] at this
            simpa using this
          · cases hs
      have := ih hstep h1
      rwa [List.append_assoc] at this

/-- A second DAO, with other contracts. The first DAO, whose controller is 1, stakes in it. -/
def secondCfg : Cfg :=
  { self := 101, creator := 2, enterprise := 103, comps := ⟨104, 105, 106, 107, 108, 109⟩, decode := fun _ => none }

/-- The second DAO when it is new. -/
def secondGenesis : World :=
  { Dao.sampleGenesis with
    ctl := { Dao.sampleCtl with enterprise := 103 }
    gov := Gov.init 101
    dist := (Distributor.init 101 none []).toOption.getD
      ⟨0, 0, Map.empty, Map.empty, 0, Distributor.Ledger.empty, Distributor.Ledger.empty⟩
    mem := .staking .denom (Staking.init ⟨1, 10 ^ 9⟩ 20 (.time 1000) [101] [] [])
    council := (Multisig.init ⟨1, 10 ^ 9⟩ (some [(40, 1), (41, 1), (42, 1)]) [101] [] []).toOption.getD Members.empty }

theorem second_genesis : Genesis secondCfg secondGenesis :=
  ⟨⟨Dao.sampleConfig, some ⟨[40, 41, 42], ONE / 2, ONE / 2, some [.upgradeDao, .updateMetadata]⟩, [], by decide +kernel⟩, rfl,
    ⟨none, [], by decide +kernel⟩, ⟨20, .time 1000, rfl⟩, ⟨[(40, 1), (41, 1), (42, 1)], by decide +kernel⟩, rfl⟩

/-- The two DAOs. -/
def twoCfg (d : Bool) : Cfg := if d then Dao.sampleCfg else secondCfg

/-- Both DAOs when they are new. -/
def twoNew : Daos Bool := Daos.set (Daos.set (fun _ => none) true Dao.sampleGenesis) false secondGenesis

theorem two_story : Story twoCfg twoNew [] := by
  refine .birth (.birth .start rfl Dao.sample_genesis fun k v h => by cases h) rfl second_genesis fun k v h => ?_
  cases k with
  | false => cases h
  | true => cases h; rfl

end Verif.Many
