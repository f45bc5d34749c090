import Verif.Dao.Trace

/-!
# Many DAOs on one chain

Any number of DAOs, each with its own contracts as in `Dao/Model`. The contracts of one DAO are, to another DAO, addresses like
any other: a DAO can be a member of another DAO, and custom messages of a proposal of one DAO can go to the contracts of
another. Nothing here is code of the repository; `Run` is the depth-first execution of messages of the chain, as in
`Dao.Exec`, with the messages going to the contracts of all the DAOs.
-/

namespace Verif.Many
open Verif
open Verif.Dao (Cfg World Item Entry Msg Ext Genesis handle)
open Verif.Controller (Transfer)

variable {ι : Type} [DecidableEq ι]

/-- The DAOs that exist, with their states. -/
abbrev Daos (ι : Type) := ι → Option World

/-- One DAO has a new state. -/
def Daos.set (W : Daos ι) (d : ι) (w : World) : Daos ι := fun k => if k = d then some w else W k

/-- Messages to the contracts of DAOs, each from an address that is none of the voting contracts of the DAO it goes to. -/
def Foreign (cs : ι → Cfg) (l : List (ι × Item)) : Prop := ∀ x ∈ l, ∃ a m, x.2 = .call a m ∧ (cs x.1).outsider a

/-- Successful execution of a queue of messages, with everything they lead to, in all the DAOs, and the messages handled, in
order. The cases are those of `Dao.Traced`; messages sent to other contracts (`other`, `deposit`) may come back to any DAO. -/
inductive Run (cs : ι → Cfg) : Daos ι → List (ι × Item) → Daos ι → List (ι × Entry) → Prop
  | nil (W : Daos ι) : Run cs W [] W []
  | call {W W2 W3 : Daos ι} {d : ι} {w w1 : World} {a : Addr} {m : Msg} {subs : List Item} {rest : List (ι × Item)}
      {t1 t2 : List (ι × Entry)} (e : Ext) (hd : W d = some w) (room : w.gov.pollCount + 1 < 2 ^ 64)
      (h : handle (cs d) e w a m = .ok (w1, subs)) (h1 : Run cs (W.set d w1) (subs.map (d, ·)) W2 t1)
      (h2 : Run cs W2 rest W3 t2) : Run cs W ((d, .call a m) :: rest) W3 ((d, ⟨w, e, a, m⟩) :: (t1 ++ t2))
  | actions {W W2 W3 : Daos ι} {d : ι} {w w1 : World} {id : Nat} {subs : List Item} {rest : List (ι × Item)}
      {t1 t2 : List (ι × Entry)} (e : Ext) (hd : W d = some w) (room : w.gov.pollCount + 1 < 2 ^ 64)
      (h : handle (cs d) e w (cs d).self (.ctl (.executeActions id)) = .ok (w1, subs))
      (h1 : Run cs (W.set d w1) (subs.map (d, ·)) W2 t1) (h2 : Run cs W2 rest W3 t2) :
      Run cs W ((d, .actions id) :: rest) W3 ((d, ⟨w, e, (cs d).self, .ctl (.executeActions id)⟩) :: (t1 ++ t2))
  | failed {W W1 : Daos ι} {d : ι} {id : Nat} {rest : List (ι × Item)} {t : List (ι × Entry)} (h : Run cs W rest W1 t) :
      Run cs W ((d, .actions id) :: rest) W1 t
  | deposit {W W1 W2 : Daos ι} {d : ι} {w : World} {id : Nat} {t : Transfer} {calls rest : List (ι × Item)}
      {t1 t2 : List (ι × Entry)} (hd : W d = some w) (hc : Foreign cs calls)
      (h1 : Run cs (W.set d { w with log := w.log ++ [.paid id t] }) calls W1 t1) (h2 : Run cs W1 rest W2 t2) :
      Run cs W ((d, .deposit id t) :: rest) W2 (t1 ++ t2)
  | other {W W1 W2 : Daos ι} {d : ι} {calls rest : List (ι × Item)} {t1 t2 : List (ι × Entry)} (hc : Foreign cs calls)
      (h1 : Run cs W calls W1 t1) (h2 : Run cs W1 rest W2 t2) : Run cs W ((d, .other) :: rest) W2 (t1 ++ t2)

/-- A history of the chain: DAOs are created (C107 says in which states), transactions go to contracts of any DAO, and time
passes for all. -/
inductive Story (cs : ι → Cfg) : Daos ι → List (ι × Entry) → Prop
  | start : Story cs (fun _ => none) []
  | birth {W : Daos ι} {T : List (ι × Entry)} {d : ι} {w : World} (h : Story cs W T) (hd : W d = none)
      (hg : Genesis (cs d) w) (hb : ∀ k v, W k = some v → v.block = w.block) : Story cs (W.set d w) T
  | tx {W W' : Daos ι} {T t : List (ι × Entry)} {d : ι} {a : Addr} {m : Msg} (h : Story cs W T) (ha : (cs d).outsider a)
      (hx : Run cs W [(d, .call a m)] W' t) : Story cs W' (T ++ t)
  | block {W : Daos ι} {T : List (ι × Entry)} {b : Block} (h : Story cs W T)
      (hb : ∀ k v, W k = some v → v.block.height ≤ b.height ∧ v.block.time ≤ b.time) :
      Story cs (fun k => (W k).map (fun v => { v with block := b })) T

/-- The messages to the contracts of one DAO. -/
def pick (d : ι) (T : List (ι × Entry)) : List Entry := (T.filter (fun x => x.1 = d)).map (·.2)

end Verif.Many
