import Mathlib.Data.List.Induction
import Verif.Controller.Lemmas3

/-!
# The governance controller: what a new one accepts and holds (C123)
-/

namespace Verif.Controller
open Verif

/-- `i` is the last entry for `id` in a list of proposals. -/
def LastFor (l : List (Nat × Info)) (id : Nat) (i : Info) : Prop :=
  ∃ l1 l2, l = l1 ++ (id, i) :: l2 ∧ ∀ p ∈ l2, p.1 ≠ id

theorem given_infos (l : List (Nat × Info)) (id : Nat) (i : Info) :
    (l.foldl (fun m p => m.set p.1 p.2) (Map.empty : Map Nat Info)).get id = some i ↔ LastFor l id i := by
  induction l using List.reverseRecOn generalizing i with
  | nil =>
    constructor
    · intro h; cases h
    · rintro ⟨l1, l2, h, _⟩
      cases l1 <;> cases h
  | append_singleton l p ih =>
    obtain ⟨k, x⟩ := p
    rw [List.foldl_append]
    simp only [List.foldl_cons, List.foldl_nil]
    by_cases hp : k = id
    · subst hp
      rw [Map.get_set_self]
      constructor
      · rintro h
        cases h
        exact ⟨l, [], rfl, fun _ h => by cases h⟩
      · rintro ⟨l1, l2, h, hl⟩
        rcases List.eq_nil_or_concat l2 with h2 | ⟨l3, q, h2⟩
        · subst h2
          have := (List.append_inj' h rfl).2
          cases this
          rfl
        · rw [List.concat_eq_append] at h2
          subst h2
          rw [← List.cons_append, ← List.append_assoc] at h
          have := (List.append_inj' h rfl).2
          cases this
          exact absurd rfl (hl (k, x) (by simp))
    · rw [Map.get_set_ne _ _ hp, ih]
      constructor
      · rintro ⟨l1, l2, h, hl⟩
        refine ⟨l1, l2 ++ [(k, x)], by rw [h]; simp, fun q hq => ?_⟩
        rcases List.mem_append.1 hq with hq | hq
        · exact hl q hq
        · rw [List.mem_singleton.1 hq]; exact hp
      · rintro ⟨l1, l2, h, hl⟩
        rcases List.eq_nil_or_concat l2 with h2 | ⟨l3, q, h2⟩
        · subst h2
          have := (List.append_inj' h rfl).2
          cases this
          exact absurd rfl hp
        · rw [List.concat_eq_append] at h2
          subst h2
          rw [← List.cons_append, ← List.append_assoc] at h
          refine ⟨l1, l3, (List.append_inj' h rfl).1, fun q hq => hl q (List.mem_append_left _ hq)⟩

/-- A controller is set up exactly with a valid configuration and, if there is a council, with a valid council. -/
theorem C123_accepted (b : Block) (enterprise : Addr) (t : DaoType) (cfg : GovConfig) (council : Option CouncilSpec)
    (infos : List (Nat × Info)) (treasuries : List Nat) :
    (∃ s, init b enterprise t cfg council infos treasuries = .ok s) ↔
      ValidConfig t cfg ∧ ∀ x, council = some x → ValidSpec x := by
  simp only [init, bind_ok_iff, validateConfig_ok_iff, validateCouncil_ok_iff, pure_ok_iff, validSpec_iff]
  constructor
  · rintro ⟨_, _, h1, _, ⟨h2, _⟩, _⟩
    exact ⟨h1, h2⟩
  · rintro ⟨h1, h2⟩
    exact ⟨_, (), h1, _, ⟨h2, rfl⟩, rfl⟩

/-- A new controller holds what it was given, and it is in the middle of nothing; of proposals given, the last one with an
identifier counts. -/
theorem C123_starts {b : Block} {enterprise : Addr} {t : DaoType} {cfg : GovConfig} {council : Option CouncilSpec}
    {infos : List (Nat × Info)} {treasuries : List Nat} {s : State}
    (h : init b enterprise t cfg council infos treasuries = .ok s) :
    s.enterprise = enterprise ∧ s.config = cfg ∧ s.council = council.map CouncilSpec.kept ∧ s.created = b.time ∧
    s.treasuries = some treasuries ∧ s.creating = none ∧ s.executing = none ∧ s.voting = none ∧
    ∀ id i, s.infos.get id = some i ↔ LastFor infos id i := by
  simp only [init, bind_ok_iff, validateConfig_ok_iff, validateCouncil_ok_iff, pure_ok_iff] at h
  obtain ⟨_, _, c, ⟨_, h2⟩, rfl⟩ := h
  refine ⟨rfl, rfl, ?_, rfl, rfl, rfl, rfl, rfl, fun id i => given_infos infos id i⟩
  rw [h2]
  cases council with
  | none => rfl
  | some x => show some _ = some _; rw [kept_eq]

/-- A controller with a council and three proposals given, two of them with the same identifier. -/
example : let l : List (Nat × Info) := [(4, ⟨.general, none, none, none, []⟩), (7, ⟨.council, some ⟨5, 5⟩, none, none, []⟩),
      (4, ⟨.general, some ⟨9, 9⟩, none, none, []⟩)]
    let cfg : GovConfig := ⟨ONE / 10, ONE / 2, none, 100, some 30, true⟩
    let co : CouncilSpec := ⟨[40, 41], ONE / 2, ONE / 2, none⟩
    (∃ s, init ⟨1, 10 ^ 9⟩ 3 .denom cfg (some co) l [] = .ok s) ∧
    LastFor l 4 ⟨.general, some ⟨9, 9⟩, none, none, []⟩ ∧ LastFor l 7 ⟨.council, some ⟨5, 5⟩, none, none, []⟩ := by
  intro l cfg co
  refine ⟨⟨_, rfl⟩, ⟨[(4, ⟨.general, none, none, none, []⟩), (7, ⟨.council, some ⟨5, 5⟩, none, none, []⟩)], [], rfl, by simp⟩,
    ⟨[(4, ⟨.general, none, none, none, []⟩)], [(4, ⟨.general, some ⟨9, 9⟩, none, none, []⟩)], rfl, by simp⟩⟩

/-- A multisig DAO cannot have deposits, and a council cannot list a member twice. -/
example : ¬ (∃ s, init ⟨1, 10 ^ 9⟩ 3 .multisig ⟨ONE / 10, ONE / 2, none, 100, some 30, true⟩ none [] [] = .ok s) ∧
    ¬ (∃ s, init ⟨1, 10 ^ 9⟩ 3 .denom ⟨ONE / 10, ONE / 2, none, 100, some 30, true⟩
      (some ⟨[40, 40], ONE / 2, ONE / 2, none⟩) [] [] = .ok s) := by
  constructor
  · rintro ⟨s, h⟩; revert h; exact fun h => by cases h
  · rintro ⟨s, h⟩; revert h; exact fun h => by cases h

end Verif.Controller
