import Verif.Base.Num

/-!
# Facts about `Except`
-/

namespace Verif

theorem bind_ok_iff {ε α β : Type} {x : Except ε α} {f : α → Except ε β} {b : β} :
    (x >>= f) = .ok b ↔ ∃ a, x = .ok a ∧ f a = .ok b := by
  cases x with
  | error e => constructor <;> intro h
               · cases h
               · obtain ⟨a, h, _⟩ := h; cases h
  | ok a => constructor <;> intro h
            · exact ⟨a, rfl, h⟩
            · obtain ⟨a', h, h'⟩ := h; cases h; exact h'

theorem pure_ok_iff {ε α : Type} {a b : α} : (pure a : Except ε α) = .ok b ↔ a = b :=
  ⟨fun h => by cases h; rfl, fun h => by rw [h]; rfl⟩

theorem ite_ok_iff {ε α : Type} {p : Prop} [Decidable p] {e : ε} {x : Except ε α} {b : α} :
    (if p then Except.error e else x) = .ok b ↔ ¬ p ∧ x = .ok b := by
  by_cases h : p <;> simp [h]

theorem foldlM_cons_ok_iff {ε α β : Type} {f : α → β → Except ε α} {a a' : α} {b : β} {l : List β} :
    (b :: l).foldlM f a = .ok a' ↔ ∃ a1, f a b = .ok a1 ∧ l.foldlM f a1 = .ok a' := by
  rw [List.foldlM_cons, bind_ok_iff]

theorem foldlM_nil_ok_iff {ε α β : Type} {f : α → β → Except ε α} {a a' : α} :
    ([] : List β).foldlM f a = .ok a' ↔ a = a' := by
  rw [List.foldlM_nil, pure_ok_iff]

end Verif
