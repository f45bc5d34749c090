import Verif.Versioning.Text
import Mathlib.Data.List.Induction

/-!
# Versions as text: property C114
-/

namespace Verif.Versioning
open Verif

/-! ### Specification -/

/-- The value of a text of decimal digits, the last of which counts once, the one before ten times, and so on. -/
inductive Decimal : List Char → Nat → Prop
  | nil : Decimal [] 0
  | snoc {l : List Char} {n : Nat} (d : Fin 10) (h : Decimal l n) :
      Decimal (l ++ ["0123456789".toList[d]]) (10 * n + d)

/-- A text that stands for `n`: one or more digits, possibly after a plus sign; the number fits 64 bits. -/
def Numeral (l : List Char) (n : Nat) : Prop :=
  n < 2 ^ 64 ∧ ∃ ds, ds ≠ [] ∧ (l = ds ∨ l = '+' :: ds) ∧ Decimal ds n

/-- A version of numbers of 64 bits. -/
def Fits (v : Version) : Prop := ∃ a b c, v = ver a b c ∧ a < 2 ^ 64 ∧ b < 2 ^ 64 ∧ c < 2 ^ 64

/-! ### Helper lemmas -/

/-- The value of a list of digits after `acc`. -/
def value : Nat → List Char → Option Nat
  | acc, [] => some acc
  | acc, c :: t =>
    match toDigit c with
    | none => none
    | some d => value (acc * 10 + d) t

theorem value_ge : ∀ (l : List Char) (acc n : Nat), value acc l = some n → acc ≤ n
  | [], acc, n, h => by cases h; exact le_refl _
  | c :: t, acc, n, h => by
    unfold value at h
    cases hd : toDigit c with
    | none => rw [hd] at h; cases h
    | some d =>
      rw [hd] at h
      have := value_ge t _ n h
      omega

theorem parseDigits_iff : ∀ (l : List Char) (acc n : Nat), acc < M64 →
    (parseDigits acc l = some n ↔ value acc l = some n ∧ n < M64)
  | [], acc, n, h => by
    unfold parseDigits value
    constructor
    · intro h1; cases h1; exact ⟨rfl, h⟩
    · exact fun h1 => h1.1
  | c :: t, acc, n, h => by
    unfold parseDigits value
    cases hd : toDigit c with
    | none => simp
    | some d =>
      simp only
      by_cases h1 : M64 ≤ acc * 10 + d
      · have h0 : (if M64 ≤ acc * 10 then none else if M64 ≤ acc * 10 + d then none else parseDigits (acc * 10 + d) t) =
            (none : Option Nat) := by split_ifs <;> rfl
        rw [h0]
        constructor
        · intro h2; cases h2
        · rintro ⟨h2, h3⟩
          have := value_ge t _ n h2
          omega
      · rw [if_neg (by omega), if_neg h1]
        exact parseDigits_iff t _ n (by omega)

theorem value_append : ∀ (l m : List Char) (acc : Nat), value acc (l ++ m) = (value acc l).bind (fun x => value x m)
  | [], m, acc => rfl
  | c :: t, m, acc => by
    rw [List.cons_append, value, value]
    cases toDigit c with
    | none => rfl
    | some d => exact value_append t m _

theorem toDigit_iff {c : Char} {d : Nat} : toDigit c = some d ↔ ∃ x : Fin 10, c = "0123456789".toList[x] ∧ d = x := by
  constructor
  · intro h
    unfold toDigit at h
    split_ifs at h with h1
    cases h
    have hlt : c.toNat - 48 < 10 := by omega
    have dig : ∀ k : Fin 10, Char.ofNat (48 + k.1) = "0123456789".toList[k] := by decide
    have hc : c = Char.ofNat (48 + (c.toNat - 48)) := by
      rw [show 48 + (c.toNat - 48) = c.toNat by omega]
      exact (Char.ofNat_toNat c).symm
    exact ⟨⟨c.toNat - 48, hlt⟩, hc.trans (dig ⟨c.toNat - 48, hlt⟩), rfl⟩
  · rintro ⟨x, rfl, rfl⟩
    have : ∀ x : Fin 10, toDigit "0123456789".toList[x] = some x.1 := by decide
    exact this x

theorem value_iff (l : List Char) : ∀ n, value 0 l = some n ↔ Decimal l n := by
  induction l using List.reverseRecOn with
  | nil =>
    intro n
    constructor
    · intro h; cases h; exact .nil
    · intro h
      generalize hk : ([] : List Char) = k at h
      cases h with
      | nil => rfl
      | snoc d h => simp at hk
  | append_singleton l c ih =>
    intro n
    rw [value_append]
    constructor
    · intro h
      cases hv : value 0 l with
      | none => rw [hv] at h; cases h
      | some x =>
        rw [hv] at h
        simp only [Option.bind_some] at h
        unfold value at h
        cases hd : toDigit c with
        | none => rw [hd] at h; cases h
        | some d =>
          rw [hd] at h
          cases h
          obtain ⟨y, rfl, rfl⟩ := toDigit_iff.1 hd
          rw [Nat.mul_comm]
          exact .snoc y ((ih x).1 hv)
    · intro h
      generalize hk : l ++ [c] = k at h
      cases h with
      | nil => simp at hk
      | @snoc l' x d h =>
        obtain ⟨rfl, hc⟩ := List.append_inj' hk rfl
        cases hc
        rw [(ih x).2 h]
        simp only [Option.bind_some]
        unfold value
        rw [toDigit_iff.2 ⟨d, rfl, rfl⟩]
        simp only [value, Nat.mul_comm]

theorem decimal_head {c : Char} {t : List Char} {n : Nat} (h : Decimal (c :: t) n) : toDigit c ≠ none := by
  intro hd
  have := (value_iff _ _).2 h
  unfold value at this
  rw [hd] at this
  cases this

theorem parseU64_iff {l : List Char} {n : Nat} : parseU64 l = some n ↔ Numeral l n := by
  have hp : toDigit '+' = none := by decide
  have hm : toDigit '-' = none := by decide
  have h64 : (2 : Nat) ^ 64 = M64 := by unfold M64; rfl
  unfold Numeral
  rw [h64]
  cases l with
  | nil =>
    constructor
    · intro h; cases h
    · rintro ⟨_, ds, h0, h | h, _⟩
      · exact absurd h.symm h0
      · cases h
  | cons c t =>
    rw [parseU64]
    by_cases h1 : t = [] ∧ (c = '+' ∨ c = '-')
    · rw [if_pos h1]
      constructor
      · intro h; cases h
      · obtain ⟨rfl, hc⟩ := h1
        rintro ⟨_, ds, h0, h | h, hd⟩
        · subst h
          rcases hc with rfl | rfl
          · exact absurd hp (decimal_head hd)
          · exact absurd hm (decimal_head hd)
        · cases h; exact absurd rfl h0
    · rw [if_neg h1]
      by_cases h2 : c = '+'
      · subst h2
        rw [if_pos rfl, parseDigits_iff _ _ _ (by unfold M64; omega), value_iff]
        constructor
        · rintro ⟨h, hn⟩
          exact ⟨hn, t, fun ht => h1 ⟨ht, .inl rfl⟩, .inr rfl, h⟩
        · rintro ⟨hn, ds, _, h | h, hd⟩
          · subst h; exact absurd hp (decimal_head hd)
          · cases h; exact ⟨hd, hn⟩
      · rw [if_neg h2, parseDigits_iff _ _ _ (by unfold M64; omega), value_iff]
        constructor
        · rintro ⟨h, hn⟩
          exact ⟨hn, c :: t, by simp, .inl rfl, h⟩
        · rintro ⟨hn, ds, _, h | h, hd⟩
          · subst h; exact ⟨hd, hn⟩
          · cases h; exact absurd rfl h2

theorem splitDots_ne (s : List Char) : splitDots s ≠ [] := by
  cases s with
  | nil => simp [splitDots]
  | cons c t =>
    unfold splitDots
    split_ifs
    · simp
    · split <;> simp

/-- The parts of a text, put together with dots, are the text, and have no dots. -/
theorem splitDots_iff : ∀ (s : List Char) (ps : List (List Char)),
    splitDots s = ps ↔ ps ≠ [] ∧ List.intercalate ['.'] ps = s ∧ ∀ p ∈ ps, '.' ∉ p := by
  have inter : ∀ (p : List Char) (ps : List (List Char)), ps ≠ [] →
      List.intercalate ['.'] (p :: ps) = p ++ '.' :: List.intercalate ['.'] ps := by
    intro p ps h
    cases ps with
    | nil => exact absurd rfl h
    | cons q qs => simp [List.intercalate, List.intersperse]
  have fwd : ∀ s, List.intercalate ['.'] (splitDots s) = s ∧ ∀ p ∈ splitDots s, '.' ∉ p := by
    intro s
    induction s with
    | nil => simp [splitDots, List.intercalate]
    | cons c t ih =>
      unfold splitDots
      split_ifs with h
      · subst h
        refine ⟨by rw [inter _ _ (splitDots_ne t), ih.1]; rfl, fun p hp => ?_⟩
        rcases List.mem_cons.1 hp with rfl | hp
        · simp
        · exact ih.2 p hp
      · cases hs : splitDots t with
        | nil => exact absurd hs (splitDots_ne t)
        | cons p ps =>
          rw [hs] at ih
          refine ⟨?_, fun q hq => ?_⟩
          · cases ps with
            | nil =>
              have := ih.1
              have one : ∀ x : List Char, List.intercalate ['.'] [x] = x := fun x => by simp [List.intercalate]
              rw [one] at this ⊢
              rw [this]
            | cons q qs =>
              have := ih.1
              rw [inter _ _ (by simp)] at this ⊢
              rw [List.cons_append, this]
          · rcases List.mem_cons.1 hq with rfl | hq
            · intro hm
              rcases List.mem_cons.1 hm with h1 | h1
              · exact h h1.symm
              · exact ih.2 p (List.mem_cons_self) h1
            · exact ih.2 q (List.mem_cons_of_mem _ hq)
  have part : ∀ (p r : List Char), '.' ∉ p → splitDots (p ++ '.' :: r) = p :: splitDots r := by
    intro p r
    induction p with
    | nil => intro _; simp [splitDots]
    | cons c t ih =>
      intro h
      rw [List.cons_append]
      rw [splitDots, if_neg (fun hc : c = '.' => h (hc ▸ List.mem_cons_self)), ih (fun hm => h (List.mem_cons_of_mem _ hm))]
  have single : ∀ (p : List Char), '.' ∉ p → splitDots p = [p] := by
    intro p
    induction p with
    | nil => intro _; simp [splitDots]
    | cons c t ih =>
      intro h
      rw [splitDots, if_neg (fun hc : c = '.' => h (hc ▸ List.mem_cons_self)), ih (fun hm => h (List.mem_cons_of_mem _ hm))]
  have back : ∀ ps : List (List Char), ps ≠ [] → (∀ p ∈ ps, '.' ∉ p) → splitDots (List.intercalate ['.'] ps) = ps := by
    intro ps
    induction ps with
    | nil => intro h; exact absurd rfl h
    | cons p qs ih =>
      intro _ h
      cases qs with
      | nil =>
        have : List.intercalate ['.'] [p] = p := by simp [List.intercalate]
        rw [this]
        exact single p (h p List.mem_cons_self)
      | cons q qs =>
        rw [inter _ _ (by simp), part p _ (h p List.mem_cons_self), ih (by simp) (fun x hx => h x (List.mem_cons_of_mem _ hx))]
  intro s ps
  constructor
  · rintro rfl; exact ⟨splitDots_ne s, fwd s⟩
  · rintro ⟨h1, rfl, h3⟩; exact back ps h1 h3

theorem numeral_no_dot {l : List Char} {n : Nat} (h : Numeral l n) : '.' ∉ l := by
  have hd : ∀ (ds : List Char) (n : Nat), Decimal ds n → '.' ∉ ds := by
    intro ds n h
    induction h with
    | nil => simp
    | snoc d _ ih =>
      rw [List.mem_append]
      rintro (h | h)
      · exact ih h
      · have : ∀ d : Fin 10, '.' ≠ "0123456789".toList[d] := by decide
        exact this d (List.mem_singleton.1 h)
  obtain ⟨_, ds, _, rfl | rfl, h⟩ := h
  · exact hd _ _ h
  · intro hm
    rcases List.mem_cons.1 hm with h1 | h1
    · exact absurd h1 (by decide)
    · exact hd _ _ h h1

theorem showU64_decimal (n : Nat) : showU64 n ≠ [] ∧ Decimal (showU64 n) n := by
  have dig : ∀ d : Fin 10, digitChar d.1 = "0123456789".toList[d] := by decide
  induction n using Nat.strong_induction_on with
  | _ n ih =>
    unfold showU64
    split_ifs with h
    · refine ⟨by simp, ?_⟩
      have := Decimal.snoc ⟨n, h⟩ .nil
      rw [← dig ⟨n, h⟩] at this
      simpa using this
    · refine ⟨by simp, ?_⟩
      have hlt : n % 10 < 10 := Nat.mod_lt _ (by omega)
      have := Decimal.snoc ⟨n % 10, hlt⟩ (ih (n / 10) (by omega)).2
      rw [← dig ⟨n % 10, hlt⟩] at this
      have he : 10 * (n / 10) + n % 10 = n := Nat.div_add_mod n 10
      simpa only [he] using this

/-! ## C114 -/

/-- A text is read as a version exactly if it consists of three numerals, separated by single dots; it is the version of
their values. -/
theorem C114_reads (s : List Char) (v : Version) :
    fromStr s = some v ↔ ∃ a b c x y z, s = a ++ ['.'] ++ b ++ ['.'] ++ c ∧
      Numeral a x ∧ Numeral b y ∧ Numeral c z ∧ v = ver x y z := by
  have three : ∀ a b c : List Char, List.intercalate ['.'] [a, b, c] = a ++ ['.'] ++ b ++ ['.'] ++ c := by
    intro a b c; simp [List.intercalate, List.intersperse]
  constructor
  · intro h
    unfold fromStr at h
    split at h
    · rename_i a b c hs
      obtain ⟨_, h1, _⟩ := (splitDots_iff _ _).1 hs
      cases ha : parseU64 a with
      | none => rw [ha] at h; cases h
      | some x =>
        cases hb : parseU64 b with
        | none => rw [ha, hb] at h; cases h
        | some y =>
          cases hc : parseU64 c with
          | none => rw [ha, hb, hc] at h; cases h
          | some z =>
            rw [ha, hb, hc] at h
            cases h
            exact ⟨a, b, c, x, y, z, by rw [← h1, three], parseU64_iff.1 ha, parseU64_iff.1 hb, parseU64_iff.1 hc, rfl⟩
    · cases h
  · rintro ⟨a, b, c, x, y, z, rfl, ha, hb, hc, rfl⟩
    have hs : splitDots (a ++ ['.'] ++ b ++ ['.'] ++ c) = [a, b, c] := by
      rw [splitDots_iff]
      refine ⟨by simp, three a b c, fun p hp => ?_⟩
      simp only [List.mem_cons, List.not_mem_nil, or_false] at hp
      rcases hp with rfl | rfl | rfl
      · exact numeral_no_dot ha
      · exact numeral_no_dot hb
      · exact numeral_no_dot hc
    unfold fromStr
    rw [hs]
    simp only [parseU64_iff.2 ha, parseU64_iff.2 hb, parseU64_iff.2 hc]
    rfl

/-- The text of a version is read as that version. -/
theorem C114_round (v : Version) (hv : Fits v) : fromStr (toStr v) = some v := by
  obtain ⟨a, b, c, rfl, ha, hb, hc⟩ := hv
  refine (C114_reads _ _).2 ⟨showU64 a, showU64 b, showU64 c, a, b, c, ?_, ?_, ?_, ?_, rfl⟩
  · show showU64 a ++ '.' :: (showU64 b ++ '.' :: showU64 c) = _
    simp
  · exact ⟨ha, _, (showU64_decimal a).1, .inl rfl, (showU64_decimal a).2⟩
  · exact ⟨hb, _, (showU64_decimal b).1, .inl rfl, (showU64_decimal b).2⟩
  · exact ⟨hc, _, (showU64_decimal c).1, .inl rfl, (showU64_decimal c).2⟩

/-- Different versions have different texts. -/
theorem C114_distinct (v w : Version) (hv : Fits v) (hw : Fits w) (h : toStr v = toStr w) : v = w := by
  have h1 := C114_round v hv
  rw [h, C114_round w hw] at h1
  exact (Option.some.inj h1).symm

/-- Whatever is read fits 64 bits, so it can be written and read again. -/
theorem C114_again (s : List Char) (v : Version) (h : fromStr s = some v) : Fits v ∧ fromStr (toStr v) = some v := by
  obtain ⟨a, b, c, x, y, z, _, ha, hb, hc, rfl⟩ := (C114_reads s v).1 h
  have hf : Fits (ver x y z) := ⟨x, y, z, rfl, ha.1, hb.1, hc.1⟩
  exact ⟨hf, C114_round _ hf⟩

/-- Texts of versions, with a sign and leading zeros, the largest number, and texts that are no versions. -/
example : toStr (ver 1 20 3) = "1.20.3".toList ∧ fromStr "1.20.3".toList = some (ver 1 20 3) ∧
    fromStr "+1.020.0".toList = some (ver 1 20 0) ∧
    fromStr "18446744073709551615.0.0".toList = some (ver (2 ^ 64 - 1) 0 0) ∧
    fromStr "18446744073709551616.0.0".toList = none ∧ fromStr "1.2".toList = none ∧ fromStr "1.2.3.4".toList = none ∧
    fromStr "1..3".toList = none ∧ fromStr "1.+.3".toList = none ∧ fromStr "1.-2.3".toList = none := by
  refine ⟨?_, ?_⟩
  · decide +kernel
  · decide +kernel

end Verif.Versioning
