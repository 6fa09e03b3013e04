import Mathlib.Data.Nat.Digits.Defs

/-! # Specification of the natural order of names and of the files that are found -/

namespace Verif.Spec

/-- One of the characters `0` to `9`. -/
def Dec (c : Char) : Prop := '0' ≤ c ∧ c ≤ '9'

/-- A text without decimal digits. -/
def NoDigits (s : List Char) : Prop := ∀ c ∈ s, ¬ Dec c

/-- A text of at least one decimal digit and nothing else. -/
def AllDigits (s : List Char) : Prop := s ≠ [] ∧ ∀ c ∈ s, Dec c

/-- The text does not begin with a decimal digit. -/
def TextFirst (s : List Char) : Prop := ∀ c ∈ s.head?, ¬ Dec c

/-- The number that is written by decimal digits. -/
def number (s : List Char) : ℕ := Nat.ofDigits 10 (s.reverse.map fun c => c.toNat - '0'.toNat)

/-- The natural order of names: texts are compared in lower case, numbers by their value, from the left; a text that goes on with
a number comes after one that ends. -/
inductive Before (lower : List Char → List Char) : List Char → List Char → Prop
  | text {u v s t : List Char} : NoDigits u → NoDigits v → (s = [] ∨ ∃ c s', s = c :: s' ∧ Dec c) →
      (t = [] ∨ ∃ c t', t = c :: t' ∧ Dec c) → lower u < lower v → Before lower (u ++ s) (v ++ t)
  | ends {u v ds t : List Char} : NoDigits u → NoDigits v → AllDigits ds → TextFirst t → lower u = lower v →
      Before lower u (v ++ (ds ++ t))
  | number {u v ds es s t : List Char} : NoDigits u → NoDigits v → AllDigits ds → AllDigits es → TextFirst s → TextFirst t →
      lower u = lower v → number ds < number es → Before lower (u ++ (ds ++ s)) (v ++ (es ++ t))
  | next {u v ds es s t : List Char} : NoDigits u → NoDigits v → AllDigits ds → AllDigits es → TextFirst s → TextFirst t →
      lower u = lower v → number ds = number es → Before lower s t → Before lower (u ++ (ds ++ s)) (v ++ (es ++ t))

/-- The endings of the names of problem files. -/
def problemEnds : List (List Char) := [".vrp".toList, ".tsp".toList, ".pickle".toList]

/-- The text ends with `e` in upper or lower case, for an `e` in lower case: its last characters, all of them if there are fewer,
are `e` in lower case. -/
def EndsAs (lower : List Char → List Char) (e s : List Char) : Prop :=
  ∃ p q, s = p ++ q ∧ (q.length = e.length ∨ p = [] ∧ q.length ≤ e.length) ∧ lower q = e

/-- No characters but `0` to `9` are known as digits. -/
def PlainName {α : Type} (digit : Char → Option α) (s : List Char) : Prop := ∀ c ∈ s, ¬ Dec c → digit c = none

/-- The path of the file `n` in the folder `p`. -/
def inFolder (p n : List Char) : List Char := if p.getLast? = some '/' then p ++ n else p ++ '/' :: n

/-- A name that ends with `e` and is not hidden. -/
def ProblemName (e n : List Char) : Prop := e <:+ n ∧ n.head? ≠ some '.'

/-- Blanks and ends of lines. -/
def Space (u : List Char) : Prop := ∀ c ∈ u, c = ' ' ∨ c = '\t' ∨ c = '\n' ∨ c = '\r'

/-- A name that neither begins nor ends with a blank. -/
def Trimmed (u : List Char) : Prop := (∀ c ∈ u.head?, ¬ Space [c]) ∧ ∀ c ∈ u.getLast?, ¬ Space [c]

end Verif.Spec
