import Verif.Model.ProblemFile

/-! # Specification vocabulary of the problem files -/

namespace Verif.Spec

/-- A character numbers are written with: no capital letter, no colon and no white space. -/
def Plain (c : Char) : Prop := c.isUpper = false ∧ c ≠ ':' ∧ c ∉ [' ', '\t', '\n', '\r']

/-- The numbers of `S` can be written and read back, and whole numbers can be read. -/
structure Numbers (float : List Char → Py ℚ) (fmt : ℚ → List Char) (S : ℚ → Prop) : Prop where
  whole : ∀ z : ℤ, float (showInt z) = .ok z
  back : ∀ x, S x → float (fmt x) = .ok x
  some : ∀ x, S x → fmt x ≠ []
  plain : ∀ x, S x → ∀ c ∈ fmt x, Plain c

/-- The whole part of a number: what is left without the digits after the point. -/
def IsWhole (x : ℚ) (z : ℤ) : Prop := |x - z| < 1 ∧ |(z : ℚ)| ≤ |x|

/-- The name of a file with a CVRP: it ends with `.vrp`, in upper or lower case letters. -/
def IsVrp (path : List Char) : Prop := ∃ q e, path = q ++ e ∧ e.map Char.toLower = ".vrp".toList

/-- The nodes a file is about: the selected ones, or all if none is selected. -/
def Nodes (selected : List ℕ) (n : ℕ) (sel : List ℕ) : Prop :=
  (selected ≠ [] ∧ sel = selected) ∨ (selected = [] ∧ sel = List.range n)

end Verif.Spec
