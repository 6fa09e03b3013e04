import Verif.Spec.Construct

/-! # Specification vocabulary of the edges of a solution -/

namespace Verif.Spec

/-- `y` comes directly after `x`. -/
def Step (l : List ℕ) (x y : ℕ) : Prop := ∃ p q, l = p ++ x :: y :: q

/-- A complete solution without empty routes. -/
structure Complete (N : ℕ) (sol : List ℕ) : Prop where
  ends : DepotEnds sol
  covers : Covers N sol
  noEmpty : squeeze sol = sol

end Verif.Spec
