import Verif.Spec.Basic

/-! # Two routes of a solution -/

namespace Verif.Spec

/-- The customers `b` and then the customers `c` are two routes of the solution. They may be empty. -/
def TwoRoutes (sol b c : List ℕ) : Prop :=
  (∀ x ∈ b, x ≠ 0) ∧ (∀ x ∈ c, x ≠ 0) ∧ ∃ p R q : List ℕ, DepotEnds R ∧ sol = p ++ 0 :: (b ++ R ++ (c ++ 0 :: q))

end Verif.Spec
