import Verif.Spec.Construct

/-! # Specification vocabulary of the nearest neighbour heuristic -/

namespace Verif.Spec

/-- No two customers are at the same place, and no node is nearer to another than to itself. -/
structure DistinctCustomers (N : ℕ) (D : ℕ → ℕ → ℚ) : Prop where
  customers : ∀ i j, 1 ≤ i → i < N → 1 ≤ j → j < N → i ≠ j → D i i < D i j
  depot : ∀ i, 1 ≤ i → i < N → D i i ≤ D i 0
  fromDepot : ∀ j, 1 ≤ j → j < N → D 0 0 ≤ D 0 j

/-- The customers that are not forbidden. -/
def allowed (N : ℕ) (forbidden : List ℕ) : List ℕ :=
  (List.range' 1 (N - 1)).filter fun n => ! decide (n ∈ forbidden)

end Verif.Spec
