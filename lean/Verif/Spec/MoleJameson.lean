import Verif.Spec.Construct
import Verif.Spec.Moves

/-! # Specification vocabulary for the heuristic of Mole & Jameson -/

namespace Verif.Spec

/-- A local optimum for 2-opt and the move of one customer: no reversal of a part of a route, and no move of
a customer to another route that keeps the limits there, makes the solution cheaper by more than the
tolerance. -/
def MjOptimal (D : ℕ → ℕ → ℚ) (d : ℕ → ℚ) (C L : Option ℚ) (sol : List ℕ) : Prop :=
  (∀ b ∈ blocks sol, ∀ r', Nb2opt (wrap b) r' → ¬ cost D r' + S_EPS < cost D (wrap b)) ∧
  ∀ b ∈ blocks sol, ∀ b' ∈ blocks sol, b ≠ b' → ∀ A n B E F, b = A ++ [n] ++ B → b' = E ++ F →
    RouteOk D d C L (E ++ [n] ++ F) →
    ¬ cost D (wrap (A ++ B)) + cost D (wrap (E ++ [n] ++ F)) + S_EPS < cost D (wrap b) + cost D (wrap b')

/-- Distances as in the plane. -/
structure Metric (D : ℕ → ℕ → ℚ) : Prop where
  symm : ∀ i j, D i j = D j i
  triangle : ∀ i j k, D i k ≤ D i j + D j k
  nonneg : ∀ i j, 0 ≤ D i j
  self : ∀ i, D i i = 0

/-- What the heuristic needs of the distances: those of a metric have it, and those that were rounded to whole numbers. -/
structure MjDist (D : ℕ → ℕ → ℚ) : Prop where
  symm : ∀ i j, D i j = D j i
  nonneg : ∀ i j, 0 ≤ D i j
  self : ∀ i, D i i = 0
  safe : ∀ a n b x y, D a b - D a n - D n b + (D x n + D n y - D x y) < 0 → D a b ≤ D a n + D n b
  ends : (∀ i j k, D i k ≤ D i j + D j k) ∨ ∃ E : ℕ → ℕ → ℤ, ∀ i j, D i j = E i j

theorem Metric.mj {D : ℕ → ℕ → ℚ} (h : Metric D) : MjDist D :=
  ⟨h.symm, h.nonneg, h.self, fun a n b _ _ _ => h.triangle a n b, .inl h.triangle⟩

end Verif.Spec
