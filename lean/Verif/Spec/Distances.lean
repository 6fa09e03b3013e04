import Mathlib.Data.Real.Basic

/-! # Specification of the distances from coordinates -/

namespace Verif.Spec

/-- A symmetric matrix without negative numbers and with zeros in the diagonal. -/
structure DistMatrix (D : ℕ → ℕ → ℝ) : Prop where
  symm : ∀ i j, D i j = D j i
  diag : ∀ i, D i i = 0
  nonneg : ∀ i j, 0 ≤ D i j

/-- The triangle inequality holds but for an excess of at most `e`. -/
def TriangleBut (e : ℝ) (D : ℕ → ℕ → ℝ) : Prop := ∀ i j k, D i k ≤ D i j + D j k + e

/-- All the distances are whole numbers. -/
def WholeNumbers (D : ℕ → ℕ → ℝ) : Prop := ∃ E : ℕ → ℕ → ℤ, ∀ i j, D i j = E i j

/-- A number is the distance of two points in the plane. -/
def PlaneDist (v w : ℝ × ℝ) (x : ℝ) : Prop := 0 ≤ x ∧ x ^ 2 = (v.1 - w.1) ^ 2 + (v.2 - w.2) ^ 2

end Verif.Spec
