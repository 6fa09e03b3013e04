import Verif.Spec.Distances

/-! # Specification of the random problems -/

namespace Verif.Spec

/-- A depot at the origin, without a demand, and `N` customers each of whom fits into a vehicle and asks for at least one unit, or
for the whole vehicle if that is smaller. -/
structure RandomPlaces (N : ℕ) (C : ℝ) (points : List (ℝ × ℝ)) (demands : List ℝ) : Prop where
  places : points.length = N + 1
  loads : demands.length = N + 1
  depot : points[0]? = some (0, 0)
  empty : demands[0]? = some 0
  fits : ∀ n x, 1 ≤ n → demands[n]? = some x → x ≤ C
  least : ∀ n x, 1 ≤ n → demands[n]? = some x → min 1 C ≤ x

/-- The distances are those in the plane, to the nearest whole number. -/
def NearestWhole (points : List (ℝ × ℝ)) (D : ℕ → ℕ → ℝ) : Prop :=
  ∀ i j v w x, points[i]? = some v → points[j]? = some w → PlaneDist v w x → ∃ m : ℤ, D i j = m ∧ |(m : ℝ) - x| ≤ 1 / 2

/-- The customers `1 .. N` stand evenly on a circle around the depot: the distances are the same when all of them move to the place
of the next one. -/
structure RingOf (N : ℕ) (D : ℕ → ℕ → ℝ) : Prop where
  centre : ∀ i, 1 ≤ i → i ≤ N → D 0 i = D 0 (i % N + 1)
  turn : ∀ i j, 1 ≤ i → i ≤ N → 1 ≤ j → j ≤ N → D i j = D (i % N + 1) (j % N + 1)

end Verif.Spec
