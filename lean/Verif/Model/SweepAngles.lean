import Mathlib.Analysis.SpecialFunctions.Complex.Arg

/-! # The order of the customers in a sweep -/

namespace Verif

/-- `phis[n]`, the angle of a node as it is seen from the depot, sweep.py 54-60 and 371-372: `np.arctan2` of the differences of the coordinates.
The coordinates are real numbers here. -/
noncomputable def sweepAngle (pts : ℕ → ℝ × ℝ) (n : ℕ) : ℝ := Complex.arg ⟨(pts n).1 - (pts 0).1, (pts n).2 - (pts 0).2⟩

/-- `sweep[2]` of `get_sweep_from_cartesian_coordinates(pts)` for `N` points, sweep.py 350-373: the customers by their angles. `np.argsort` may put
customers with the same angle in any order, so this is a relation. -/
structure SweepOrder (N : ℕ) (pts : ℕ → ℝ × ℝ) (nodes : List ℕ) : Prop where
  perm : nodes.Perm (List.range' 1 (N - 1))
  sorted : nodes.Pairwise fun a b => sweepAngle pts a ≤ sweepAngle pts b

end Verif
