import Verif.Model.Py
import Mathlib.Analysis.Real.Sqrt
import Mathlib.Analysis.SpecialFunctions.Trigonometric.Inverse
import Mathlib.Algebra.Order.Floor.Ring

/-! # Model of `calculate_D` of `verypy/cvrp_io.py`

The distances are real numbers; the rounding of floating point numbers is not modelled. Points are pairs of numbers. -/

namespace Verif

noncomputable section

/-- `int(x)`: towards zero. See cvrp_io.py 71 and 77. -/
def intOf (x : ℝ) : ℤ := if 0 ≤ x then ⌊x⌋ else ⌈x⌉

/-- `np.round(x)`: to the nearest whole number, in the middle to the even one. See cvrp_io.py 93. -/
def npRound (x : ℝ) : ℤ :=
  if x - ⌊x⌋ < 1 / 2 then ⌊x⌋
  else if 1 / 2 < x - ⌊x⌋ then ⌊x⌋ + 1
  else if ⌊x⌋ % 2 = 0 then ⌊x⌋ else ⌊x⌋ + 1

/-- The argument of `acos` in `_geo`, cvrp_io.py 68-71. -/
def geoArg (v w : ℝ × ℝ) : ℝ :=
  1 / 2 * ((1 + Real.cos (v.2 - w.2)) * Real.cos (v.1 - w.1) - (1 - Real.cos (v.2 - w.2)) * Real.cos (v.1 + w.1))

/-- `_geo`, cvrp_io.py 59-71. (`acos` outside of its domain is `C69_geo`.) -/
def geoDist (v w : ℝ × ℝ) : ℝ := intOf (6378388 / 1000 * Real.arccos (geoArg v w) + 1)

/-- `_att`, cvrp_io.py 73-78. -/
def attDist (v w : ℝ × ℝ) : ℝ :=
  let r := √((v.1 - w.1) ^ 2 + (v.2 - w.2) ^ 2) / 10
  let t : ℤ := intOf r
  if (t : ℝ) < r then t + 1 else t

/-- The metric 'euclidean' of `pdist` and `cdist`. See cvrp_io.py 81. -/
def euclidean (v w : ℝ × ℝ) : ℝ := √((v.1 - w.1) ^ 2 + (v.2 - w.2) ^ 2)

/-- The metric 'chebyshev'. See cvrp_io.py 85. -/
def chebyshev (v w : ℝ × ℝ) : ℝ := max |v.1 - w.1| |v.2 - w.2|

/-- The metric 'cityblock'. See cvrp_io.py 87. -/
def cityblock (v w : ℝ × ℝ) : ℝ := |v.1 - w.1| + |v.2 - w.2|

/-- The metric and what is done with its values, cvrp_io.py 81-101. -/
def distanceOf (type : String) : Py ((ℝ × ℝ → ℝ × ℝ → ℝ) × (ℝ → ℝ)) :=
  if type = "MAX_2D" then .ok (chebyshev, id)
  else if type = "MAN_2D" then .ok (cityblock, id)
  else if type = "CEIL_2D" then .ok (euclidean, fun x => ⌈x⌉)
  else if type = "FLOOR_2D" then .ok (euclidean, fun x => ⌊x⌋)
  else if type = "EUC_2D" then .ok (euclidean, fun x => npRound x)
  else if type = "ATT" then .ok (attDist, id)
  else if type = "GEO" then .ok (geoDist, id)
  else if type = "EXACT_2D" then .ok (euclidean, id)
  else .error .valueError

/-- `squareform(pdist(pts, f))`: the metric is only asked for the pairs with the smaller index first, the diagonal is zero.
See cvrp_io.py 103. -/
def squareform (f : ℝ × ℝ → ℝ × ℝ → ℝ) (pts : ℕ → ℝ × ℝ) (i j : ℕ) : ℝ :=
  if i < j then f (pts i) (pts j) else if j < i then f (pts j) (pts i) else 0

/-- `calculate_D`, cvrp_io.py 80-105. -/
def calculate_D (pts : ℕ → ℝ × ℝ) (opts : Option (ℕ → ℝ × ℝ)) (type : String) : Py (ℕ → ℕ → ℝ) :=
  match distanceOf type with
  | .error e => .error e
  | .ok (f, post) =>
    match opts with
    | none => .ok fun i j => post (squareform f pts i j)
    | some opts => .ok fun i j => post (f (pts i) (opts j))

end

end Verif
