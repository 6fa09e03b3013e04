import Verif.Model.Distances

/-! # Model of `generate_CVRP` of `verypy/cvrp_io.py`

The numbers are real numbers. What the generator of random numbers gives is a parameter. -/

namespace Verif

noncomputable section

/-- The random numbers that are drawn for one customer: `random.random()`, `random.gauss(1.0, 0.33)` and
`random.gauss(muC, sdC)`, cvrp_io.py 467, 468 and 471. The mean and the deviation of the demands are used only there and left
out. -/
structure GenDraw where
  unit : ℝ
  radius : ℝ
  demand : ℝ

/-- What `generate_CVRP` returns, cvrp_io.py 478; the two fields that are `None` are left out. -/
structure GenProblem where
  size : ℕ
  points : List (ℝ × ℝ)
  demands : List ℝ
  D : ℕ → ℕ → ℝ
  C : ℝ

/-- The loop over the customers, cvrp_io.py 461-474. `n` customers are left, `k` are done. `sumc` is not used and left out. -/
def genLoop (N : ℕ) (C R : ℝ) (regular : Bool) (draw : ℕ → GenDraw) :
    ℕ → ℕ → ℝ → List (ℝ × ℝ) → List ℝ → List (ℝ × ℝ) × List ℝ
  | 0, _, _, points, demands => (points, demands)
  | n + 1, k, alpha, points, demands =>
    let alpha := if regular then alpha + 2 * Real.pi / N else (draw k).unit * 2 * Real.pi
    let r := if regular then R else R * (draw k).radius
    let c := min C (max 1 (draw k).demand)
    genLoop N C R regular draw n (k + 1) alpha (points ++ [(r * Real.cos alpha, r * Real.sin alpha)]) (demands ++ [c])

/-- `generate_CVRP`, cvrp_io.py 448-478. A point that is asked for and not there is the depot. -/
def generate_CVRP (N : ℕ) (C R : ℝ) (regular : Bool) (draw : ℕ → GenDraw) : Py GenProblem :=
  let p := genLoop N C R regular draw N 0 (Real.pi / 4) [(0, 0)] [0]
  match calculate_D (fun i => p.1.getD i (0, 0)) none "EUC_2D" with
  | .error e => .error e
  | .ok D => .ok { size := N, points := p.1, demands := p.2, D := D, C := C }

/-- The random problem of the command line: the capacity is 100, the radius the default of 200 and the demands are cut to whole
numbers, shared_cli.py 279-280. -/
def cli_random (N : ℕ) (draw : ℕ → GenDraw) : Py GenProblem :=
  match generate_CVRP N 100 200 false draw with
  | .error e => .error e
  | .ok p => .ok { p with demands := p.demands.map fun x => ((intOf x : ℤ) : ℝ) }

end

end Verif
