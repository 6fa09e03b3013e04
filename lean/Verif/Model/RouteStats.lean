import Verif.Model.Cli
import Mathlib.Data.Rat.Floor

/-! # The table of the routes in the statistics of a solution -/

namespace Verif

/-- The value that `"%.2f" % x` shows, shared_cli.py 70-71 and 75-76: two digits, the even one if two are as near. -/
def twoDigits (x : ℚ) : ℚ :=
  let y := x * 100
  let f := ⌊y⌋
  let r := y - f
  (((if r < 1 / 2 then f else if 1 / 2 < r then f + 1 else if f % 2 = 0 then f else f + 1) : ℤ) : ℚ) / 100

/-- A row of the table of the routes, shared_cli.py 68-73: the number, the cost, the length, the load (`none` is the
dash that is printed without a capacity) and the route. -/
structure RouteRow where
  no : ℕ
  cost : ℚ
  length : ℚ
  load : Option ℚ
  route : List ℕ
  deriving DecidableEq, Repr

/-- The row of a route, shared_cli.py 69-73. A capacity of zero is no capacity. -/
def routeRow (D Dc : ℕ → ℕ → ℚ) (d : ℕ → ℚ) (C : Option ℚ) (i : ℕ) (route : List ℕ) : RouteRow :=
  ⟨i + 1, twoDigits (objf route Dc), twoDigits (objf route D),
    match C with
    | none => none
    | some c => if c = 0 then none else some (route.map d).sum,
    route⟩

/-- The table of the routes with its last line, the total cost and length, shared_cli.py 65-77: `rows` are the rows. -/
structure RouteTable where
  rows : List RouteRow
  total_cost : ℚ
  total_length : ℚ
  deriving DecidableEq, Repr

/-- What `print_solution_statistics` prints with `verbosity > 1`, shared_cli.py 42-77: the statistics of the
solution, then the table of its routes. Simplified: both matrices are given. -/
def print_route_statistics (N : ℕ) (sol : List ℕ) (D Dc : ℕ → ℕ → ℚ) (d : ℕ → ℚ) (C L : Option ℚ) :
    Py (Stats × RouteTable) :=
  match print_solution_statistics N sol D Dc d C L true with
  | .error e => .error e
  | .ok s => .ok (s, ⟨(sol2routes sol).mapIdx fun i r => routeRow D Dc d C i r, twoDigits (objf sol Dc), twoDigits (objf sol D)⟩)

end Verif
