import Verif.Spec.Cli
import Verif.Model.RouteStats

/-! # Specification vocabulary of the table of the routes -/

namespace Verif.Spec

/-- The number of two digits that is nearest to `x`, of two the one with an even last digit. -/
def Nearest (x y : ℚ) : Prop := (∃ n : ℤ, y = n / 100) ∧ (∀ n : ℤ, |x - y| ≤ |x - n / 100|) ∧
  ∀ n : ℤ, y ≠ n / 100 → |x - y| = |x - n / 100| → ∃ k : ℤ, y = (2 * k : ℤ) / 100

/-- The table of the routes of a solution: a row for each route, in the order of the solution, numbered from one. Cost and
length are those of the route to two digits, the load is the demand of its customers, and is left out without a capacity. The
totals are those of the solution. -/
structure TableOf (D Dc : ℕ → ℕ → ℚ) (d : ℕ → ℚ) (C : Option ℚ) (sol : List ℕ) (t : RouteTable) : Prop where
  routes : t.rows.map RouteRow.route = (blocks sol).map wrap
  numbers : t.rows.map RouteRow.no = List.range' 1 (blocks sol).length
  cost : ∀ r ∈ t.rows, Nearest (cost Dc r.route) r.cost
  length : ∀ r ∈ t.rows, Nearest (Spec.cost D r.route) r.length
  load : ∀ r ∈ t.rows, ∀ x, r.load = some x ↔ x = demand d r.route ∧ ∃ c, C = some c ∧ c ≠ 0
  total_cost : Nearest (Spec.cost Dc sol) t.total_cost
  total_length : Nearest (Spec.cost D sol) t.total_length

end Verif.Spec
