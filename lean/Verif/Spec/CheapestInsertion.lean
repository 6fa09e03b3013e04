import Verif.Spec.Construct
import Verif.Model.CheapestInsertion

/-! # Specification vocabulary of the cheapest insertion heuristic -/

namespace Verif.Spec

/-- The order of the keys of the heap. -/
def keyLe (a b : ℚ × ℚ × ℚ) : Prop :=
  a.1 < b.1 ∨ (a.1 = b.1 ∧ (a.2.1 < b.2.1 ∨ (a.2.1 = b.2.1 ∧ a.2.2 ≤ b.2.2)))

instance (a b : ℚ × ℚ × ℚ) : Decidable (keyLe a b) := by unfold keyLe; infer_instance

/-- The insertion can be made: the customer is not routed, the two nodes are still neighbours, the limits
hold, and (unless only the number of routes matters) it is no worse than a route of its own. -/
structure Usable (D : ℕ → ℕ → ℚ) (d : ℕ → ℚ) (C L : Option ℚ) (minimize_K : Bool) (rd : CIRoute)
    (unrouted : List ℕ) (ins : Ins) : Prop where
  free : ins.customer ∈ unrouted
  neighbours : ∃ l r, rd.route = l ++ ins.after :: ins.before :: r
  capacity : Within C C_EPS (rd.used + d ins.customer)
  saving : minimize_K = false → ins.cost_delta ≤ D 0 ins.customer + D ins.customer 0
  length : Within L S_EPS (rd.cost + ins.cost_delta)

/-- What it adds to the cost of a route to put `c` between the neighbours `a` and `b`. -/
def detour (D : ℕ → ℕ → ℚ) (a c b : ℕ) : ℚ := D a c + D c b - D a b

/-- The customer `c` can be put between the neighbours `a` and `b` of the route with the customers `u`. -/
structure InsertionFits (D : ℕ → ℕ → ℚ) (d : ℕ → ℚ) (C L : Option ℚ) (minimize_K : Bool) (u : List ℕ) (a c b : ℕ) :
    Prop where
  neighbours : ∃ A B, wrap u = A ++ a :: b :: B
  capacity : Within C C_EPS (demand d u + d c)
  saving : minimize_K = false → detour D a c b ≤ D 0 c + D c 0
  length : Within L S_EPS (cost D (wrap u) + detour D a c b)

/-- What the heuristic minimises: the greatest strain, then its second part, then what is added compared to
a route for the customer alone. -/
def insKey (D : ℕ → ℕ → ℚ) (strain : ℕ → ℕ → ℕ → ℚ × ℚ) (a c b : ℕ) : ℚ × ℚ × ℚ :=
  (-(strain a c b).1, (strain a c b).2, detour D a c b - D 0 c - D c 0)

end Verif.Spec
