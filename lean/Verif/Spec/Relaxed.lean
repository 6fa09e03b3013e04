import Verif.Spec.Star

/-!
# Specification of the relaxed problem of Stewart and Golden

The limits are not enforced. Each route pays for what it has too much, and a solution is judged by its cost and
these payments.
-/

namespace Verif.Spec

/-- By how much a value is over a limit. It counts only if it is over by more than the tolerance. -/
def overrun : Option ℚ → ℚ → ℚ → ℚ
  | none, _, _ => 0
  | some c, e, x => if c ≠ 0 ∧ c < x - e then x - c else 0

/-- What a route pays, with a price for the demand and a price for the route cost. -/
def penalty (D : ℕ → ℕ → ℚ) (d : ℕ → ℚ) (C L : Option ℚ) (pc pl : ℚ) (b : List ℕ) : ℚ :=
  pc * overrun C C_EPS (demand d b) + pl * overrun L S_EPS (cost D (wrap b))

/-- The payments of all routes of a solution. -/
def penalties (D : ℕ → ℕ → ℚ) (d : ℕ → ℚ) (C L : Option ℚ) (pc pl : ℚ) (sol : List ℕ) : ℚ :=
  ((blocks sol).map (penalty D d C L pc pl)).sum

/-- The objective of the relaxed problem. -/
def relaxed (D : ℕ → ℕ → ℚ) (d : ℕ → ℚ) (C L : Option ℚ) (pc pl : ℚ) (sol : List ℕ) : ℚ :=
  cost D sol + penalties D d C L pc pl sol

/-- Prices that fit the limits: a limit that counts has a price, limits and prices are not negative. -/
structure Priced (C L lc ll : Option ℚ) : Prop where
  cap : ∀ c, C = some c → 0 ≤ c ∧ (c ≠ 0 → lc ≠ none)
  len : ∀ c, L = some c → 0 ≤ c ∧ (c ≠ 0 → ll ≠ none)
  pc : ∀ x, lc = some x → 0 ≤ x
  pl : ∀ x, ll = some x → 0 ≤ x

end Verif.Spec
