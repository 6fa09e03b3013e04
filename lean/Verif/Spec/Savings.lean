import Verif.Spec.Construct

/-! # Specification vocabulary of the variants of the savings algorithm -/

namespace Verif.Spec

/-- A list of savings `(value, minus the distance, i, j)`: each pair of customers once, with its value and
its distance, the larger values first, among equal values the shorter arcs, then the larger numbers. -/
structure Ranks (N : ℕ) (D val : ℕ → ℕ → ℚ) (l : List (ℚ × ℚ × ℕ × ℕ)) : Prop where
  each : ∀ i j, 1 ≤ i → i < j → j < N → (l.map (·.2.2)).count (i, j) = 1
  only : ∀ sv ∈ l, ∃ i j, 1 ≤ i ∧ i < j ∧ j < N ∧ sv = (val i j, -D i j, i, j)
  order : l.Pairwise fun a b => b.1 < a.1 ∨ (b.1 = a.1 ∧
    (D a.2.2.1 a.2.2.2 < D b.2.2.1 b.2.2.2 ∨ (D a.2.2.1 a.2.2.2 = D b.2.2.1 b.2.2.2 ∧
      (b.2.2.1 < a.2.2.1 ∨ (b.2.2.1 = a.2.2.1 ∧ b.2.2.2 < a.2.2.2)))))

/-- What the cost of a solution falls by when two routes are joined over an arc. -/
def saved (D : ℕ → ℕ → ℚ) (i j : ℕ) : ℚ := D i 0 + D 0 j - D i j

/-- The mean of the entries of the matrix. -/
def meanDist (N : ℕ) (D : ℕ → ℕ → ℚ) : ℚ :=
  ((List.range N).map fun i => ((List.range N).map (D i)).sum).sum / (N * N)

/-- No two different routes can be joined, in any direction, to a route within the limits. -/
def Unmergeable (D : ℕ → ℕ → ℚ) (d : ℕ → ℚ) (C L : Option ℚ) (sol : List ℕ) : Prop :=
  ∀ b ∈ blocks sol, ∀ c ∈ blocks sol, b ≠ c → ∀ b' c', Turned b b' → Turned c c' →
    ¬ RouteOk D d C L (b' ++ c')

/-- The criterion of Holmes and Parker when the pairs in `S` are suppressed: no negative values, and zero for
the suppressed pairs. -/
def suppressedValue (D : ℕ → ℕ → ℚ) (S : List (ℕ × ℕ)) (i j : ℕ) : ℚ :=
  if (i, j) ∈ S then 0 else max 0 (saved D i j)

/-- The parameters of the strategy M1 of Paessens: `g` from 0.8 to 2.0 and for each of them `f` from 0.0 to 1.0, both
in steps of 0.1. -/
def planM1 : List (ℚ × ℚ) := (List.range (13 * 11)).map fun k => ((8 + (k / 11 : ℕ)) / 10, ((k % 11 : ℕ) : ℚ) / 10)

/-- The first parameters of the strategy M4. -/
def planM4 : List (ℚ × ℚ) := [(1, 1 / 10), (1, 1 / 2), (7 / 5, 0), (7 / 5, 1 / 2)]

/-- The parameters a step of 0.1 away in each of the four directions. -/
def planAround (p : ℚ × ℚ) : List (ℚ × ℚ) := [(-1, 0), (1, 0), (0, -1), (0, 1)].map fun u => (p.1 + u.1 / 10, p.2 + u.2 / 10)

end Verif.Spec
