import Verif.Spec.Construct

/-! # Specification vocabulary of the partition of a giant tour -/

namespace Verif.Spec

/-- The route through the nodes of a segment that a routine makes when the nodes are given to it one at a
time, each one after the last visit of the route so far, and its cost. -/
def grown (popt : List ℕ → List ℕ × ℚ) (u : List ℕ) : List ℕ × ℚ :=
  u.foldl (fun r v => popt (r.1.dropLast ++ [v])) ([0, 0], 0)

/-- The route of the segment keeps the limits. -/
def SegmentOk (d : ℕ → ℚ) (C L : Option ℚ) (popt : List ℕ → List ℕ × ℚ) (u : List ℕ) : Prop :=
  Within C C_EPS (demand d u) ∧ Within L S_EPS (grown popt u).2

/-- The segments are met one after another when driving the closed tour `g` around once, from some node
on. -/
def Segments (g : List ℕ) (us : List (List ℕ)) : Prop := [] ∉ us ∧ ∃ k, us.flatten = g.rotate k

/-- The cost of a partition, with a price for each route. -/
def segmentsCost (popt : List ℕ → List ℕ × ℚ) (const : ℚ) (us : List (List ℕ)) : ℚ :=
  (us.map fun u => (grown popt u).2 + const).sum

/-- A routine that makes a closed route from the depot no longer. -/
def RouteImprover (D : ℕ → ℕ → ℚ) (ropt : List ℕ → List ℕ × ℚ) : Prop :=
  ∀ w : List ℕ, w ≠ [] → (0 :: w).Nodup → ∃ u, u.Perm w ∧ ropt (wrap w) = (wrap u, cost D (wrap u)) ∧
    cost D (wrap u) ≤ cost D (wrap w)

/-- Adding a node to a segment does not make its route shorter. -/
def GrowsLonger (popt : List ℕ → List ℕ × ℚ) : Prop :=
  ∀ u v, (0 :: (u ++ [v])).Nodup → (grown popt u).2 ≤ (grown popt (u ++ [v])).2

/-- The giant tour is given by its customers in order, with or without the first one repeated at the
end. -/
def GiantTour (g tour : List ℕ) : Prop := tour = g ∨ tour = g ++ g.head?.toList

/-- A routine that finds the shortest route. -/
def Exact (D : ℕ → ℕ → ℚ) (popt : List ℕ → List ℕ × ℚ) : Prop :=
  ∀ t u : List ℕ, u.Perm t → (popt (0 :: t)).2 ≤ cost D (wrap u)

end Verif.Spec
