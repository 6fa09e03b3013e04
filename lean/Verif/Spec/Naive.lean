import Verif.Spec.Moves

/-! # The neighbourhoods of solutions that the naive operators search -/

namespace Verif.Spec

/-- Two or more customers in a row are visited in the reverse order. -/
def NbReverse (sol sol' : List ℕ) : Prop :=
  ∃ A B E : List ℕ, A ≠ [] ∧ E ≠ [] ∧ 2 ≤ B.length ∧ (∀ x ∈ B, x ≠ 0) ∧ sol = A ++ B ++ E ∧ sol' = A ++ B.reverse ++ E

/-- A customer is taken out and put anywhere between the first and the last visit. -/
def NbMove (sol sol' : List ℕ) : Prop :=
  ∃ A E A' E' : List ℕ, ∃ n, n ≠ 0 ∧ A ≠ [] ∧ E ≠ [] ∧ A' ≠ [] ∧ E' ≠ [] ∧ sol = A ++ n :: E ∧ A ++ E = A' ++ E' ∧ sol' = A' ++ n :: E'

/-- Two customers swap their places. -/
def NbSwap (sol sol' : List ℕ) : Prop :=
  ∃ A M E : List ℕ, ∃ n m, n ≠ 0 ∧ m ≠ 0 ∧ sol = A ++ n :: (M ++ m :: E) ∧ sol' = A ++ m :: (M ++ n :: E)

/-- What holds of two solutions if no customer is lost and none is added. -/
structure SameVisits (sol sol' : List ℕ) : Prop where
  ends : DepotEnds sol'
  perm : sol'.Perm sol

/-- What becomes of a route when each route is improved on its own: it is replaced by a neighbour within the limits that is shorter by more than the
tolerance (and if `best`, such that no other is shorter by more than the tolerance), or it stays if there is no such neighbour. -/
def RouteStep (D : ℕ → ℕ → ℚ) (d : ℕ → ℚ) (C L : Option ℚ) (Nb : List ℕ → List ℕ → Prop) (best : Bool) (b b' : List ℕ) : Prop :=
  (b' = b ∧ ∀ w, Nb (wrap b) w → Feasible D d C L w → ¬ cost D w + S_EPS < cost D (wrap b)) ∨
  (Nb (wrap b) (wrap b') ∧ Feasible D d C L (wrap b') ∧ cost D (wrap b') + S_EPS < cost D (wrap b) ∧
    (best = true → ∀ w, Nb (wrap b) w → Feasible D d C L w → ¬ cost D w + S_EPS < cost D (wrap b')))

/-- What an operator that improves each route on its own should answer for the solution with the given routes. -/
def EachRouteOk (D : ℕ → ℕ → ℚ) (d : ℕ → ℚ) (C L : Option ℚ) (Nb : List ℕ → List ℕ → Prop) (best : Bool) (bs : List (List ℕ)) :
    Option (List ℕ × ℚ) → Prop
  | some (sol', delta) => ∃ bs', sol' = tour bs' ∧ List.Forall₂ (RouteStep D d C L Nb best) bs bs' ∧
      cost D sol' = cost D (tour bs) + delta ∧ delta + S_EPS < 0
  | none => ∀ b ∈ bs, ∀ w, Nb (wrap b) w → Feasible D d C L w → ¬ cost D w + S_EPS < cost D (wrap b)

end Verif.Spec
