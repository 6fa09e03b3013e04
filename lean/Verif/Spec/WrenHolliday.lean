import Verif.Spec.GroupMoves

/-! # Specification of the complain procedure -/

namespace Verif.Spec

/-- The customers on a route: what is between its ends. -/
def interior (r : List ℕ) : List ℕ := r.tail.dropLast

/-- All the customers on the routes. -/
def served (rds : List RouteData) : List ℕ := rds.flatMap fun rd => interior rd.route

/-- A record of a route from the depot to the depot that tells the truth. -/
def GoodRd (D : ℕ → ℕ → ℚ) (d : Option (ℕ → ℚ)) (C : Option ℚ) (rd : RouteData) : Prop :=
  (∃ cs, rd.route = wrap cs) ∧ Book D d C rd

/-- A route respects both of the limits. -/
def Fits (D : ℕ → ℕ → ℚ) (d : Option (ℕ → ℚ)) (C L : Option ℚ) (r : List ℕ) : Prop :=
  FitsC d C C_EPS r ∧ FitsL D L S_EPS r

/-- There is no place for the customer `m` on the route. -/
def NoFit (D : ℕ → ℕ → ℚ) (d : Option (ℕ → ℚ)) (C L : Option ℚ) (m : ℕ) (r : List ℕ) : Prop :=
  ∀ E F, E ≠ [] → F ≠ [] → r = E ++ F → ¬ Fits D d C L (E ++ [m] ++ F)

/-- On the route `rs[k]`, `A ++ [m] ++ B`, the customer `m` can be replaced by `n`. -/
def CanReplace (D : ℕ → ℕ → ℚ) (d : Option (ℕ → ℚ)) (C L : Option ℚ) (rs : List (List ℕ)) (n k : ℕ)
    (A : List ℕ) (m : ℕ) (B : List ℕ) : Prop :=
  rs[k]? = some (A ++ [m] ++ B) ∧ A ≠ [] ∧ B ≠ [] ∧ Fits D d C L (A ++ [n] ++ B)

/-- What replacing `m` by `n` costs. -/
def replaceDelta (D : ℕ → ℕ → ℚ) (n : ℕ) (A : List ℕ) (m : ℕ) (B : List ℕ) : ℚ :=
  cost D (A ++ [n] ++ B) - cost D (A ++ [m] ++ B)

/-- The customer `n` cannot be placed: none of the customers it could replace fits to another route. -/
def CannotPlace (D : ℕ → ℕ → ℚ) (d : Option (ℕ → ℚ)) (C L : Option ℚ) (rs : List (List ℕ)) (n : ℕ) : Prop :=
  ∀ k A m B, CanReplace D d C L rs n k A m B → ∀ j r, j ≠ k → rs[j]? = some r → NoFit D d C L m r

/-- With a capacity: nothing can be replaced by `n`, or a cheapest replacement has a customer with no
smaller demand. -/
def NotWorth (D : ℕ → ℕ → ℚ) (d : Option (ℕ → ℚ)) (C L : Option ℚ) (rs : List (List ℕ)) (n : ℕ) : Prop :=
  (∀ k A m B, ¬ CanReplace D d C L rs n k A m B) ∨
    ∃ k A m B, CanReplace D d C L rs n k A m B ∧ (∀ f, d = some f → f n ≤ f m) ∧
      ∀ k' A' m' B', CanReplace D d C L rs n k' A' m' B' → replaceDelta D n A m B ≤ replaceDelta D n A' m' B'

end Verif.Spec
