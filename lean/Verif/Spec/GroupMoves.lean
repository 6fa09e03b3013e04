import Verif.Spec.Moves
import Verif.Model.RouteData

/-! # Specification of the moves between routes

As for the moves on a route the neighbourhoods are given by cutting routes into parts. -/

namespace Verif.Spec

/-- Total cost of routes. -/
def total (D : ℕ → ℕ → ℚ) (rs : List (List ℕ)) : ℚ := (rs.map (cost D)).sum

/-- A limit is in use: set and not zero. -/
def InUse (lim : Option ℚ) : Prop := ∃ c, lim = some c ∧ c ≠ 0

/-- The record tells the truth about its route: its cost and, if capacity matters, its demand. -/
def Book (D : ℕ → ℕ → ℚ) (d : Option (ℕ → ℚ)) (C : Option ℚ) (rd : RouteData) : Prop :=
  rd.cost = cost D rd.route ∧
    (InUse C → ∃ f, d = some f ∧ rd.demand = some (demand f rd.route))

/-- A route respects the capacity up to `e`. -/
def FitsC (d : Option (ℕ → ℚ)) (C : Option ℚ) (e : ℚ) (r : List ℕ) : Prop :=
  ∀ f, d = some f → Within C e (demand f r)

/-- A route respects the cost limit up to `e`. -/
def FitsL (D : ℕ → ℕ → ℚ) (L : Option ℚ) (e : ℚ) (r : List ℕ) : Prop := Within L e (cost D r)

/-- All the routes respect the limits, up to `eC` and `eL`. -/
def FitsAll (D : ℕ → ℕ → ℚ) (d : Option (ℕ → ℚ)) (C L : Option ℚ) (eC eL : ℚ)
    (rs : List (List ℕ)) : Prop := ∀ r ∈ rs, FitsC d C eC r ∧ FitsL D L eL r

/-- What an operator on a group of routes should answer: if it finds something, a neighbour with the
property `Feas`, records with the property `Rec`, the exact change of the total cost, below the bound
(and with `best` no such neighbour is better); if it finds nothing, there is nothing to find. -/
def GroupOkFor (D : ℕ → ℕ → ℚ) (Nb : List (List ℕ) → List (List ℕ) → Prop)
    (Feas : List (List ℕ) → Prop) (Rec : List RouteData → Prop) (best : Bool)
    (bound : ℚ) (rds : List RouteData) : Option (List RouteData × ℚ) → Prop
  | some (rds', delta) =>
    Nb (rds.map (·.route)) (rds'.map (·.route)) ∧ Feas (rds'.map (·.route)) ∧ Rec rds' ∧
    total D (rds'.map (·.route)) = total D (rds.map (·.route)) + delta ∧
    delta + S_EPS < bound ∧
    (best = true → ∀ rs'', Nb (rds.map (·.route)) rs'' → Feas rs'' →
      ¬ (total D rs'' - total D (rds.map (·.route)) + S_EPS < delta))
  | none => ∀ rs'', Nb (rds.map (·.route)) rs'' → Feas rs'' →
      ¬ (total D rs'' - total D (rds.map (·.route)) + S_EPS < bound)

/-- The same with true records. -/
def GroupOk (D : ℕ → ℕ → ℚ) (d : Option (ℕ → ℚ)) (C : Option ℚ)
    (Nb : List (List ℕ) → List (List ℕ) → Prop) (Feas : List (List ℕ) → Prop) (best : Bool)
    (bound : ℚ) (rds : List RouteData) (r : Option (List RouteData × ℚ)) : Prop :=
  GroupOkFor D Nb Feas (fun rds' => ∀ rd ∈ rds', Book D d C rd) best bound rds r

/-- The triangle inequality. -/
def Triangle (D : ℕ → ℕ → ℚ) : Prop := ∀ i j k, D i k ≤ D i j + D j k

/-- If a route becomes longer without a customer, the customer cannot be put elsewhere at a gain. True with the triangle inequality
and for distances that were rounded to whole numbers. -/
def MoveSafe (D : ℕ → ℕ → ℚ) : Prop :=
  ∀ a n b x y, D a b - D a n - D n b + (D x n + D n y - D x y) < 0 → D a b ≤ D a n + D n b

/-- No demand is negative. -/
def NonnegDemands (d : Option (ℕ → ℚ)) : Prop := ∀ f, d = some f → ∀ n, 0 ≤ f n

/-- The depot asks for nothing. -/
def DepotFree (d : Option (ℕ → ℚ)) : Prop := ∀ f, d = some f → f 0 = 0

/-- Nothing is lost or duplicated, the number of routes stays, and routes from depot to depot remain
such. -/
def Conserves (rs rs' : List (List ℕ)) : Prop :=
  rs'.flatten.Perm rs.flatten ∧ rs'.length = rs.length ∧
    ((∀ r ∈ rs, DepotEnds r) → ∀ r ∈ rs', DepotEnds r)

/-- One customer moves from the first route to the second. -/
def Nb1point (rs rs' : List (List ℕ)) : Prop :=
  ∃ A B E F : List ℕ, ∃ n, A ≠ [] ∧ B ≠ [] ∧ E ≠ [] ∧ F ≠ [] ∧
    rs = [A ++ [n] ++ B, E ++ F] ∧ rs' = [A ++ B, E ++ [n] ++ F]

/-- A customer of the first route and a customer of the second swap places. -/
def Nb2point (rs rs' : List (List ℕ)) : Prop :=
  ∃ A B E F : List ℕ, ∃ n m, A ≠ [] ∧ B ≠ [] ∧ E ≠ [] ∧ F ≠ [] ∧
    rs = [A ++ [n] ++ B, E ++ [m] ++ F] ∧ rs' = [A ++ [m] ++ B, E ++ [n] ++ F]

/-- A customer of the first route takes the place of one on the second, that goes to the third. -/
def NbChain (rs rs' : List (List ℕ)) : Prop :=
  ∃ A B E F G H : List ℕ, ∃ n m, A ≠ [] ∧ B ≠ [] ∧ E ≠ [] ∧ F ≠ [] ∧ G ≠ [] ∧ H ≠ [] ∧
    rs = [A ++ [n] ++ B, E ++ [m] ++ F, G ++ H] ∧
    rs' = [A ++ B, E ++ [n] ++ F, G ++ [m] ++ H]

/-- Each of the routes is cut and the parts are joined in one of the two other ways. -/
def Nb2optStar (rs rs' : List (List ℕ)) : Prop :=
  ∃ A B E F : List ℕ, A ≠ [] ∧ B ≠ [] ∧ E ≠ [] ∧ F ≠ [] ∧ rs = [A ++ B, E ++ F] ∧
    (rs' = [A ++ E.reverse, B.reverse ++ F] ∨ rs' = [A ++ F, B.reverse ++ E.reverse])

/-- The record `rd'` is `rd` with the customers `ns` inserted: the old visits keep their order, exactly
the new ones are added, and the record is true. The delta is exact. The capacity holds; the cost limit
holds if it did or if something was inserted. -/
def Inserted (D : ℕ → ℕ → ℚ) (d : Option (ℕ → ℚ)) (C L : Option ℚ) (ns : List ℕ) (rd rd' : RouteData)
    (delta : ℚ) : Prop :=
  rd.route.Sublist rd'.route ∧ rd'.route.Perm (ns ++ rd.route) ∧ DepotEnds rd'.route ∧
    Book D d C rd' ∧ cost D rd'.route = cost D rd.route + delta ∧ FitsC d C C_EPS rd'.route ∧
    (ns ≠ [] ∨ FitsL D L S_EPS rd.route → FitsL D L S_EPS rd'.route)

/-- The records `rds'` are `rds` with the customers `ns` inserted to some of them. -/
def Received (D : ℕ → ℕ → ℚ) (d : Option (ℕ → ℚ)) (C L : Option ℚ) (ns : List ℕ)
    (rds rds' : List RouteData) (delta : ℚ) : Prop :=
  List.Forall₂ (fun rd rd' => rd.route.Sublist rd'.route) rds rds' ∧
    (rds'.map (·.route)).flatten.Perm (ns ++ (rds.map (·.route)).flatten) ∧
    (∀ rd ∈ rds', DepotEnds rd.route ∧ Book D d C rd) ∧
    total D (rds'.map (·.route)) = total D (rds.map (·.route)) + delta ∧
    (FitsAll D d C L C_EPS S_EPS (rds.map (·.route)) →
      FitsAll D d C L C_EPS S_EPS (rds'.map (·.route)))

end Verif.Spec
