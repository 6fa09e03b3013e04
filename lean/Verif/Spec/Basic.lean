import Verif.Model.Py

/-!
# Specification vocabulary

Definitions used to state the properties. They do not use the model's own functions, only the
tolerances and the Python exception values of `Verif.Model.Py`.
-/

namespace Verif.Spec

/-- Cost of a sequence of visits: the sum of distances over consecutive pairs. -/
def cost (D : ℕ → ℕ → ℚ) : List ℕ → ℚ
  | [] => 0
  | [_] => 0
  | a :: b :: t => D a b + cost D (b :: t)

/-- Total demand of a sequence of visits. -/
def demand (d : ℕ → ℚ) : List ℕ → ℚ
  | [] => 0
  | a :: t => d a + demand d t

/-- Symmetric distance matrix. -/
def Symm (D : ℕ → ℕ → ℚ) : Prop := ∀ i j, D i j = D j i

/-- The customers (non-depot nodes) of a sequence in the order of the visits. -/
def customers (sol : List ℕ) : List ℕ := sol.filter (fun n => n ≠ 0)

/-- The routes of a giant tour without the depots: maximal runs of customers. -/
def blocks : List ℕ → List (List ℕ)
  | [] => []
  | n :: t =>
    if n = 0 then blocks t
    else
      match t.head?, blocks t with
      | some (_ + 1), b :: bs => (n :: b) :: bs
      | _, bs => [n] :: bs

/-- A route's customers with the depot at both ends. -/
def wrap (b : List ℕ) : List ℕ := 0 :: (b ++ [0])

/-- The giant tour made of the given customer sequences. -/
def tour : List (List ℕ) → List ℕ
  | [] => [0]
  | b :: bs => 0 :: (b ++ tour bs)

/-- Repeated depot visits removed: a depot directly followed by a depot is dropped. -/
def squeeze : List ℕ → List ℕ
  | [] => []
  | [n] => [n]
  | a :: b :: t => if a = 0 ∧ b = 0 then squeeze (b :: t) else a :: squeeze (b :: t)

/-- The solution starts and ends at the depot. -/
def DepotEnds (sol : List ℕ) : Prop := sol.head? = some 0 ∧ sol.getLast? = some 0

instance (sol : List ℕ) : Decidable (DepotEnds sol) := by unfold DepotEnds; infer_instance

/-- A value respects an optional limit up to a tolerance. A missing limit (or, as in Python, a
limit of zero) always holds. -/
def Within (lim : Option ℚ) (eps x : ℚ) : Prop := ∀ c, lim = some c → c ≠ 0 → x ≤ c + eps

/-- A single route given by its customers respects capacity and route cost limits. -/
def RouteOk (D : ℕ → ℕ → ℚ) (d : ℕ → ℚ) (C L : Option ℚ) (b : List ℕ) : Prop :=
  Within C C_EPS (demand d b) ∧ Within L S_EPS (cost D (wrap b))

/-- All routes of a solution respect the limits. -/
def Feasible (D : ℕ → ℕ → ℚ) (d : ℕ → ℚ) (C L : Option ℚ) (sol : List ℕ) : Prop :=
  ∀ b ∈ blocks sol, RouteOk D d C L b

/-- Every customer `1..N-1` is visited exactly once and nothing else is visited. -/
def Covers (N : ℕ) (sol : List ℕ) : Prop :=
  (customers sol).Perm (List.range' 1 (N - 1))

end Verif.Spec
