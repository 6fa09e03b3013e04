import Verif.Spec.Construct

/-! # Specification vocabulary of the savings heuristic with matchings -/

namespace Verif.Spec

/-- The entries (weight and pair) that a list of yes and no selects. -/
def selected (es : List (ℚ × ℕ × ℕ)) (X : List Bool) : List (ℚ × ℕ × ℕ) :=
  (es.zip X).filterMap fun p => if p.2 then some p.1 else none

/-- The choice takes exactly one pair for each number that is the first of a pair. -/
def RowChoice (es : List (ℚ × ℕ × ℕ)) (X : List Bool) : Prop :=
  X.length = es.length ∧ ∀ e ∈ es, ((selected es X).filter fun f => decide (f.2.1 = e.2.1)).length = 1

/-- The total weight of the choice. -/
def weight (es : List (ℚ × ℕ × ℕ)) (X : List Bool) : ℚ := ((selected es X).map (·.1)).sum

/-- What is asked of the solver: a choice of the largest weight. -/
def SolvesRows (mmp : List (ℚ × ℕ × ℕ) → Option (List Bool)) : Prop :=
  ∀ es, es ≠ [] → ∃ X, mmp es = some X ∧ RowChoice es X ∧ ∀ Y, RowChoice es Y → weight es Y ≤ weight es X

/-- No number is in two of the pairs. -/
def IsMatching (es : List (ℚ × ℕ × ℕ)) : Prop := (es.flatMap fun e => [e.2.1, e.2.2]).Nodup

/-- No two sets of customers are served cheaper apart. -/
def Subadditive (N : ℕ) (tsp : List ℕ → List ℕ × ℚ) : Prop :=
  ∀ a b c : List ℕ, a ≠ [] → b ≠ [] → c.Perm (a ++ b) → (∀ x ∈ c, 1 ≤ x ∧ x < N) → c.Nodup →
    a.Pairwise (· < ·) → b.Pairwise (· < ·) → c.Pairwise (· < ·) →
    (tsp (0 :: c)).2 ≤ (tsp (0 :: a)).2 + (tsp (0 :: b)).2

/-- Any two sets of customers are served cheaper together. -/
def StrictlySubadditive (N : ℕ) (tsp : List ℕ → List ℕ × ℚ) : Prop :=
  ∀ a b c : List ℕ, a ≠ [] → b ≠ [] → c.Perm (a ++ b) → (∀ x ∈ c, 1 ≤ x ∧ x < N) → c.Nodup →
    a.Pairwise (· < ·) → b.Pairwise (· < ·) → c.Pairwise (· < ·) →
    (tsp (0 :: c)).2 < (tsp (0 :: a)).2 + (tsp (0 :: b)).2

/-- `c` is the set of the customers of `a` and `b`, and they fit into one route. -/
def Joint (d : ℕ → ℚ) (C L : Option ℚ) (tsp : List ℕ → List ℕ × ℚ) (a b c : List ℕ) : Prop :=
  c.Perm (a ++ b) ∧ c.Pairwise (· < ·) ∧ Within C C_EPS (demand d c) ∧ Within L S_EPS (tsp (0 :: c)).2

/-- What serving the sets together saves. -/
def gain (tsp : List ℕ → List ℕ × ℚ) (a b c : List ℕ) : ℚ := (tsp (0 :: a)).2 + (tsp (0 :: b)).2 - (tsp (0 :: c)).2

/-- Any two of the sets that fit into one route save at most `w` if they are joined. -/
def GainAtMost (d : ℕ → ℚ) (C L : Option ℚ) (tsp : List ℕ → List ℕ × ℚ) (sets : List (List ℕ)) (w : ℚ) : Prop :=
  ∀ a b c rest, sets.Perm (a :: b :: rest) → Joint d C L tsp a b c → gain tsp a b c ≤ w

/-- What the second criterion counts for an entry: the weights of the other entries that share a route with
it (an entry between the same two routes counts twice). -/
def otherWeight (es : List (ℚ × ℕ × ℕ)) (e : ℚ × ℕ × ℕ) : ℚ :=
  (es.map fun g => g.1 * (([g.2.1, g.2.2].count e.2.1 : ℚ) + ([g.2.1, g.2.2].count e.2.2 : ℚ))).sum - 2 * e.1

end Verif.Spec
