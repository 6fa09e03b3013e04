import Verif.Spec.ProblemFields

/-! # Specification vocabulary of problem files with coordinates -/

namespace Verif.Spec

/-- Blanks. -/
def Blanks (u : List Char) : Prop := ∀ c ∈ u, c = ' ' ∨ c = '\t'

/-- A text that `float` reads as `x`. -/
def Reads (float : List Char → Py ℚ) (w : List Char) (x : ℚ) : Prop := w ≠ [] ∧ (∀ c ∈ w, Plain c) ∧ float w = .ok x

/-- The kinds of distances that are calculated from coordinates. -/
def coordTypes : List (List Char) :=
  ["MAX_2D", "MAN_2D", "EXACT_2D", "CEIL_2D", "FLOOR_2D", "EUC_2D", "GEO", "ATT"].map String.toList

/-- What a line before the first section can say. -/
inductive HField where
  | dimension (n : ℕ) | capacity (c : ℤ) | weights (t : List Char) | type (t : List Char) | other

/-- A line `name: w`, with any blanks. -/
def Named (name w l : List Char) : Prop :=
  ∃ u v u' v', Blanks u ∧ Blanks v ∧ Blanks u' ∧ Blanks v' ∧ l = (u ++ name ++ v) ++ ':' :: (u' ++ w ++ v')

/-- The lines that say it. -/
def HField.Line : HField → List Char → Prop
  | .dimension n, l => Named "DIMENSION".toList (showNat n) l
  | .capacity c, l => Named "CAPACITY".toList (showInt c) l
  | .weights t, l => t ∈ coordTypes ∧ Named "EDGE_WEIGHT_TYPE".toList t l
  | .type t, l => (t = "CVRP".toList ∨ t = "TSP".toList) ∧ Named "TYPE".toList t l
  | .other, l => '\n' ∉ l ∧ ∃ a b, l = a ++ ':' :: b ∧ ':' ∉ a ∧
      ∀ name ∈ ["DIMENSION".toList, "CAPACITY".toList, "TYPE".toList, "EDGE_WEIGHT_FORMAT".toList], ¬ name <:+: a

/-- What is said last. -/
def lastDimension (fs : List HField) : Option ℕ := (fs.filterMap fun | .dimension x => some x | _ => none).getLast?
def lastCapacity (fs : List HField) : Option ℤ := (fs.filterMap fun | .capacity x => some x | _ => none).getLast?
def lastWeights (fs : List HField) : Option (List Char) := (fs.filterMap fun | .weights x => some x | _ => none).getLast?

/-- The line of a node with its coordinates. The number of the node can be any. -/
def CoordLine (float : List Char → Py ℚ) (p : ℚ × ℚ) (l : List Char) : Prop :=
  ∃ u i v w v' w' u', Blanks u ∧ Blanks v ∧ Blanks v' ∧ Blanks u' ∧ Reads float w p.1 ∧ Reads float w' p.2 ∧
    l = u ++ showNat i ++ ' ' :: (v ++ w ++ ' ' :: (v' ++ w' ++ u'))

/-- The line of a node with its demand. The number of the node can be any. -/
def DemandLine (float : List Char → Py ℚ) (x : ℚ) (l : List Char) : Prop :=
  ∃ u i v w u', Blanks u ∧ Blanks v ∧ Blanks u' ∧ Reads float w x ∧ l = u ++ showNat i ++ ' ' :: (v ++ w ++ u')

end Verif.Spec
