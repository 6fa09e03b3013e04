import Verif.Spec.Construct
import Mathlib.Analysis.SpecialFunctions.Complex.Arg

/-! # What the routes of a sweep are -/

namespace Verif.Spec

/-- The customers in the order in which one comes upon them when going around once from a position, forwards or backwards. -/
def around (fwd : Bool) (nodes : List ℕ) (start : ℕ) : List ℕ :=
  if fwd then nodes.drop start ++ nodes.take start else (nodes.take (start + 1)).reverse ++ (nodes.drop (start + 1)).reverse

/-- The list is cut to pieces, none of them empty, each within the capacity, and none of them could be longer. -/
structure LongestRuns (d : ℕ → ℚ) (C : Option ℚ) (order : List ℕ) (gs : List (List ℕ)) : Prop where
  flat : gs.flatten = order
  ne : [] ∉ gs
  fits : ∀ g ∈ gs, Within C C_EPS (demand d g)
  longest : ∀ l r g x g', gs = l ++ g :: (x :: g') :: r → ¬ Within C C_EPS (demand d g + d x)

/-- Two sets of customers interlace if, going around, one comes upon the first, the second, the first and the second again. -/
def Interlace (key : ℕ → ℝ) (g g' : List ℕ) : Prop :=
  ∃ a ∈ g, ∃ b ∈ g', ∃ c ∈ g, ∃ e ∈ g', key a < key b ∧ key b < key c ∧ key c < key e

/-- Seen from `p`, the point `q` is in the direction `φ`, from the x-axis and counterclockwise; the direction of the point itself is zero. -/
def SeenAt (p q : ℝ × ℝ) (φ : ℝ) : Prop :=
  -Real.pi < φ ∧ φ ≤ Real.pi ∧
    ((q = p ∧ φ = 0) ∨ ∃ r : ℝ, 0 < r ∧ q.1 = p.1 + r * Real.cos φ ∧ q.2 = p.2 + r * Real.sin φ)

end Verif.Spec
