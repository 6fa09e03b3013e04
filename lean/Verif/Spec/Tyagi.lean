import Verif.Spec.Construct
import Verif.Spec.GroupMoves

/-! # What the interchange of Tyagi is for -/

namespace Verif.Spec

/-- A group `v` in the place of `u`: it keeps the limits and has more demand or, without a capacity, is
shorter. -/
def BetterGroup (D : ℕ → ℕ → ℚ) (d : ℕ → ℚ) (C L : Option ℚ) (u v : List ℕ) : Prop :=
  RouteOk D d C L v ∧ ((InUse C ∧ demand d u < demand d v) ∨
    (¬ InUse C ∧ InUse L ∧ cost D (wrap v) < cost D (wrap u)))

/-- The mean demand of the groups. -/
def meanDemand (d : ℕ → ℚ) (us : List (List ℕ)) : ℚ := (us.map (demand d)).sum / us.length

/-- The variance of the demands of the groups. -/
def varDemand (d : ℕ → ℚ) (us : List (List ℕ)) : ℚ :=
  (us.map fun u => (demand d u - meanDemand d us) ^ 2).sum / us.length

/-- The first of two pairs comes before the second one, compared from the left. -/
def PairLt (a b : ℚ × ℚ) : Prop := a.1 < b.1 ∨ (a.1 = b.1 ∧ a.2 < b.2)

end Verif.Spec
