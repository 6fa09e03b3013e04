import Verif.Model.Py
import Mathlib.Data.Finset.Insert

/-! # The edges of a solution (util.py 93-104) -/

namespace Verif

/-- `sol2edgeset`, util.py 93-104. The steps are added from the last to the first, which makes no difference to a set. -/
def sol2edgeset (symmetric : Bool) : List ℕ → Finset (ℕ × ℕ)
  | [] => ∅
  | [_] => ∅
  | a :: b :: t => insert (if symmetric || decide (a < b) then (a, b) else (b, a)) (sol2edgeset symmetric (b :: t))

end Verif
