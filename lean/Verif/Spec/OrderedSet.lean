import Verif.Model.OrderedDictSet

/-! # Specification of an insertion-ordered set

The state is just the list of distinct elements in the order they were (first) added. -/

namespace Verif.Spec.OSet
open ODS

/-- Effect of an operation on the abstract ordered set. -/
def next (l : List ℕ) : Op → List ℕ
  | .add e => if e ∈ l then l else l ++ [e]
  | .remove e => l.filter (· ≠ e)
  | .diff c => l.filter (· ∉ c)
  | _ => l

/-- What an operation on the abstract ordered set returns. -/
def out (l : List ℕ) : Op → Obs
  | .add _ => .unit
  | .remove e => if e ∈ l then .unit else .keyError
  | .diff _ => .unit
  | .get i =>
    let k := if 0 ≤ i then i else i + l.length
    .item (if h : 0 ≤ k ∧ k.toNat < l.length then .ok (l[k.toNat]'h.2) else .error .indexError)
  | .iter => .list l
  | .len => .num l.length
  | .mem e => .bool (decide (e ∈ l))

/-- Observations of a history on the abstract ordered set. -/
def run (l : List ℕ) : List Op → List Obs
  | [] => []
  | op :: ops => out l op :: run (next l op) ops

/-- The abstract state after a history. -/
def after (l : List ℕ) (ops : List Op) : List ℕ := ops.foldl next l

/-- The elements of a collection without repetitions, first occurrences kept. -/
def ofList : List ℕ → List ℕ
  | [] => []
  | a :: t => a :: (ofList t).filter (· ≠ a)

/-- The operation is not an addition of an element that already is there, and not an indexing of
the empty set. -/
def Benign (l : List ℕ) : Op → Prop
  | .add e => e ∉ l
  | .get _ => l ≠ []
  | _ => True

/-- Every operation of the history is benign when it is executed. -/
def AllBenign (l : List ℕ) : List Op → Prop
  | [] => True
  | op :: ops => Benign l op ∧ AllBenign (next l op) ops

/-- The operation does not index. -/
def NoGet : Op → Prop
  | .get _ => False
  | _ => True

end Verif.Spec.OSet
