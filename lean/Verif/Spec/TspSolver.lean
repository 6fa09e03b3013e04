import Verif.Model.TspGurobi
import Verif.Spec.Basic

/-! # Specification for C71: the contract of the solver, and what a tour of least cost is -/

namespace Verif.Spec

/-- What is asked of the values that the solver answers. There is a set of candidates at which it called the callback, the answer among
them. The values meet the constraints of the programme and all those that the callback added, and the objective is the least among all
values that meet them. -/
structure EdgeSolved (n : ℕ) (w : ℕ → ℕ → ℚ) (X : EdgeVars) : Prop where
  two : TwoEach n X
  best : ∃ Zs : EdgeVars → Prop, Zs X ∧ (∀ Z, Zs Z → TwoEach n Z) ∧ (∀ Z, Zs Z → KeepsCut n Z X) ∧
    ∀ Y, TwoEach n Y → (∀ Z, Zs Z → KeepsCut n Z Y) → edgeObj n w X ≤ edgeObj n w Y

/-- What is asked of the solver: it answers right whenever it answers. -/
def EdgeSolver (solver : ℕ → (ℕ → ℕ → ℚ) → EdgeAnswer) : Prop :=
  ∀ n w X, 4 ≤ n → solver n w = .values X → EdgeSolved n w X

/-- `sol` is a closed tour from `a` over the nodes `l` of the least cost. -/
def LeastTour (D : ℕ → ℕ → ℚ) (a : ℕ) (l sol : List ℕ) : Prop :=
  (∃ u, u.Perm l ∧ sol = a :: u ++ [a]) ∧ ∀ v, v.Perm l → cost D sol ≤ cost D (a :: v ++ [a])

end Verif.Spec
