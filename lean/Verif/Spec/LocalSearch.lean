import Verif.Spec.GroupMoves
import Verif.Model.LocalSearch

/-! # Specification of the local search -/

namespace Verif.Spec

/-- The records after the changes. -/
def changed (rds : List RouteData) (res : Changes) : List RouteData :=
  res.foldl (fun l c => l.set c.1 c.2) rds

/-- Total cost of the routes of the records. -/
def totalR (D : ℕ → ℕ → ℚ) (rds : List RouteData) : ℚ := total D (rds.map (·.route))

/-- The contract of an operator, relative to a property `Inv` of the routes of a solution: on any group
of different non-empty routes of a solution with the property it answers, and what it finds keeps the
property and changes the total cost by exactly the delta, an improvement. -/
def OpOk (D : ℕ → ℕ → ℚ) (Inv : List RouteData → Prop) (st : LSOPT) (op : LsOp) : Prop :=
  ∀ rds, Inv rds → ∀ ris : List ℕ, ris.Nodup → ris.length = op.count →
    (∀ ri ∈ ris, ∃ rd, rds[ri]? = some rd ∧ 2 < rd.route.length) →
    ∃ o, callOp op rds ris st = .ok o ∧ ∀ rds' delta, o = some (rds', delta) →
      rds'.length = ris.length ∧ Inv (changed rds (ris.zip rds')) ∧
      totalR D (changed rds (ris.zip rds')) = totalR D rds + delta ∧ delta + S_EPS < 0

/-- The operator finds nothing on any group of different non-empty routes (in increasing order, if it
does not care about the order). -/
def OpOptimal (st : LSOPT) (rds : List RouteData) (op : LsOp) : Prop :=
  ∀ ris : List ℕ, ris.Nodup → ris.length = op.count →
    (∀ ri ∈ ris, ∃ rd, rds[ri]? = some rd ∧ 2 < rd.route.length) →
    (op.sensitive = true ∨ ris.Pairwise (· ≤ ·)) → callOp op rds ris st = .ok none

/-- Operators with the same identity are the same. -/
def Distinct (ops : List LsOp) : Prop := ∀ a ∈ ops, ∀ b ∈ ops, a.name = b.name → a = b

/-- A route from depot to depot that does not visit the depot in between. -/
def Depots (r : List ℕ) : Prop := ∃ b, r = wrap b ∧ 0 ∉ b

/-- What the search keeps, compared to the initial routes `R0`: all the visits, the number of routes, the
form of the routes, the property `B` of the records, and the limits if they hold initially. -/
def Sound (D : ℕ → ℕ → ℚ) (d : Option (ℕ → ℚ)) (C L : Option ℚ) (B : RouteData → Prop)
    (R0 : List (List ℕ)) (rds : List RouteData) : Prop :=
  (rds.map (·.route)).flatten.Perm R0.flatten ∧ rds.length = R0.length ∧
    (∀ rd ∈ rds, Depots rd.route ∧ B rd) ∧
    (FitsAll D d C L C_EPS S_EPS R0 → FitsAll D d C L C_EPS S_EPS (rds.map (·.route)))

end Verif.Spec
