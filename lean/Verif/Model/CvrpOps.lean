import Verif.Model.Util
import Mathlib.Data.Rat.Floor

/-! # Model of `verypy/cvrp_ops.py` -/

namespace Verif

/-! ## normalize_solution -/

/-- `_list_trim(l, 0)`, cvrp_ops.py 33-40. The two `while ... del` loops are `dropWhile` from both
ends. -/
def list_trim (l : List ℕ) : List ℕ :=
  ((l.dropWhile (· == 0)).reverse.dropWhile (· == 0)).reverse

/-- `_list_split(l, 0)`, cvrp_ops.py 42-44. -/
def list_split (l : List ℕ) : List (List ℕ) :=
  ((pyGroupby (fun x => decide (x = 0)) l).filter (fun kg => !kg.1)).map (·.2)

/-- Python's `<=` of lists of integers: lexicographic, a proper prefix is smaller. See cvrp_ops.py 68. -/
def lexLe : List ℕ → List ℕ → Bool
  | [], _ => true
  | _ :: _, [] => false
  | a :: s, b :: t => decide (a < b) || (decide (a = b) && lexLe s t)

/-- Insertion into a sorted list, for `list.sort()`. See cvrp_ops.py 68. -/
def lexInsert (x : List ℕ) : List (List ℕ) → List (List ℕ)
  | [] => [x]
  | y :: t => if lexLe x y then x :: y :: t else y :: lexInsert x t

/-- `nroutes.sort()` on lists of integers. Equal lists can not be told apart so any sorting method
models it. See cvrp_ops.py 68. -/
def lexSort : List (List ℕ) → List (List ℕ)
  | [] => []
  | x :: t => lexInsert x (lexSort t)

/-- The body of the loop of cvrp_ops.py 61-65. -/
def orient (route : List ℕ) : Py (List ℕ) := do
  let last ← idxNeg route 1
  let first ← idx route 0
  if last < first then pure route.reverse else pure route

/-- The loop of cvrp_ops.py 61-65. -/
def orientAll : List (List ℕ) → Py (List (List ℕ))
  | [] => pure []
  | r :: t => do
    let r' ← orient r
    let t' ← orientAll t
    pure (r' :: t')

/-- cvrp_ops.py 59-74: everything after `routes` is known. -/
def normalize_tail (routes : List (List ℕ)) : Py (List ℕ) := do
  let nroutes ← orientAll routes
  pure (0 :: (lexSort nroutes).flatMap (fun nroute => nroute ++ [0]))

/-- `normalize_solution(sol)` for a giant tour, cvrp_ops.py 46-74. `sol[0]` raises on an empty
list. -/
def normalize_solution (sol : List ℕ) : Py (List ℕ) := do
  let _ ← idx sol 0
  normalize_tail (list_split sol)

/-- `normalize_solution(sol)` for a list of routes, cvrp_ops.py 46-74. -/
def normalize_routes (sol : List (List ℕ)) : Py (List ℕ) := do
  let _ ← idx sol 0
  normalize_tail (sol.map list_trim)

/-! ## validate_solution_feasibility -/

/-- The coverage test of one visit, cvrp_ops.py 124-130 and 146-152 (the same code twice). The
state is the list `covering` and the flag `covering_feasibility`. -/
def coverVisit (node : ℕ) (s : List ℕ × Bool) : Py (List ℕ × Bool) := do
  let x ← idx s.1 node
  if x ≠ 0 then
    if node ≠ 0 then pure (s.1, false) else pure s
  else do
    let cov ← setIdx s.1 node 1
    pure (cov, s.2)

/-- `d[node]` where `d` may be `None`. See cvrp_ops.py 133 and 156. -/
def demandOf (d : Option (ℕ → ℚ)) (node : ℕ) : Py ℚ :=
  match d with
  | none => .error .typeError
  | some d => .ok (d node)

/-- State of the first loop of the validator. See cvrp_ops.py 111-122. -/
structure VState1 where
  cov : List ℕ × Bool
  tail_c : ℚ
  tail_l : ℚ
  prev_node : ℕ

/-- The loop of cvrp_ops.py 123-140. Also returns the rest of the solution if it was left by the
`break`. -/
def validateLoop1 (D : ℕ → ℕ → ℚ) (d : Option (ℕ → ℚ)) (C L : Option ℚ) :
    List ℕ → VState1 → Py (VState1 × Option (List ℕ))
  | [], s => pure (s, none)
  | node :: t, s => do
    let cov ← coverVisit node s.cov
    let s := { s with cov := cov }
    let s ← if truthy C then do
        let dn ← demandOf d node
        pure { s with tail_c := s.tail_c + dn }
      else pure s
    let s := if truthy L then { s with tail_l := s.tail_l + D s.prev_node node, prev_node := node }
      else s
    if node = 0 then pure (s, some t) else validateLoop1 D d C L t s

/-- State of the second loop of the validator. See cvrp_ops.py 142-143. -/
structure VState2 where
  cov : List ℕ × Bool
  capacity_ok : Bool
  cost_ok : Bool
  c : ℚ
  l : ℚ
  prev_node : ℕ

/-- The loop of cvrp_ops.py 145-172. -/
def validateLoop2 (D : ℕ → ℕ → ℚ) (d : Option (ℕ → ℚ)) (C L : Option ℚ) :
    List ℕ → VState2 → Py VState2
  | [], s => pure s
  | node :: t, s => do
    let cov ← coverVisit node s.cov
    let s := { s with cov := cov }
    let s ← if truthy C then
        if node ≠ 0 then do
          let dn ← demandOf d node
          pure { s with c := s.c + dn }
        else if exceeds C C_EPS s.c then pure { s with capacity_ok := false }
        else pure s
      else pure s
    let s := if truthy L then
        let s := { s with l := s.l + D s.prev_node node, prev_node := node }
        if node = 0 ∧ exceeds L S_EPS s.l = true then { s with cost_ok := false } else s
      else s
    let s := if node = 0 then { s with c := 0, l := 0 } else s
    validateLoop2 D d C L t s

/-- `validate_solution_feasibility`, cvrp_ops.py 85-191. `N` is `len(D)`. Returns the triple of
covering, capacity and route cost feasibility. If there is no depot visit `start_node` stays -1 and
the second loop scans the whole solution again. -/
def validate_solution_feasibility (N : ℕ) (solution : List ℕ) (D : ℕ → ℕ → ℚ)
    (d : Option (ℕ → ℚ)) (C L : Option ℚ) : Py (Bool × Bool × Bool) := do
  let prev_node ← idxNeg solution 1
  let (s1, rest) ← validateLoop1 D d C L solution
    ⟨(List.replicate N 0, true), 0, 0, prev_node⟩
  let rest := match rest with
    | some r => r
    | none => solution
  let s2 ← validateLoop2 D d C L rest ⟨s1.cov, true, true, 0, 0, s1.prev_node⟩
  let covering_ok := if s2.cov.1.sum ≠ N then false else s2.cov.2
  let capacity_ok := if exceeds C C_EPS (s2.c + s1.tail_c) then false else s2.capacity_ok
  let cost_ok := if exceeds L S_EPS (s2.l + s1.tail_l) then false else s2.cost_ok
  pure (covering_ok, capacity_ok, cost_ok)

/-! ## recalculate_objective -/

/-- `sum(D[r[i-1],r[i]] for i in range(1,len(r)))`, cvrp_ops.py 211 and 219. -/
def pairSum (D : ℕ → ℕ → ℚ) (r : List ℕ) : ℚ := (List.zipWith D r r.tail).sum

/-- `recalculate_objective(sol, D)` for a giant tour, cvrp_ops.py 217-221. -/
def recalculate_objective (sol : List ℕ) (D : ℕ → ℕ → ℚ) : Py ℚ := do
  let first ← idx sol 0
  let last ← idxNeg sol 1
  pure (pairSum D sol + D last first)

/-- `recalculate_objective(sol, D)` for a list of routes, cvrp_ops.py 207-216, the loop. -/
def recalcLoop (D : ℕ → ℕ → ℚ) : List (List ℕ) → ℚ → Py ℚ
  | [], f => pure f
  | route :: t, f => do
    let f := f + pairSum D route
    let first ← idx route 0
    let f := if first ≠ 0 then f + D 0 first else f
    let last ← idxNeg route 1
    let f := if last ≠ 0 then f + D last 0 else f
    recalcLoop D t f

/-- `recalculate_objective(sol, D)` for a list of routes, cvrp_ops.py 207-216. -/
def recalculate_objective_routes (sol : List (List ℕ)) (D : ℕ → ℕ → ℚ) : Py ℚ := do
  let _ ← idx sol 0
  recalcLoop D sol 0

/-! ## D2D_c -/

/-- The element type of the numpy matrix. See cvrp_ops.py 239. -/
inductive DType where
  | int
  | float
  deriving DecidableEq, Repr

/-- `int(x)` and the conversion of a number to an integer dtype: truncation towards zero. See cvrp_ops.py 239. -/
def truncQ (x : ℚ) : ℚ := if 0 ≤ x then (⌊x⌋ : ℚ) else (⌈x⌉ : ℚ)

/-- `D.dtype.type(st)`. Exact rationals model the floats. See cvrp_ops.py 239. -/
def castTo (ty : DType) (st : ℚ) : ℚ :=
  match ty with
  | .int => truncQ st
  | .float => st

/-- `D2D_c(D, st)`, cvrp_ops.py 223-252. Both divisions are true divisions (`from __future__ import
division`). In the first branch the matrix becomes a float matrix, in the second it keeps its type;
all the added values are representable in either so no further rounding takes place. -/
def D2D_c (ty : DType) (D : ℕ → ℕ → ℚ) (st : ℚ) : Py (ℕ → ℕ → ℚ) :=
  if st = 0 then .error .valueError
  else
    let tst := castTo ty st
    let halftst := if tst ≠ st ∨ tst / 2 ≠ st / 2 then tst / 2 else truncQ (tst / 2)
    .ok (fun i j =>
      if i = j then 0
      else
        let x := D i j
        let x := if i ≠ 0 ∧ j ≠ 0 then x + tst else x
        let x := if i = 0 then x + halftst else x
        if j = 0 then x + halftst else x)

end Verif
