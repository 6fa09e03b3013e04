import Verif.Model.CvrpOps
import Verif.Model.Sort

/-! # The routines that call other programs for the travelling salesman problem

`tsp_solvers/tsp_solver_lkh.py`, `tsp_solvers/tsp_solver_acotsp.py` and `tsp_solvers/tsp_solver_fast.py`. The programs are parameters: what
they write is any list of lines. -/

namespace Verif

/-- A line of the file that LKH writes, without the blanks around it: an end mark (`EOF` or `-1`), a line with `Length = ` and a number,
`TOUR_SECTION`, a line that is a number, or another. Negative numbers other than -1 are not modelled. See tsp_solver_lkh.py 103-118. -/
inductive LkhLine where
  | stop
  | length (f : ℚ)
  | tours
  | node (k : ℕ)
  | other
  deriving DecidableEq, Repr

/-- The variables of the loop over the lines, tsp_solver_lkh.py 96-101. -/
structure LkhState where
  skip : Bool
  found : Bool
  sol : List ℕ
  tail : List ℕ
  f : ℚ
  deriving DecidableEq, Repr

/-- `selected_idxs[k-1]`; the number 0 reads the last one. See tsp_solver_lkh.py 109. -/
def lkhNode (idxs : List ℕ) (k : ℕ) : Py ℕ :=
  match (if k = 0 then idxs.getLast? else idxs[k - 1]?) with
  | some x => .ok x
  | none => .error .indexError

/-- One line, tsp_solver_lkh.py 103-118. `int(l)` raises for lines that are not numbers. -/
def lkhLine (idxs : List ℕ) (s : LkhState) : LkhLine → Py LkhState
  | .stop => .ok { s with skip := true }
  | .length f => .ok { s with f := f }
  | .tours => if s.skip then .ok { s with skip := false } else .error .valueError
  | .other => if s.skip then .ok s else .error .valueError
  | .node k =>
    if s.skip then .ok s else
    match lkhNode idxs k with
    | .error e => .error e
    | .ok x =>
      if x = 0 then .ok { s with tail := s.tail ++ [0], found := true, sol := s.sol ++ [0] }
      else if s.found then .ok { s with sol := s.sol ++ [x] }
      else .ok { s with tail := s.tail ++ [x] }

/-- The loop over the lines, tsp_solver_lkh.py 102-118. -/
def lkhLoop (idxs : List ℕ) : List LkhLine → LkhState → Py LkhState
  | [], s => .ok s
  | l :: ls, s =>
    match lkhLine idxs s l with
    | .error e => .error e
    | .ok s => lkhLoop idxs ls s

/-- The tour and the length read from the file, tsp_solver_lkh.py 95-121. -/
def lkhRead (idxs : List ℕ) (lines : List LkhLine) : Py (List ℕ × ℚ) :=
  match lkhLoop idxs lines ⟨true, false, [], [], 0⟩ with
  | .error e => .error e
  | .ok s =>
    if s.found then .ok (s.sol ++ s.tail, s.f) else
    match s.sol ++ s.tail with
    | [] => .error .indexError
    | x :: t => .ok (x :: t ++ [x], s.f)

/-- The sorted nodes, closed, tsp_solver_lkh.py 43-44 and tsp_solver_acotsp.py 66-67. -/
def sortedTour (idxs : List ℕ) : Py (List ℕ) :=
  match pySort (fun a b => decide (a ≤ b)) idxs with
  | [] => .error .indexError
  | x :: t => .ok (x :: t ++ [x])

/-- `solve_tsp_lkh`, tsp_solver_lkh.py 22-130. `lines` is what the program writes, `float` tells whether the matrix is one of floats, and
`acc` is the accuracy. Files are left out. -/
def solve_tsp_lkh (lines : List LkhLine) (float : Bool) (acc : ℚ) (D : ℕ → ℕ → ℚ) (idxs : List ℕ) : Py (List ℕ × ℚ) :=
  if idxs.length ≤ 3 then
    match sortedTour idxs with
    | .error e => .error e
    | .ok sol => .ok (sol, (List.zipWith (fun p n => truncQ (D p n)) sol sol.tail).sum)
  else
    match lkhRead idxs lines with
    | .error e => .error e
    | .ok (sol, f) => .ok (sol, if float then f / acc else f)

/-- `selected_idxs[int(pt)]`, tsp_solver_acotsp.py 118-119, for numbers that are not negative. -/
def acoNode (idxs : List ℕ) (i : ℕ) : Py ℕ :=
  match idxs[i]? with
  | some x => .ok x
  | none => .error .indexError

/-- One line with a tour in the output of ACOTSP: the nodes, from the first of those that were given. See tsp_solver_acotsp.py 118-122. -/
def acoLine (D : ℕ → ℕ → ℚ) (idxs : List ℕ) (tour : List ℕ) : Py (List ℕ × ℚ) :=
  match tour.mapM (acoNode idxs) with
  | .error e => .error e
  | .ok sol =>
    match idxs with
    | [] => .error .indexError
    | a :: _ =>
      if a ∈ sol then
        let sol := sol.drop (sol.idxOf a) ++ sol.take (sol.idxOf a) ++ [a]
        .ok (sol, objf sol D)
      else .error .valueError

/-- The loop over the lines with tours, tsp_solver_acotsp.py 111-129: the last one counts. Other lines have no effect on what is
returned. -/
def acoRead (D : ℕ → ℕ → ℚ) (idxs : List ℕ) : List (List ℕ) → Option (List ℕ × ℚ) → Py (Option (List ℕ × ℚ))
  | [], r => .ok r
  | t :: ts, _ =>
    match acoLine D idxs t with
    | .error e => .error e
    | .ok r => acoRead D idxs ts (some r)

/-- `solve_tsp_acotsp`, tsp_solver_acotsp.py 22-132. `tours` are the tours that the program prints. With ants the variable `nul_f` has no
value at line 98. -/
def solve_tsp_acotsp (tours : List (List ℕ)) (use_ants : Bool) (D : ℕ → ℕ → ℚ) (idxs : List ℕ) : Py (Option (List ℕ × ℚ)) :=
  if idxs.length ≤ 3 then
    match sortedTour idxs with
    | .error e => .error e
    | .ok sol => .ok (some (sol, objf sol D))
  else if use_ants then .error .nameError
  else acoRead D idxs tours none

/-- `solve_tsp_fast`, tsp_solver_fast.py 11-17, for three routines. -/
def solve_tsp_fast {α : Type} (ropt gurobi lkh : List ℕ → α) (idxs : List ℕ) : α :=
  if idxs.length < 5 then ropt idxs else if idxs.length < 20 then gurobi idxs else lkh idxs

end Verif
