import Verif.Model.Ropt
import Verif.Model.TspGurobi
import Verif.Model.TspExternal

/-! # Model of the command line of the routines for tours, `tsp_cli` of `verypy/shared_cli.py`

The words of the command line, the test whether one names a file, the reading of the file and the routine are parameters. What is printed
is a list of events. The time is left out. -/

namespace Verif

/-- What the call of a routine for tours ends with: a pair of a tour and its cost, each of which can be `None`, an exception, an interrupt
or a failed assertion. `stuck` is out of fuel. See shared_cli.py 232. -/
inductive TspCall where
  | pair (sol : Option (List ℕ)) (f : Option ℚ)
  | raised (e : PyErr)
  | interrupted
  | assertion
  | stuck
  deriving DecidableEq, Repr

/-- What is printed, shared_cli.py 234-235, 237, 238 and 241. -/
inductive TcEvent where
  | solved
  | solution (sol : List ℕ)
  | cost (q : ℚ)
  | usage
  deriving DecidableEq, Repr

/-- How the program ends: it runs to the end, an assertion fails, or there is an exception or an interrupt. See shared_cli.py 228-241. -/
inductive TcEnd where
  | normal
  | assertion
  | raised (e : PyErr)
  | interrupted
  | stuck
  deriving DecidableEq, Repr

/-- What follows the call of the routine, shared_cli.py 232-239. `objf(None, D)` raises a `TypeError`, util.py 54; a cost `None` is equal
to no number. -/
def tcShow (D : ℕ → ℕ → ℚ) : TspCall → List TcEvent × TcEnd
  | .raised e => ([], .raised e)
  | .interrupted => ([], .interrupted)
  | .assertion => ([], .assertion)
  | .stuck => ([], .stuck)
  | .pair none _ => ([.solved], .raised .typeError)
  | .pair (some sol) f =>
    let tsp_o := objf sol D
    ([.solved, .solution sol, .cost tsp_o], if f = some tsp_o then .normal else .assertion)

/-- `tsp_cli`, shared_cli.py 224-241. `argv` is `sys.argv`, with the name of the program as its first word; `read` gives the number of
nodes and the distances of a file. -/
def tsp_cli {W : Type} (argv : List W) (isfile : W → Bool) (read : W → Py (ℕ × (ℕ → ℕ → ℚ)))
    (tsp_f : (ℕ → ℕ → ℚ) → List ℕ → TspCall) : List TcEvent × TcEnd :=
  match argv with
  | [_, a] =>
    if isfile a then
      match read a with
      | .error e => ([], .raised e)
      | .ok (n, D) => tcShow D (tsp_f D (List.range n))
    else ([.usage], .normal)
  | _ => ([.usage], .normal)

/-- The call of `solve_tsp_ropt` with the defaults of its options, tsp_solver_ropt.py 21-22 and 60. -/
def tcRopt (fuel : ℕ) (D : ℕ → ℕ → ℚ) (idxs : List ℕ) : TspCall :=
  match solve_tsp_ropt fuel D idxs none true true with
  | .error e => .raised e
  | .ok none => .stuck
  | .ok (some (sol, f)) => .pair (some sol) (some f)

/-- The call of `solve_tsp_gurobi`, tsp_solver_gurobi.py 59-124. -/
def tcGurobi (solver : ℕ → (ℕ → ℕ → ℚ) → EdgeAnswer) (D : ℕ → ℕ → ℚ) (idxs : List ℕ) : TspCall :=
  match solve_tsp_gurobi solver D idxs with
  | .tour sol f => .pair (some sol) (some f)
  | .nothing => .pair none (some 0)
  | .timeout => .raised .gurobiError
  | .interrupted => .interrupted
  | .assertion => .assertion
  | .raised e => .raised e
  | .stuck => .stuck

/-- The call of `solve_tsp_lkh`, tsp_solver_lkh.py 22-130. `lkh` is what the program writes for the nodes. -/
def tcLkh (lkh : List ℕ → List LkhLine) (float : Bool) (acc : ℚ) (D : ℕ → ℕ → ℚ) (idxs : List ℕ) : TspCall :=
  match solve_tsp_lkh (lkh idxs) float acc D idxs with
  | .error e => .raised e
  | .ok (sol, f) => .pair (some sol) (some f)

/-- The call of `solve_tsp_acotsp` with the default of its option, without ants, tsp_solver_acotsp.py 22-132. `None, None` is returned if
no tour was printed. -/
def tcAcotsp (tours : List ℕ → List (List ℕ)) (D : ℕ → ℕ → ℚ) (idxs : List ℕ) : TspCall :=
  match solve_tsp_acotsp (tours idxs) false D idxs with
  | .error e => .raised e
  | .ok none => .pair none none
  | .ok (some (sol, f)) => .pair (some sol) (some f)

end Verif
