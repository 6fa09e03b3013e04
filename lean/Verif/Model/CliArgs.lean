import Verif.Model.Cli
import Verif.Model.NaturalSort

/-! # Model of the command line of the algorithms, `cli` of `verypy/shared_cli.py`

The arguments are lists of characters. The algorithm, the reading of a file and the random problem are parameters; what is printed
is a list of events. The logger is left out. -/

namespace Verif

/-- The options, shared_cli.py 245-251; `unknown` are the targets with a warning. -/
structure CaFlags where
  single : Bool := false
  timed : Bool := false
  verbosity : ℤ := 3
  minimize_K : Bool := false
  logfile : Option (List Char) := none
  best_of_n : ℕ := 1
  unknown : List (List Char) := []
  deriving DecidableEq, Repr

/-- `s.isdigit()` and then `int(s)`; nothing if it is no number. See shared_cli.py 254-257 and 276-277. -/
def caNumber (u : CharTable) (s : List Char) : Py (Option ℕ) :=
  if s ≠ [] ∧ ∀ c ∈ s, (digitOf u c).isSome then
    match intOfDigits u 0 s with
    | .ok n => .ok (some n)
    | .error e => .error e
  else .ok none

/-- `-v` and `-n`, which need a number behind them, shared_cli.py 254-257. -/
def caNumbers (u : CharTable) (f : CaFlags) (a b : List Char) : Py CaFlags :=
  if a = "-v".toList then
    match caNumber u b with
    | .error e => .error e
    | .ok none => .ok f
    | .ok (some n) => .ok { f with verbosity := n }
  else if a = "-n".toList then
    match caNumber u b with
    | .error e => .error e
    | .ok none => .ok f
    | .ok (some n) => .ok { f with best_of_n := n }
  else .ok f

/-- `-b`, shared_cli.py 264-271. -/
def caTarget (u : CharTable) (f : CaFlags) (b : List Char) : CaFlags :=
  let otarget := u.lower b
  if otarget = "cost".toList ∨ otarget = "c".toList then { f with minimize_K := false }
  else if otarget = "vehicles".toList ∨ otarget = "k".toList then { f with minimize_K := true }
  else { f with unknown := f.unknown ++ [otarget] }

/-- One place of the arguments with the next one, shared_cli.py 253-271. -/
def caFlag (u : CharTable) (f : CaFlags) (a b : List Char) : Py CaFlags :=
  match caNumbers u f a b with
  | .error e => .error e
  | .ok f =>
    let f := if a = "-1".toList then { f with single := true } else f
    let f := if a = "-t".toList then { f with timed := true } else f
    let f := if a = "-l".toList then { f with logfile := some b } else f
    .ok (if a = "-b".toList then caTarget u f b else f)

/-- The loop over the arguments, shared_cli.py 253-271. The last one is only looked at as the value of the one before. -/
def caScan (u : CharTable) : CaFlags → List (List Char) → Py CaFlags
  | f, a :: b :: t =>
    match caFlag u f a b with
    | .error e => .error e
    | .ok f => caScan u f (b :: t)
  | f, _ => .ok f

/-- What the program shows: the statistics of the random problem, a path that is no problem, the usage, and a file with the result of
`read_and_solve_a_problem`. See shared_cli.py 314-337. -/
inductive CaEvent where
  | random (s : Stats)
  | refused (p : List Char)
  | usage
  | solved (p : List Char) (r : BestOf)
  deriving DecidableEq, Repr

/-- The random problem is solved, shared_cli.py 286-314. There is no line about the quality of a run (the `1`). Without a solution
`print_solution_statistics(None, ...)` raises a `TypeError`. That a run was interrupted is forgotten. -/
def caRandom (i : CliInst) (minimize_K : Bool) (n : ℕ) (verbosity : ℤ) (runs : ℕ → RunOut) : Py Stats :=
  match bestOfLoop i minimize_K 1 verbosity runs (List.range n) none with
  | .error e => .error e
  | .ok (none, _) => .error .typeError
  | .ok (some (sol, _, _), _) => print_solution_statistics i.N sol i.D i.Dc i.d i.C i.L (decide (0 < verbosity))

/-- The files are solved one after the other, shared_cli.py 331-337; the flag tells that the interrupt of the user was raised. -/
def caFiles (read : List Char → Py CliInst) (algo : CliInst → Bool → Bool → ℕ → RunOut) (f : CaFlags) :
    List (List Char) → Py (List CaEvent × Bool)
  | [] => .ok ([], false)
  | p :: ps =>
    match read p with
    | .error e => .error e
    | .ok i =>
      match read_and_solve i f.minimize_K f.best_of_n f.verbosity (algo i f.single f.minimize_K) with
      | .error e => .error e
      | .ok (.interrupted shown) => .ok ([.solved p (.interrupted shown)], true)
      | .ok r =>
        match caFiles read algo f ps with
        | .error e => .error e
        | .ok (es, stop) => .ok (.solved p r :: es, stop)

/-- What is done with the last argument as a path, shared_cli.py 316-337. -/
def caPath (u : CharTable) (fs : FileSystem) (read : List Char → Py CliInst) (algo : CliInst → Bool → Bool → ℕ → RunOut)
    (f : CaFlags) (argv : List (List Char)) (p : List Char) : Py (List CaEvent × Bool) :=
  match searchPaths u fs [p] with
  | .error e => .error e
  | .ok (files, refused) =>
    let es := refused.map CaEvent.refused
    if files = [] ∨ "-h".toList ∈ argv ∨ "--help".toList ∈ argv then .ok (es ++ [.usage], false)
    else
      match caFiles read algo f files with
      | .error e => .error e
      | .ok (es', stop) => .ok (es ++ es', stop)

/-- `cli`, shared_cli.py 243-337; `gen` is the random problem for a number of customers, and the algorithm is given the problem, whether a
single iteration is asked for, and whether the vehicles count; it may end differently in each call. An empty list of arguments does
not exist. -/
def caCli (u : CharTable) (fs : FileSystem) (gen : ℕ → CliInst) (read : List Char → Py CliInst)
    (algo : CliInst → Bool → Bool → ℕ → RunOut) (argv : List (List Char)) : Py (List CaEvent × Bool) :=
  match argv.getLast? with
  | none => .error .indexError
  | some p =>
    match caScan u {} argv with
    | .error e => .error e
    | .ok f =>
      match caNumber u p with
      | .error e => .error e
      | .ok none => caPath u fs read algo f argv p
      | .ok (some N) =>
        match caRandom (gen N) f.minimize_K f.best_of_n f.verbosity (algo (gen N) f.single f.minimize_K) with
        | .error e => .error e
        | .ok st =>
          match caPath u fs read algo f argv p with
          | .error e => .error e
          | .ok (es, stop) => .ok (.random st :: es, stop)

end Verif
