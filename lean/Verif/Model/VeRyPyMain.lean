import Verif.Model.Cli
import Verif.Model.Algorithms
import Mathlib.Data.List.Sort

/-! # Model of the start of `main` of `verypy/VeRyPy.py`: its command line, the list of the heuristics, the batch

The words of the command line are taken one by one: each option is a word, and its value, if it has one, the next
one. `argparse` also takes unique beginnings of the long options, several letters or a letter and its value in one
word, `--option=value` and `--`; these forms are refused here, which is a simplification. -/

namespace Verif

/-- The options without a value, VeRyPy.py 61, 65-67, 69-72, 74 and 75. -/
inductive VpFlag where
  | list | minimal | time | cost | single | iinfo | routes | vrph | recursive | simulate
  deriving DecidableEq, Repr

/-- The words for the options without a value, VeRyPy.py 61, 65-67, 69-72, 74 and 75. -/
def vpFlags : List (String × VpFlag) :=
  [("-l", .list), ("-m", .minimal), ("-t", .time), ("-c", .cost), ("-1", .single), ("--iinfo", .iinfo),
   ("--routes", .routes), ("--vrph", .vrph), ("--recursive", .recursive), ("--simulate", .simulate)]

/-- The options with a value, VeRyPy.py 62-64, 68, 73 and 78. -/
inductive VpKey where
  | verbosity | algorithm | objective | format | forbid | post
  deriving DecidableEq, Repr

/-- The words for the options with a value, VeRyPy.py 62-64, 68, 73 and 78. -/
def vpKeys : List (String × VpKey) :=
  [("-v", .verbosity), ("-a", .algorithm), ("-b", .objective), ("-D", .format), ("--forbid", .forbid),
   ("--post-optimize", .post)]

/-- `app_args`, VeRyPy.py 61-79: the options without a value that were set, the values (as words), the defaults. -/
structure VpArgs where
  on : List VpFlag := []
  verbosity : String := "-1"
  active : List String := []
  objective : String := "cost"
  format : Option String := none
  forbid : List String := []
  post : List String := []
  files : List String := []
  deriving DecidableEq, Repr

/-- How the parser ends: with the arguments, with a message about what is wrong (status 2), or with the help. -/
inductive VpParse where
  | args (a : VpArgs)
  | refused
  | help
  deriving DecidableEq, Repr

/-- The word begins like an option; a dash alone does not. As there is the option `-1`, a negative number does. See
VeRyPy.py 69 and 82. -/
def vpDash (w : String) : Bool := decide (w.toList.head? = some '-') && decide (w ≠ "-")

/-- A value is stored, VeRyPy.py 62-64, 68, 73 and 78, or refused because it is not among the choices. `isInt` tells
which words `int` takes. -/
def vpSet (isInt : String → Bool) (k : VpKey) (v : String) (a : VpArgs) : Option VpArgs :=
  match k with
  | .verbosity => if isInt v then some { a with verbosity := v } else none
  | .algorithm => some { a with active := a.active ++ [v] }
  | .objective => if v ∈ ["c", "cost", "K", "vehicles"] then some { a with objective := v } else none
  | .format => if v ∈ ["ROUND", "EXACT", "TRUNCATE"] then some { a with format := some v } else none
  | .forbid => some { a with forbid := a.forbid ++ [v] }
  | .post => if v ∈ ["2opt", "3opt"] then some { a with post := a.post ++ [v] } else none

/-- `parser.parse_args(words)`, VeRyPy.py 60-79, 82 and 91. The argument without an option is asked for exactly once
(`action='append'` does not change that). -/
def vpParse (isInt : String → Bool) : List String → VpArgs → VpParse
  | [], a => if a.files.length = 1 then .args a else .refused
  | w :: ws, a =>
    if !vpDash w then vpParse isInt ws { a with files := a.files ++ [w] }
    else if w = "-h" ∨ w = "--help" then .help
    else
      match vpFlags.lookup w with
      | some f => vpParse isInt ws { a with on := a.on ++ [f] }
      | none =>
        match vpKeys.lookup w with
        | none => .refused
        | some k =>
          match ws with
          | [] => .refused
          | v :: ws =>
            if vpDash v then .refused
            else
              match vpSet isInt k v a with
              | none => .refused
              | some a => vpParse isInt ws a

/-- `sorted(list(set(algo_name_aliases.values())-set(["all","classical"])))`, VeRyPy.py 50. -/
def vpShorthands : List String :=
  ((algo_name_aliases.filterMap fun x => match x.2 with
    | .one a => some a.abbrev
    | _ => none).dedup).insertionSort fun s t => ¬ t.toList < s.toList

/-- `_build_algorithm_help()`, VeRyPy.py 49-55: the lines and the messages of `get_algorithms`. -/
def vpHelp (gurobi : Bool) : List Algo × List AlgoMsg := get_algorithms gurobi vpShorthands

/-- How the program ends: the parser has ended it, the heuristics are listed (with the status of the process), there is a
message that a file is needed, or the batch is run: whether the header is printed (142-143), the messages about the
names, and the reports with the table. See VeRyPy.py 81-143. -/
inductive VpEnd where
  | refused
  | help
  | listed (rows : List Algo) (msgs : List AlgoMsg) (status : ℕ)
  | needFile (status : ℕ)
  | ran (header : Bool) (msgs : List AlgoMsg) (reports : CliSt) (table : List CliRow)
  deriving DecidableEq, Repr

/-- What the program meets: the words that `int` takes, whether the solver is installed, the instances found for the paths
(`get_a_problem_file_list`, which may raise), and how each call ends (number of the file, number of the algorithm, the
instance, the algorithm, `single`, `minimize_K`). All the files are taken to be readable. See VeRyPy.py 103, 106, 154-157
and 183. -/
structure VpWorld where
  isInt : String → Bool
  gurobi : Bool
  search : List String → Bool → Py (List CliFile)
  call : ℕ → ℕ → CliFile → Algo → Bool → Bool → RunOut

/-- The options of the batch, VeRyPy.py 122-131, 142, 166-171, 182 and 202. -/
def vpOpts (a : VpArgs) : CliOpts where
  minimal := decide (VpFlag.minimal ∈ a.on)
  show_cost := decide (VpFlag.cost ∈ a.on)
  fmt := match a.format with
    | some "ROUND" => some .round
    | some "TRUNCATE" => some .truncate
    | some _ => some .exact
    | none => none
  simulate := decide (VpFlag.simulate ∈ a.on)
  post := a.post.filterMap fun p => if p = "2opt" then some .twoOpt else if p = "3opt" then some .threeOpt else none

/-- `minimize_K`, VeRyPy.py 114-116. -/
def vpMinimizeK (a : VpArgs) : Bool := decide (a.objective = "K") || decide (a.objective = "vehicles")

/-- The calls that the loops make, VeRyPy.py 150, 176 and 183-184. -/
def vpRuns (w : VpWorld) (a : VpArgs) (files : List CliFile) (algos : List Algo) :
    List (CliFile × List ((String × String) × RunOut)) :=
  files.mapIdx fun i p => (p, algos.mapIdx fun j al =>
    ((al.abbrev, al.name), w.call i j p al (decide (VpFlag.single ∈ a.on)) (vpMinimizeK a)))

/-- `main` after the parser, VeRyPy.py 94-306. -/
def vpGo (fuel : ℕ) (w : VpWorld) (a : VpArgs) : Py (Option VpEnd) :=
  if a.active = [] ∨ VpFlag.list ∈ a.on then .ok (some (.listed (vpHelp w.gurobi).1 (vpHelp w.gurobi).2 0))
  else if a.files.length = 0 then .ok (some (.needFile 0))
  else
    match w.search a.files (decide (VpFlag.recursive ∈ a.on)) with
    | .error e => .error e
    | .ok files =>
      match selectAlgos w.gurobi a.active a.forbid with
      | .error e => .error e
      | .ok algos =>
        match cliMain fuel (vpOpts a) algos.length (vpRuns w a files algos) with
        | .error e => .error e
        | .ok none => .ok none
        | .ok (some (s, t)) =>
          .ok (some (.ran (decide (VpFlag.minimal ∈ a.on)) (get_algorithms w.gurobi a.active).2 s t))

/-- `main(overridden_args)`, VeRyPy.py 57-306: `given` are the arguments of a call (none or an empty list if there are
none), `argv` the words of the command line, the first of which is the program. -/
def vpMain (fuel : ℕ) (w : VpWorld) (given argv : List String) : Py (Option VpEnd) :=
  let parsed : VpParse → Py (Option VpEnd) := fun r => match r with
    | .args a => vpGo fuel w a
    | .refused => .ok (some .refused)
    | .help => .ok (some .help)
  if given ≠ [] then parsed (vpParse w.isInt given {})
  else if "-l" ∈ argv then .ok (some (.listed (vpHelp w.gurobi).1 (vpHelp w.gurobi).2 1))
  else if argv.length = 1 then .ok (some (.needFile 1))
  else parsed (vpParse w.isInt argv.tail {})

end Verif
