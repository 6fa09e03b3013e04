import Verif.Model.VeRyPyMain
import Verif.Spec.Cli
import Verif.Spec.Algorithms

/-! # What a user expects of the command line of `VeRyPy.py` -/

namespace Verif.Spec

/-- A part of the command line: an option without a value, one with its value, or a path. -/
inductive VpItem where
  | flag (f : VpFlag)
  | value (k : VpKey) (v : String)
  | path (p : String)
  deriving DecidableEq, Repr

/-- The word for an option without a value. -/
def flagWord : VpFlag → String
  | .list => "-l" | .minimal => "-m" | .time => "-t" | .cost => "-c" | .single => "-1" | .iinfo => "--iinfo"
  | .routes => "--routes" | .vrph => "--vrph" | .recursive => "--recursive" | .simulate => "--simulate"

/-- The word for an option with a value. -/
def keyWord : VpKey → String
  | .verbosity => "-v" | .algorithm => "-a" | .objective => "-b" | .format => "-D" | .forbid => "--forbid"
  | .post => "--post-optimize"

/-- The command line. -/
def itemWords : List VpItem → List String
  | [] => []
  | .flag f :: t => flagWord f :: itemWords t
  | .value k v :: t => keyWord k :: v :: itemWords t
  | .path p :: t => p :: itemWords t

/-- The word looks like an option. -/
def LooksOption (w : String) : Prop := ∃ c r, w.toList = '-' :: c :: r

/-- The values an option takes. -/
def Takes (isInt : String → Bool) (v : String) : VpKey → Prop
  | .verbosity => isInt v = true
  | .objective => v = "c" ∨ v = "cost" ∨ v = "K" ∨ v = "vehicles"
  | .format => v = "ROUND" ∨ v = "EXACT" ∨ v = "TRUNCATE"
  | .post => v = "2opt" ∨ v = "3opt"
  | _ => True

/-- A part of the command line as it should be. -/
def ItemOk (isInt : String → Bool) : VpItem → Prop
  | .flag _ => True
  | .value k v => ¬ LooksOption v ∧ Takes isInt v k
  | .path p => ¬ LooksOption p

/-- All the values given for an option, in their order. -/
def valuesOf (k : VpKey) (items : List VpItem) : List String :=
  items.filterMap fun i => match i with
    | .value k' v => if k' = k then some v else none
    | _ => none

/-- The paths given. -/
def pathsOf (items : List VpItem) : List String :=
  items.filterMap fun i => match i with
    | .path p => some p
    | _ => none

/-- The arguments that the command line asks for: options can be given in any order and more than once, the last value
counts, except for the options that collect their values. -/
structure Asked (items : List VpItem) (a : VpArgs) : Prop where
  flags : ∀ f, f ∈ a.on ↔ .flag f ∈ items
  verbosity : a.verbosity = ((valuesOf .verbosity items).getLast?).getD "-1"
  algorithms : a.active = valuesOf .algorithm items
  objective : a.objective = ((valuesOf .objective items).getLast?).getD "cost"
  format : a.format = (valuesOf .format items).getLast?
  forbid : a.forbid = valuesOf .forbid items
  post : a.post = valuesOf .post items
  paths : a.files = pathsOf items

/-- The options for the batch. -/
def askedOpts (items : List VpItem) : CliOpts where
  minimal := decide (.flag .minimal ∈ items)
  show_cost := decide (.flag .cost ∈ items)
  fmt := (valuesOf .format items).getLast?.map fun v =>
    if v = "ROUND" then .round else if v = "TRUNCATE" then .truncate else .exact
  simulate := decide (.flag .simulate ∈ items)
  post := (valuesOf .post items).map fun v => if v = "2opt" then .twoOpt else .threeOpt

/-- The number of vehicles comes first. -/
def asksFewest (items : List VpItem) : Bool :=
  decide ((valuesOf .objective items).getLast? = some "K" ∨ (valuesOf .objective items).getLast? = some "vehicles")

/-- Each heuristic on each instance, called as the options ask for. -/
def askedTasks (w : VpWorld) (items : List VpItem) (files : List CliFile) (algos : List Algo) : List Task :=
  files.zipIdx.flatMap fun f => algos.zipIdx.map fun a =>
    (f.1, (a.1.abbrev, a.1.name), w.call f.2 a.2 f.1 a.1 (decide (.flag .single ∈ items)) (asksFewest items))

end Verif.Spec
