import Verif.Spec.Cli
import Verif.Model.CliArgs

/-! # Specification of the command line -/

namespace Verif.Spec

/-- The words of the options. -/
def optionWords : List (List Char) := ["-v".toList, "-n".toList, "-1".toList, "-t".toList, "-l".toList, "-b".toList]

/-- An option as the user writes it. The numbers come with their text. -/
inductive CaOption where
  | verbosity (s : List Char) (n : ℕ)
  | runs (s : List Char) (n : ℕ)
  | single
  | time
  | log (p : List Char)
  | target (s : List Char)

/-- The words of an option. -/
def CaOption.words : CaOption → List (List Char)
  | .verbosity s _ => ["-v".toList, s]
  | .runs s _ => ["-n".toList, s]
  | .single => ["-1".toList]
  | .time => ["-t".toList]
  | .log p => ["-l".toList, p]
  | .target s => ["-b".toList, s]

/-- The text is the number, and no value looks like an option. -/
def CaOption.Plain (u : CharTable) : CaOption → Prop
  | .verbosity s n => caNumber u s = .ok (some n) ∧ s ∉ optionWords
  | .runs s n => caNumber u s = .ok (some n) ∧ s ∉ optionWords
  | .single => True
  | .time => True
  | .log p => p ∉ optionWords
  | .target s => s ∉ optionWords

/-- What a target asks for: fewer vehicles (true) or a smaller cost (false). -/
def targetOf (u : CharTable) (s : List Char) : Option Bool :=
  if u.lower s ∈ ["vehicles".toList, "k".toList] then some true
  else if u.lower s ∈ ["cost".toList, "c".toList] then some false
  else none

/-- The last value that is given for something, or the default. -/
def lastGiven {α : Type} (g : CaOption → Option α) (d : α) (os : List CaOption) : α := (os.filterMap g).getLast?.getD d

/-- The options are what was written: the last value counts. -/
structure Heard (u : CharTable) (os : List CaOption) (f : CaFlags) : Prop where
  single : f.single = true ↔ CaOption.single ∈ os
  time : f.timed = true ↔ CaOption.time ∈ os
  verbosity : f.verbosity = lastGiven (fun o => match o with | .verbosity _ n => some (n : ℤ) | _ => none) 3 os
  runs : f.best_of_n = lastGiven (fun o => match o with | .runs _ n => some n | _ => none) 1 os
  log : f.logfile = lastGiven (fun o => match o with | .log p => some (some p) | _ => none) none os
  target : f.minimize_K = lastGiven (fun o => match o with | .target s => targetOf u s | _ => none) false os
  unknown : f.unknown = os.filterMap fun o => match o with
    | .target s => if targetOf u s = none then some (u.lower s) else none
    | _ => none

/-- Several runs of an algorithm on a problem give a solution that is shown: each run returns, some give a solution, and the nodes and the
number of routes are those of the problem. -/
structure RunsWell (i : CliInst) (minimize_K : Bool) (n : ℕ) (runs : ℕ → RunOut) : Prop where
  plain : PlainData i.Dc i.d i.C i.L
  places : 0 < i.N
  ret : ∀ k < n, ∃ s, runs k = .ret s
  found : ∃ k < n, ∃ s, given (runs k) = some s
  routes : minimize_K = true → ∀ k < n, ∀ s, given (runs k) = some s → (blocks s).length ≤ i.N
  nodes : ∀ k < n, ∀ s, given (runs k) = some s → ∀ x ∈ s, x < i.N

/-- `m` is the first best of the normal forms of the solutions of the runs. -/
def BestRun (i : CliInst) (minimize_K : Bool) (n : ℕ) (runs : ℕ → RunOut) (m : List ℕ) : Prop :=
  ∃ ms, List.Forall₂ NormalForm ((List.range n).filterMap fun k => given (runs k)) ms ∧ FirstBest i.Dc minimize_K ms m

end Verif.Spec
