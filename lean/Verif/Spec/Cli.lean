import Verif.Spec.Gap
import Verif.Props.CvrpOps
import Verif.Model.Cli

/-! # Specification vocabulary of the drivers -/

namespace Verif.Spec

/-- The solution a call gives away, if any: returned, or handed over with the interrupt. An empty list is none. -/
def given : RunOut → Option (List ℕ)
  | .ret (some (x :: xs)) => some (x :: xs)
  | .interrupted (some (x :: xs)) => some (x :: xs)
  | _ => none

/-- The normal form of a solution: the same routes, without repeated depots, each route from its smaller end,
in increasing order. -/
structure NormalForm (s m : List ℕ) : Prop where
  same : SameRoutes (blocks s) (blocks m)
  tour : m = tour (blocks m)
  oriented : ∀ b ∈ blocks m, ∀ x y, b.head? = some x → b.getLast? = some y → x ≤ y
  sorted : (blocks m).Pairwise (· ≤ ·)

/-- The first of the best ones. -/
def FirstBest (D : ℕ → ℕ → ℚ) (minimize_K : Bool) (ms : List (List ℕ)) (m : List ℕ) : Prop :=
  (∀ x ∈ ms, AsGood D minimize_K m x) ∧ ∃ pre post, ms = pre ++ m :: post ∧ ∀ x ∈ pre, ¬ AsGood D minimize_K x m

/-- The statistics of a solution: the verdicts on it, its number of routes, its cost and its length. The length is
left out if the cost is zero, the cost is left out if it is not asked for or is the length, unless it is zero. -/
structure Shows (N : ℕ) (D Dc : ℕ → ℕ → ℚ) (d : ℕ → ℚ) (C L : Option ℚ) (talk : Prop) (m : List ℕ) (s : Stats) : Prop where
  sol : s.sol = m
  served : s.served = true ↔ Covers N m
  capacity : s.capacity_ok = true ↔ ∀ b ∈ blocks m, Within C C_EPS (demand d b)
  length : s.length_ok = true ↔ ∀ b ∈ blocks m, Within L S_EPS (cost Dc (wrap b))
  routes : s.K = (blocks m).length
  cost_value : ∀ x, s.cost = some x ↔ x = cost Dc m ∧ ((talk ∧ cost D m ≠ cost Dc m) ∨ cost Dc m = 0)
  length_value : ∀ x, s.length = some x ↔ x = cost D m ∧ cost Dc m ≠ 0

/-- What is asked of the data of an instance. -/
structure PlainData (Dc : ℕ → ℕ → ℚ) (d : ℕ → ℚ) (C L : Option ℚ) : Prop where
  home : Dc 0 0 = 0
  depot : d 0 = 0
  capacity : ∀ c, C = some c → 0 ≤ c
  length : ∀ l, L = some l → 0 ≤ l

/-- The statistics that have been printed: none in the quiet mode and none without a solution, else those of the solution. -/
def Printed (i : CliInst) (verbosity : ℤ) (m : Option (List ℕ)) (shown : Option Stats) : Prop :=
  match m with
  | none => shown = none
  | some m => if 0 ≤ verbosity then ∃ s, shown = some s ∧ Shows i.N i.D i.Dc i.d i.C i.L (0 < verbosity) m s else shown = none

/-! ## The batch -/

/-- The distances that are used: rounded down if asked for. -/
def usedD (o : CliOpts) (p : CliFile) (i j : ℕ) : ℚ :=
  if o.fmt = some .truncate then (⌊p.D i j⌋ : ℚ) else p.D i j

/-- The distances with the service time, if there is one. -/
def usedDc (o : CliOpts) (p : CliFile) (Dc : ℕ → ℕ → ℚ) : Prop :=
  if p.st = none ∨ p.st = some 0 then Dc = usedD o p
  else ∃ st, p.st = some st ∧ D2D_c (if o.fmt = some .truncate then .float else p.ty) (usedD o p) st = .ok Dc

/-- A task of the batch: a file, an algorithm (its abbreviation and its name) and how the call ends. -/
abbrev Task := CliFile × (String × String) × RunOut

/-- The tasks in the order of the files and, for each, of the algorithms. -/
def tasks (files : List (CliFile × List ((String × String) × RunOut))) : List Task :=
  files.flatMap fun f => f.2.map fun r => (f.1, r)

/-- The user has interrupted the task. -/
def stops (o : CliOpts) (t : Task) : Bool :=
  !o.simulate && (match t.2.2 with
    | .interrupted _ => true
    | _ => false)

/-- The solution of the task; the algorithm is not called in a simulation. -/
def found (o : CliOpts) (t : Task) : Option (List ℕ) := if o.simulate then none else given t.2.2

/-- The elements up to and with the first that stops. -/
def upTo {α : Type} (stop : α → Bool) : List α → List α
  | [] => []
  | x :: t => if stop x then [x] else x :: upTo stop t

/-- The customers of each route stay together and none of the routes gets longer. -/
def Shortened (D : ℕ → ℕ → ℚ) (s m : List ℕ) : Prop :=
  ∃ cs : List (List ℕ), cs.Perm (blocks s) ∧
    List.Forall₂ (fun c b => b.Perm c ∧ cost D (wrap b) ≤ cost D (wrap c)) cs (blocks m)

/-- The solution that is reported: the normal form, or, after the post-optimization, one with routes no longer. -/
def Polished (o : CliOpts) (D : ℕ → ℕ → ℚ) (s m : List ℕ) : Prop :=
  m = tour (blocks m) ∧ (if o.post = [] then NormalForm s m else Shortened D s m)

/-- The quality that is reported: the length, or the cost if asked for. -/
def quality (o : CliOpts) (p : CliFile) (Dc : ℕ → ℕ → ℚ) (m : List ℕ) : ℚ :=
  if o.show_cost then cost Dc m else cost (usedD o p) m

/-- What is asked of a task. -/
structure TaskOk (o : CliOpts) (t : Task) : Prop where
  home : t.1.D 0 0 = 0
  depot : t.1.d 0 = 0
  capacity : ∀ c, t.1.C = some c → 0 ≤ c
  length : ∀ l, t.1.L = some l → 0 ≤ l
  nodes : ∀ s, found o t = some s → 0 < t.1.N ∧ ∀ x ∈ s, x < t.1.N
  post : o.post ≠ [] → Symm t.1.D ∧ ∀ s, found o t = some s → (customers s).Nodup

/-- The right line for a task. -/
def Reported (o : CliOpts) (t : Task) (r : Report) : Prop :=
  match found o t with
  | none => r = .noLine t.2.1.1 t.1.bn (stops o t)
  | some s => ∃ m feasible Dc, usedDc o t.1 Dc ∧ Polished o (usedD o t.1) s m ∧
    r = .line t.2.1.1 t.1.bn feasible (quality o t.1 Dc m) (blocks m).length (stops o t) ∧
    (feasible = true ↔ Covers t.1.N m ∧ Feasible Dc t.1.d t.1.C t.1.L m)

/-- The right statistics for a task that is solved. -/
def ReportedFull (o : CliOpts) (t : Task) (r : Report) : Prop :=
  ∃ s m st Dc, found o t = some s ∧ usedDc o t.1 Dc ∧ Polished o (usedD o t.1) s m ∧ r = .full t.2.1.1 t.1.bn st ∧
    Shows t.1.N (usedD o t.1) Dc t.1.d t.1.C t.1.L True m st

/-- The right entry of the results for a task. -/
def Resulted (o : CliOpts) (t : Task) (q : (String × String) × Option ℚ) : Prop :=
  q.1 = (t.1.bn, t.2.1.2) ∧
  match found o t with
  | none => q.2 = none
  | some s => ∃ m Dc, usedDc o t.1 Dc ∧ Polished o (usedD o t.1) s m ∧ q.2 = some (quality o t.1 Dc m)

end Verif.Spec
