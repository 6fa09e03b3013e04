import Verif.Model.Gap
import Verif.Model.WrenHollidayInit

/-! # Model of the seed points of `verypy/classic_heuristics/gapvrp.py`

The methods "cones" and "large_demands". The methods that use clustering routines of `sklearn` are not modelled. The polar
coordinates of the customers are given, as are `pi` and the functions of angles. -/

namespace Verif

/-! ## Cones -/

/-- `pi`, `np.cos` and `np.sin`. See gapvrp.py 20 and 375-376. -/
structure Trig where
  pi : ℚ
  cos : ℚ → ℚ
  sin : ℚ → ℚ

/-- `bisect_angle` in the positive direction, sweep.py 62-69: the loop is written in closed form. -/
def bisectAngle (g : Trig) (angle1 angle2 ratio : ℚ) : ℚ :=
  let angle2 := if angle2 < angle1 then angle2 + ⌈(angle1 - angle2) / (2 * g.pi)⌉₊ * (2 * g.pi) else angle2
  angle1 - (angle1 - angle2) * ratio

/-- `_Cone`, gapvrp.py 213. The nodes come with their distance from the depot and their weight. -/
structure Cone where
  phi1 : ℚ
  phi2 : ℚ
  demand : ℚ
  nodes : List (ℚ × ℕ × ℚ)
  deriving DecidableEq, Repr

/-- What is needed of the instance: the customers by their angles, with angle, distance and number; the capacity is in use; the
weight of a customer and its successor; what a group should weigh; the tolerance. See gapvrp.py 222-240. -/
structure ConeArgs where
  sweep : List (ℚ × ℚ × ℕ)
  byCap : Bool
  weight : ℕ → ℕ → ℚ
  target : ℚ
  eps : ℚ

/-- The variables of the loop, gapvrp.py 246-259; `cum` is `none` if it is not a number (`nan`). The variable `group_end_ray` is
only used where it has just been set. -/
structure ConeSt where
  groups : List Cone
  start : ℚ
  cum : Option ℚ
  nodes : List (ℚ × ℕ × ℚ)
  ray : Option ℚ
  phi : ℚ
  rho : ℚ
  i : ℕ
  deriving DecidableEq, Repr

/-- The fraction of a cone that is added to a group and the weight of the group with it, gapvrp.py 277-286; nothing if it is not a
number: a distance of zero divides a negative number, and the fraction, which is infinite, is multiplied by zero. -/
def coneShare (a : ConeArgs) (cum w : ℚ) : Option (ℚ × ℚ) :=
  if w ≠ 0 then some (min 1 ((a.target - cum) / w), cum + min 1 ((a.target - cum) / w) * w)
  else if a.byCap || decide (0 ≤ a.target - cum) then some (1, cum)
  else none

/-- The cone of the previous customer is added to the group, gapvrp.py 274-345; `w` is its weight, `pr` and `ray` are the rays
around it. -/
def coneAdd (g : Trig) (a : ConeArgs) (w pr ray : ℚ) (s : ConeSt) : ConeSt :=
  let nodes := s.nodes ++ [(s.rho, s.i, w)]
  match (match s.cum with | none => none | some cum => coneShare a cum w) with
  | none => { s with cum := none, nodes := nodes }
  | some (frac, cum) =>
    if a.target - cum < a.eps then
      let last := bisectAngle g pr ray frac
      { s with
        groups := s.groups ++ [⟨s.start, last, cum, nodes⟩]
        start := last
        cum := some (if frac < 1 then (1 - frac) * w else 0)
        nodes := if frac < 1 then [(s.rho, s.i, w)] else [] }
    else { s with cum := some cum, nodes := nodes }

/-- The body of the loop, gapvrp.py 264-350. -/
def coneStep (g : Trig) (a : ConeArgs) (s : ConeSt) (e : ℚ × ℚ × ℕ) : ConeSt :=
  let phi := if e.1 < s.phi then e.1 + 2 * g.pi else e.1
  let ray := bisectAngle g s.phi phi (1 / 2)
  let t := match s.ray with
    | none => { s with start := ray }
    | some pr => coneAdd g a (a.weight s.i e.2.2) pr ray s
  { t with ray := some ray, phi := phi, rho := e.2.1, i := e.2.2 }

/-- The groups of cones, gapvrp.py 242-350, from the place `trial` of the sweep. -/
def coneGroups (g : Trig) (a : ConeArgs) (trial : ℕ) : Py (List Cone) :=
  match (if trial = 0 then (idxNeg a.sweep 1).map (fun e => e.1 - 2 * g.pi) else (idx a.sweep (trial - 1)).map (·.1)) with
  | .error e => .error e
  | .ok phi =>
    .ok ((a.sweep.drop trial ++ a.sweep.take (trial + 1)).foldl (coneStep g a) ⟨[], 0, some 0, [], none, phi, 0, 0⟩).groups

/-- The order of the tuples `(rho, node, weight)`. See gapvrp.py 365. -/
def coneLe (x y : ℚ × ℕ × ℚ) : Bool :=
  decide (x.1 < y.1) || (decide (x.1 = y.1) && (decide (x.2.1 < y.2.1) || (decide (x.2.1 = y.2.1) && decide (x.2.2 ≤ y.2.2))))

/-- The distance of the seed point from the depot, gapvrp.py 362-372. -/
def growArc (target : ℚ) : List (ℚ × ℕ × ℚ) → ℚ → ℚ → ℚ
  | [], _, rho => rho
  | (cr, _, cwt) :: t, wt, rho =>
    if target < wt + cwt then rho + (target - wt) / cwt * (cr - rho) else growArc target t (wt + cwt) cr

/-- The seed point of a group, gapvrp.py 358-376. -/
def coneSeed (g : Trig) (depot : ℚ × ℚ) (target : ℚ) (c : Cone) : ℚ × ℚ :=
  let rho := growArc (3 / 4 * target) (pySort coneLe c.nodes) 0 0
  let phi := bisectAngle g c.phi1 c.phi2 (1 / 2)
  (depot.1 + rho * g.cos phi, depot.2 + rho * g.sin phi)

/-- The weights of the cones, their target and the tolerance, gapvrp.py 226-236. (No vehicles, which divides by zero, is not
modelled; neither is a target of zero, by which the messages divide.) -/
def coneArgs (sweep : List (ℚ × ℚ × ℕ)) (D : ℕ → ℕ → ℚ) (d : ℕ → ℚ) (C : Option ℚ) (N K : ℕ) : ConeArgs :=
  if truthy C then
    ⟨sweep, true, fun i _ => d i, ((List.range N).map d).sum / (K * C.getD 0) * C.getD 0, C_EPS⟩
  else
    let nodes := sweep.map (·.2.2)
    ⟨sweep, false, D, ((nodes.getLast?.toList ++ nodes).zip nodes |>.map fun e => D e.1 e.2).sum / K, S_EPS⟩

/-- `_sweep_seed_points`, gapvrp.py 214-378; the points without a group stay at zero. -/
def sweep_seed_points (g : Trig) (sweep : List (ℚ × ℚ × ℕ)) (depot : ℚ × ℚ) (D : ℕ → ℕ → ℚ) (d : ℕ → ℚ) (C : Option ℚ)
    (N K trial : ℕ) : Py (List (ℚ × ℚ)) :=
  let a := coneArgs sweep D d C N K
  match coneGroups g a trial with
  | .error e => .error e
  | .ok cones =>
    if K < cones.length then .error .indexError
    else .ok (cones.map (coneSeed g depot a.target) ++ List.replicate (K - cones.length) (0, 0))

/-! ## Large demands -/

/-- The candidates of the nodes that are not chosen yet get the sum of the roots of the distances from the nodes that are; at the
beginning the distance from the depot. Those taken from the rest are weighted by their demand. See gapvrp.py 568-575. -/
def largeScore (sqrt : ℚ → ℚ) (D : ℕ → ℕ → ℚ) (d : ℕ → ℚ) (C : ℚ) (rest : Bool) (seeds selected : List ℕ) (i : ℕ) : ℚ :=
  (if seeds = [] then D 0 i else (selected.map fun s => sqrt (D s i)).sum) * (if rest then d i / C else 1)

/-- The loop of `_large_demand_seed_points`, gapvrp.py 556-595: `large` are the nodes with large demands, `seeds` the nodes chosen
and `selected` the same with the depot, in increasing order, `cands` the candidates, `mask` the candidates in increasing order;
`argmax` is over the latter but the node is taken from the former. The fuel is the number of seeds to choose. -/
def largeLoop (sqrt : ℚ → ℚ) (D : ℕ → ℕ → ℚ) (d : ℕ → ℚ) (C : ℚ) (N : ℕ) (large : List ℕ) : ℕ → Bool → List ℕ → List ℕ → List ℕ →
    Py (List ℕ)
  | 0, _, seeds, _, _ => .ok seeds
  | n + 1, rest, seeds, cands, mask =>
    let fresh := (pyRange 1 N).filter fun i => decide (i ∉ large)
    let rest' := rest || cands.isEmpty
    let cands' := if cands.isEmpty then fresh else cands
    let mask' := if cands.isEmpty then fresh else mask
    let selected := (List.range N).filter fun i => decide (i = 0 ∨ i ∈ seeds)
    match npArgmax (mask'.map (largeScore sqrt D d C rest' seeds selected)) with
    | .error e => .error e
    | .ok k =>
      match idx cands' k with
      | .error e => .error e
      | .ok i => largeLoop sqrt D d C N large n rest' (seeds ++ [i]) (cands'.erase i) (mask'.filter fun j => decide (j ≠ i))

/-- The candidates with large demands, gapvrp.py 520-534: those above half of the capacity, and for a later trial as many others
as the number of the trial, the largest first. An array with one dimension cannot be indexed by a tuple of several numbers. -/
def largeCands (d : ℕ → ℚ) (C : ℚ) (N trial : ℕ) : Py (List ℕ) :=
  let over := (List.range N).filter fun i => decide (1 / 2 * C < d i)
  if trial = 0 then .ok over
  else
    let sorted := pySort (fun i j => decide (d j < d i) || (decide (d i = d j) && decide (j ≤ i)))
      ((List.range N).filter fun i => !decide (1 / 2 * C < d i))
    if sorted = [] then .error .indexError
    else
      let more := (sorted.take (min N trial)).drop (trial - N)
      if more.length = 1 then .ok (over ++ more) else .error .indexError

/-- `_large_demand_seed_points`, gapvrp.py 512-597, as nodes. -/
def large_demand_seeds (sqrt : ℚ → ℚ) (D : ℕ → ℕ → ℚ) (d : ℕ → ℚ) (C : ℚ) (N K trial : ℕ) : Py (List ℕ) :=
  match largeCands d C N trial with
  | .error e => .error e
  | .ok cands =>
    if cands.length ≤ K then largeLoop sqrt D d C N cands (K - cands.length) false cands [] []
    else largeLoop sqrt D d C N cands K false [] cands ((List.range N).filter fun i => decide (i ∈ cands))

end Verif
