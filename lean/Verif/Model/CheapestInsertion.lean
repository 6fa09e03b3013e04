import Verif.Model.Py
import Verif.Model.Util
import Verif.Model.Sort

/-! # Model of `verypy/classic_heuristics/cheapest_insertion.py`

A node of the doubly linked list is a value with an identity; nodes are compared by identity, and none is
ever removed. The heap is the list of its entries. Which one of the entries `heappop` takes depends, for
equal keys, on `id()`: it is given by a function `pick` that tells its position. -/

namespace Verif

/-- A node of a `dllist`. See cheapest_insertion.py 51-61. -/
structure CINode where
  id : ℕ
  val : ℕ
  deriving DecidableEq, Repr

/-- `Insertion` with its sorting key, cheapest_insertion.py 96-97 and 121. -/
structure Ins where
  customer : ℕ
  after : CINode
  before : CINode
  cost_delta : ℚ
  demand_delta : ℚ
  key : ℚ × ℚ × ℚ
  deriving DecidableEq, Repr

/-- `_EmergingRouteData`, cheapest_insertion.py 48-61. -/
structure CIRoute where
  route : List CINode
  cost : ℚ
  used : ℚ
  heap : List Ins
  deriving DecidableEq, Repr

/-- `_EmergingRouteData.__init__`, cheapest_insertion.py 51-61, with demands given. -/
def ciSeedRoute (D : ℕ → ℕ → ℚ) (d : ℕ → ℚ) (seed_customers : List ℕ) : CIRoute :=
  let lroute := 0 :: (seed_customers ++ [0])
  if seed_customers = [] then ⟨[⟨0, 0⟩, ⟨1, 0⟩], 0, 0, []⟩
  else ⟨lroute.zipIdx.map fun p => ⟨p.2, p.1⟩, objf lroute D, (lroute.map d).sum, []⟩

/-- `export_solution`, cheapest_insertion.py 63-69. -/
def ciExport (rds : List CIRoute) : List ℕ :=
  rds.flatMap fun rd => if rd.route.length > 2 then (rd.route.map (·.val)).tail else []

/-- The loop over the candidates of a seed, cheapest_insertion.py 75-81. -/
def ciChoose (unrouted : List ℕ) : List ℕ → List ℕ → List ℕ
  | [], chosen => chosen
  | c :: cs, chosen =>
    if c ∉ unrouted then [] else ciChoose unrouted cs (if c ∉ chosen then chosen ++ [c] else chosen)

/-- `_initialize_new_route`, cheapest_insertion.py 71-93: the route, the unrouted customers and the rest of
the seeds. The first of the seeds is the one that is popped next. -/
def ciNewRoute (D : ℕ → ℕ → ℚ) (d : ℕ → ℚ) (unrouted : List ℕ) :
    List (List ℕ) → Py (CIRoute × List ℕ × List (List ℕ))
  | [] => .error .indexError
  | candidates :: seeds =>
    let chosen := ciChoose unrouted candidates []
    if chosen = [] then ciNewRoute D d unrouted seeds
    else .ok (ciSeedRoute D d chosen, chosen.foldl List.erase unrouted, seeds)

/-- The body of `_new_potential_insertions`, cheapest_insertion.py 100-126: the entry for a customer. The
function `strain` is `insertion_strain_callback` with the matrix given. -/
def ciCandidate (D : ℕ → ℕ → ℚ) (d : ℕ → ℚ) (C L : Option ℚ) (strain : ℕ → ℕ → ℕ → ℚ × ℚ) (rd : CIRoute)
    (after before : CINode) (customer : ℕ) : Option Ins :=
  let l_delta := -D after.val before.val + D after.val customer + D customer before.val
  let d_delta := if truthy C then d customer else 0
  if exceeds C C_EPS (rd.used + d_delta) then none
  else if exceeds L S_EPS (rd.cost + l_delta) then none
  else
    let s := strain after.val customer before.val
    some ⟨customer, after, before, l_delta, d_delta, (-s.1, s.2, l_delta - D 0 customer - D customer 0)⟩

/-- `_new_potential_insertions`, cheapest_insertion.py 98-126. -/
def ciNewInsertions (D : ℕ → ℕ → ℚ) (d : ℕ → ℚ) (C L : Option ℚ) (strain : ℕ → ℕ → ℕ → ℚ × ℚ)
    (unrouted : List ℕ) (rd : CIRoute) (after before : CINode) : CIRoute :=
  { rd with heap := rd.heap ++ unrouted.filterMap (ciCandidate D d C L strain rd after before) }

/-- `node.next` for the node with the identity `i`. See cheapest_insertion.py 137 and 334. -/
def ciNext : List CINode → ℕ → Option CINode
  | a :: b :: r, i => if a.id = i then some b else ciNext (b :: r) i
  | _, _ => none

/-- `route.insert(value, before_node)`. See cheapest_insertion.py 169. -/
def ciInsertBefore (x : CINode) (i : ℕ) : List CINode → List CINode
  | [] => []
  | b :: r => if b.id = i then x :: b :: r else b :: ciInsertBefore x i r

/-- `_seems_valid_insertion`, cheapest_insertion.py 129-152. -/
def ciValid (d : ℕ → ℚ) (C : Option ℚ) (ins : Ins) (rd : CIRoute) (unrouted : List ℕ) : Bool :=
  if ins.customer ∉ unrouted then false
  else if (ciNext rd.route ins.after.id).map (·.id) ≠ some ins.before.id then false
  else if exceeds C C_EPS (rd.used + d ins.customer) then false
  else true

/-- `_try_insert_and_update`, cheapest_insertion.py 154-173: the changed route and the inserted node. -/
def ciTry (D : ℕ → ℕ → ℚ) (L : Option ℚ) (minimize_K : Bool) (ins : Ins) (rd : CIRoute) :
    Option (CIRoute × CINode) :=
  if minimize_K = false ∧ ins.cost_delta - D 0 ins.customer - D ins.customer 0 > 0 then none
  else if exceeds L S_EPS (rd.cost + ins.cost_delta) then none
  else
    let inserted : CINode := ⟨rd.route.length, ins.customer⟩
    some ({ rd with
      route := ciInsertBefore inserted ins.before.id rd.route
      cost := rd.cost + ins.cost_delta
      used := rd.used + ins.demand_delta }, inserted)

/-- The just-in-time generation of the entries, cheapest_insertion.py 328-334. -/
def ciGenerate (D : ℕ → ℕ → ℚ) (d : ℕ → ℚ) (C L : Option ℚ) (strain : ℕ → ℕ → ℕ → ℚ × ℚ)
    (unrouted : List ℕ) (rd : CIRoute) : CIRoute :=
  if rd.heap = [] then
    (rd.route.zip rd.route.tail).foldl (fun rd p => ciNewInsertions D d C L strain unrouted rd p.1 p.2) rd
  else rd

/-- The inner loop, cheapest_insertion.py 336-376, for a heap of that many entries: the route and the
unrouted customers after it. -/
def ciPopLoop (D : ℕ → ℕ → ℚ) (d : ℕ → ℚ) (C L : Option ℚ) (strain : ℕ → ℕ → ℕ → ℚ × ℚ) (minimize_K : Bool)
    (pick : List Ins → ℕ) (unrouted : List ℕ) : ℕ → CIRoute → Py (CIRoute × List ℕ)
  | 0, rd => .ok (rd, unrouted)
  | n + 1, rd =>
    match idx rd.heap (pick rd.heap) with
    | .error e => .error e
    | .ok ins =>
      let rd := { rd with heap := rd.heap.eraseIdx (pick rd.heap) }
      if ciValid d C ins rd unrouted then
        match ciTry D L minimize_K ins rd with
        | none => ciPopLoop D d C L strain minimize_K pick unrouted n rd
        | some (rd, inserted) =>
          let unrouted := unrouted.erase ins.customer
          let rd := ciNewInsertions D d C L strain unrouted rd ins.after inserted
          .ok (ciNewInsertions D d C L strain unrouted rd inserted ins.before, unrouted)
      else ciPopLoop D d C L strain minimize_K pick unrouted n rd

/-- The variables of `cheapest_insertion_init`. `k` is the index of the next route.
See cheapest_insertion.py 286-315. -/
structure CIState where
  seeds : List (List ℕ)
  unrouted : List ℕ
  routes : List CIRoute
  complete : List CIRoute
  k : ℕ
  deriving DecidableEq, Repr

/-- The end of the loop body, cheapest_insertion.py 380-403, where `rd` is the route that was worked on. -/
def ciRenew (D : ℕ → ℕ → ℚ) (d : ℕ → ℚ) (s : CIState) (rd : CIRoute) (unrouted : List ℕ) : Py CIState :=
  let k := if s.k + 1 = s.routes.length then 0 else s.k + 1
  if rd.heap = [] ∧ unrouted ≠ [] then
    match ciNewRoute D d unrouted s.seeds with
    | .error e => .error e
    | .ok (rd', unrouted, seeds) =>
      .ok ⟨seeds, unrouted, s.routes.set s.k rd', s.complete ++ [rd], k⟩
  else .ok ⟨s.seeds, unrouted, s.routes.set s.k rd, s.complete, k⟩

/-- The loop body, cheapest_insertion.py 317-403. An empty list of seeds leads to an error in each of the
modes: `StopIteration` at line 395 or, if the entries left are of no use, `IndexError` at line 74; both are
`indexError` here. -/
def ciStep (D : ℕ → ℕ → ℚ) (d : ℕ → ℚ) (C L : Option ℚ) (strain : ℕ → ℕ → ℕ → ℚ × ℚ) (minimize_K : Bool)
    (pick : List Ins → ℕ) (s : CIState) : Py CIState :=
  match idx s.routes s.k with
  | .error e => .error e
  | .ok rd =>
    let rd := ciGenerate D d C L strain s.unrouted rd
    match ciPopLoop D d C L strain minimize_K pick s.unrouted rd.heap.length rd with
    | .error e => .error e
    | .ok (rd, unrouted) => ciRenew D d s rd unrouted

/-- The main loop, cheapest_insertion.py 316-403; `none` if out of fuel. -/
def ciLoop (D : ℕ → ℕ → ℚ) (d : ℕ → ℚ) (C L : Option ℚ) (strain : ℕ → ℕ → ℕ → ℚ × ℚ) (minimize_K : Bool)
    (pick : List Ins → ℕ) : ℕ → CIState → Py (Option CIState)
  | 0, _ => .ok none
  | fuel + 1, s =>
    if s.unrouted = [] then .ok (some s)
    else
      match ciStep D d C L strain minimize_K pick s with
      | .error e => .error e
      | .ok s => ciLoop D d C L strain minimize_K pick fuel s

/-- The values of `initialize_routes_with`, without the callables; `other` is any other string.
See cheapest_insertion.py 289-305. -/
inductive CIMode
  | farthest | closest | strain | other
  deriving DecidableEq, Repr

/-- The order of the seeds of one customer: tuples `(D[0][i], (i,))`. See cheapest_insertion.py 291-292. -/
def ciSeedLe (D : ℕ → ℕ → ℚ) (a b : ℕ) : Bool := decide (D 0 a < D 0 b) || (decide (D 0 a = D 0 b) && decide (a ≤ b))

/-- The order of the seeds of the mode "strain": tuples `((strain, -D[i,j]), (i,j))`.
See cheapest_insertion.py 297-300. -/
def ciPairLe (D : ℕ → ℕ → ℚ) (strain : ℕ → ℕ → ℕ → ℚ × ℚ) (a b : ℕ × ℕ) : Bool :=
  let x := (strain 0 a.1 a.2).1
  let y := (strain 0 b.1 b.2).1
  decide (x < y) || (decide (x = y) && (decide (-D a.1 a.2 < -D b.1 b.2) ||
    (decide (-D a.1 a.2 = -D b.1 b.2) && (decide (a.1 < b.1) || (decide (a.1 = b.1) && decide (a.2 ≤ b.2))))))

/-- `seed_customers`, cheapest_insertion.py 289-305, in the order in which they are popped, that is, from
the last to the first. -/
def ciSeeds (D : ℕ → ℕ → ℚ) (N : ℕ) (strain : ℕ → ℕ → ℕ → ℚ × ℚ) : CIMode → Py (List (List ℕ))
  | .farthest => .ok ((pySort (ciSeedLe D) (pyRange 1 N)).reverse.map fun i => [i])
  | .closest => .ok ((pySort (ciSeedLe D) (pyRange 1 N)).map fun i => [i])
  | .strain => .ok ((pySort (ciPairLe D strain)
      ((pyRange 1 N).flatMap fun i => (pyRange i N).map fun j => (i, j))).reverse.map fun p => [p.1, p.2])
  | .other => .error .valueError

/-- The initial routes, cheapest_insertion.py 307-308. -/
def ciStart (D : ℕ → ℕ → ℚ) (d : ℕ → ℚ) : ℕ → CIState → Py CIState
  | 0, s => .ok s
  | n + 1, s =>
    match ciNewRoute D d s.unrouted s.seeds with
    | .error e => .error e
    | .ok (rd, unrouted, seeds) => ciStart D d n ⟨seeds, unrouted, s.routes ++ [rd], s.complete, s.k⟩

/-- The state before the main loop. See cheapest_insertion.py 286-315. -/
def ciInit (D : ℕ → ℕ → ℚ) (d : ℕ → ℚ) (N count : ℕ) (strain : ℕ → ℕ → ℕ → ℚ × ℚ) (mode : CIMode) : Py CIState :=
  match ciSeeds D N strain mode with
  | .error e => .error e
  | .ok seeds => ciStart D d count ⟨seeds, pyRange 1 N, [], [], 0⟩

/-- The result, cheapest_insertion.py 411-412. -/
def ciResult (s : CIState) : List ℕ := [0] ++ ciExport s.routes ++ ciExport s.complete

/-- `cheapest_insertion_init`, cheapest_insertion.py 203-412, with the default `insert_callback`. -/
def cheapest_insertion_init (D : ℕ → ℕ → ℚ) (d : ℕ → ℚ) (C L : Option ℚ) (N : ℕ) (minimize_K : Bool) (count : ℕ)
    (mode : CIMode) (strain : ℕ → ℕ → ℕ → ℚ × ℚ) (pick : List Ins → ℕ) (fuel : ℕ) : Py (Option (List ℕ)) :=
  match ciInit D d N count strain mode with
  | .error e => .error e
  | .ok s =>
    match ciLoop D d C L strain minimize_K pick fuel s with
    | .error e => .error e
    | .ok none => .ok none
    | .ok (some s) => .ok (some (ciResult s))

/-- The solution of the interrupt handler, cheapest_insertion.py 404-409, for the values the variables have
when the interrupt comes. (A generator is never false, so `routes2sol` is a list.) -/
def ciInterrupted (s : CIState) : List ℕ :=
  let sol := ciResult s
  sol ++ (((s.unrouted.filter fun n => ! decide (n ∈ sol)).map fun n => [n]).foldl routes2sol_step [0]).tail

/-- `parametrized_insertion_criteria`, cheapest_insertion.py 175-201, with the matrix and the multipliers
given. -/
def parametrized_insertion_criteria (D : ℕ → ℕ → ℚ) (lm mm : ℚ) (i u j : ℕ) : ℚ × ℚ :=
  let MST_c := D i u + D u j - mm * D i j
  (lm * D 0 u - MST_c, MST_c)

end Verif
