import Verif.Model.CheapestInsertion
import Verif.Model.LocalSearch
import Verif.Model.SavingsVariants

/-! # Model of `verypy/classic_heuristics/mole_jameson_insertion.py`

With it, the insertion procedure of cheapest_insertion.py for any `insert_callback`. Matrices are `N×N`. -/

namespace Verif

/-! ## The insertion procedure with a callback -/

/-- `insert_callback(insertion, rd, D, L, minimize_K)` with the last three given, cheapest_insertion.py
356-358: `some none` is `(False, None)`, and `some (some (rd', new_edges))` is `(True, new_edges)` where `rd'`
is the route as changed by the callback; `none` if out of fuel. A callback that answers `False` is taken to
leave the route as it was, which both callbacks of the library do. -/
abbrev CICallback := Ins → CIRoute → Py (Option (Option (CIRoute × List (CINode × CINode))))

/-- `_try_insert_and_update` as a callback, cheapest_insertion.py 154-173. -/
def ciDefault (D : ℕ → ℕ → ℚ) (L : Option ℚ) (minimize_K : Bool) : CICallback := fun ins rd =>
  match ciTry D L minimize_K ins rd with
  | none => .ok (some none)
  | some (rd, inserted) => .ok (some (some (rd, [(ins.after, inserted), (inserted, ins.before)])))

/-- The inner loop, cheapest_insertion.py 336-376, for a heap of that many entries: the route and the
unrouted customers after it; `none` if the callback runs out of fuel. -/
def ciPopLoopCb (D : ℕ → ℕ → ℚ) (d : ℕ → ℚ) (C L : Option ℚ) (strain : ℕ → ℕ → ℕ → ℚ × ℚ) (cb : CICallback)
    (pick : List Ins → ℕ) (unrouted : List ℕ) : ℕ → CIRoute → Py (Option (CIRoute × List ℕ))
  | 0, rd => .ok (some (rd, unrouted))
  | n + 1, rd =>
    match idx rd.heap (pick rd.heap) with
    | .error e => .error e
    | .ok ins =>
      let rd := { rd with heap := rd.heap.eraseIdx (pick rd.heap) }
      if ciValid d C ins rd unrouted then
        match cb ins rd with
        | .error e => .error e
        | .ok none => .ok none
        | .ok (some none) => ciPopLoopCb D d C L strain cb pick unrouted n rd
        | .ok (some (some (rd, new_edges))) =>
          let unrouted := unrouted.erase ins.customer
          .ok (some (new_edges.foldl (fun rd p => ciNewInsertions D d C L strain unrouted rd p.1 p.2) rd,
            unrouted))
      else ciPopLoopCb D d C L strain cb pick unrouted n rd

/-- The loop body, cheapest_insertion.py 317-403. -/
def ciStepCb (D : ℕ → ℕ → ℚ) (d : ℕ → ℚ) (C L : Option ℚ) (strain : ℕ → ℕ → ℕ → ℚ × ℚ) (cb : CICallback)
    (pick : List Ins → ℕ) (s : CIState) : Py (Option CIState) :=
  match idx s.routes s.k with
  | .error e => .error e
  | .ok rd =>
    let rd := ciGenerate D d C L strain s.unrouted rd
    match ciPopLoopCb D d C L strain cb pick s.unrouted rd.heap.length rd with
    | .error e => .error e
    | .ok none => .ok none
    | .ok (some (rd, unrouted)) =>
      match ciRenew D d s rd unrouted with
      | .error e => .error e
      | .ok s => .ok (some s)

/-- The main loop, cheapest_insertion.py 316-403; `none` if out of fuel. -/
def ciLoopCb (D : ℕ → ℕ → ℚ) (d : ℕ → ℚ) (C L : Option ℚ) (strain : ℕ → ℕ → ℕ → ℚ × ℚ) (cb : CICallback)
    (pick : List Ins → ℕ) : ℕ → CIState → Py (Option CIState)
  | 0, _ => .ok none
  | fuel + 1, s =>
    if s.unrouted = [] then .ok (some s)
    else
      match ciStepCb D d C L strain cb pick s with
      | .error e => .error e
      | .ok none => .ok none
      | .ok (some s) => ciLoopCb D d C L strain cb pick fuel s

/-- `cheapest_insertion_init`, cheapest_insertion.py 203-412, with any `insert_callback`. -/
def cheapest_insertion_cb (D : ℕ → ℕ → ℚ) (d : ℕ → ℚ) (C L : Option ℚ) (N count : ℕ)
    (mode : CIMode) (strain : ℕ → ℕ → ℕ → ℚ × ℚ) (cb : CICallback) (pick : List Ins → ℕ) (fuel : ℕ) :
    Py (Option (List ℕ)) :=
  match ciInit D d N count strain mode with
  | .error e => .error e
  | .ok s =>
    match ciLoopCb D d C L strain cb pick fuel s with
    | .error e => .error e
    | .ok none => .ok none
    | .ok (some s) => .ok (some (ciResult s))

/-! ## The insertion with 2-opt -/

/-- The loop of 2-opt moves, mole_jameson_insertion.py 66-74: the route, the total delta and whether a move
was made; `none` if out of fuel. -/
def mjTwoOpt (D : ℕ → ℕ → ℚ) : ℕ → List ℕ → ℚ → Bool → Py (Option (List ℕ × ℚ × Bool))
  | 0, _, _, _ => .ok none
  | fuel + 1, r, total_delta, applied =>
    match do_2opt_move r D .BEST_ACCEPT none with
    | .error e => .error e
    | .ok none => .ok (some (r, total_delta, applied))
    | .ok (some (r', delta)) => mjTwoOpt D fuel r' (total_delta + delta) true

/-- `_try_insert_2opt_and_update`, mole_jameson_insertion.py 53-126. A rejected customer is removed from the
route again, so that the route is the one before. The nodes of the new `dllist` are numbered from the first. -/
def mjTry (D : ℕ → ℕ → ℚ) (L : Option ℚ) (minimize_K : Bool) (fuel : ℕ) : CICallback := fun ins rd =>
  let inserted : CINode := ⟨rd.route.length, ins.customer⟩
  let route := ciInsertBefore inserted ins.before.id rd.route
  match mjTwoOpt D fuel (route.map (·.val)) ins.cost_delta false with
  | .error e => .error e
  | .ok none => .ok none
  | .ok (some (route_2opt_improved, total_delta, applied)) =>
    if minimize_K = false ∧ total_delta - D 0 ins.customer - D ins.customer 0 > 0 then .ok (some none)
    else if exceeds L S_EPS (rd.cost + total_delta) then .ok (some none)
    else if applied then
      let updated : List CINode := route_2opt_improved.zipIdx.map fun p => ⟨p.2, p.1⟩
      .ok (some (some (⟨updated, rd.cost + total_delta, rd.used + ins.demand_delta, []⟩,
        updated.zip updated.tail)))
    else
      .ok (some (some (⟨route, rd.cost + total_delta, rd.used + ins.demand_delta, rd.heap⟩,
        [(ins.after, inserted), (inserted, ins.before)])))

/-! ## The refinement -/

/-- `min(routes, key=lambda rd:rd.demand)`, mole_jameson_insertion.py 151: the first of those with the least
demand. The records have a demand here, as they come from `from_solution`. -/
def mjMin : List RouteData → Py RouteData
  | [] => .error .valueError
  | rd :: rds => .ok (rds.foldl (fun m x => if x.demand.getD 0 < m.demand.getD 0 then x else m) rd)

/-- The receiving routes, mole_jameson_insertion.py 152-155. The record removed is the first one with the
same content, which is the least one itself. -/
def mjReceivers (minimize_K : Bool) (routes : List RouteData) (min_rd : RouteData) : List RouteData :=
  let routes := routes.erase min_rd
  if minimize_K then routes else routes ++ [RouteData.new]

/-- The solution given to the local search, mole_jameson_insertion.py 140-142. -/
def mjPrepare (minimize_K : Bool) (sol : List ℕ) : List ℕ :=
  let sol := without_empty_routes sol
  if minimize_K then sol else sol ++ [0]

/-- `_refine_solution`, mole_jameson_insertion.py 136-185, with at most that many rounds; `none` if out of
fuel, also in the local search. -/
def mjRefine (D : ℕ → ℕ → ℚ) (d : ℕ → ℚ) (C L : Option ℚ) (minimize_K : Bool) (fuel : ℕ) :
    ℕ → List ℕ → Py (Option (List ℕ))
  | 0, _ => .ok none
  | rounds + 1, sol =>
    match do_local_search fuel [op1point D (some d) C L, op2opt D] (mjPrepare minimize_K sol) D (some d)
        .BEST_ACCEPT .ALL_ACCEPT none with
    | .error e => .error e
    | .ok none => .ok none
    | .ok (some sol) =>
      let sol := without_empty_routes sol
      let routes := from_solution sol D (some d)
      match mjMin routes with
      | .error e => .error e
      | .ok min_rd =>
        match do_redistribute_move min_rd (mjReceivers minimize_K routes min_rd) D (some d) C L .FIRST_ACCEPT
            none 0 with
        | .error e => .error e
        | .ok none => .ok (some sol)
        | .ok (some (rds, delta)) =>
          if minimize_K || decide (delta < 0) then
            mjRefine D d C L minimize_K fuel rounds (to_solution rds)
          else .ok (some sol)

/-! ## The heuristic -/

/-- The values of `strain_criterion`; `other` is any other string. See mole_jameson_insertion.py 220-249. -/
inductive MjCriterion
  | proximity_ranking | min_strain | clarke_wright | gaskell | augumented_min_strain | all | other
  deriving DecidableEq, Repr

/-- `callback_configurations`, mole_jameson_insertion.py 219-249: the multipliers and the way to start the
routes. -/
def mjConfigurations (c : MjCriterion) : List ((ℚ × ℚ) × CIMode) :=
  (if c = .proximity_ranking ∨ c = .all then [((0, 0), .farthest)] else []) ++
  (if c = .min_strain then [((0, 1), .farthest)] else []) ++
  (if c = .clarke_wright then [((2, 1), .strain)] else []) ++
  (if c = .gaskell ∨ c = .all then
    ([5/4, 3/2, 7/4, 2] : List ℚ).map fun glm => ((glm, glm - 1), .strain) else []) ++
  (if c = .augumented_min_strain ∨ c = .all then
    (if c = .all then ([0, 1/2, 1, 3/2] : List ℚ) else [0, 1/2, 1, 3/2, 2]).map fun alm =>
      ((alm, 1), if alm - 1 = 1 then .strain else .farthest) else [])

/-- When an interrupt comes in a run: before the `try` of the insertion procedure (cheapest_insertion.py
286-312; then it carries nothing), in the insertion procedure before the round `m` of its main loop, or in the
refinement (which does not handle interrupts, so that it carries nothing). -/
inductive MjInt where
  | before
  | inInsertion (m : ℕ)
  | inRefinement

/-- The state of the insertion procedure before the round `m`; `none` if there is no such round.
See cheapest_insertion.py 316-403. -/
def ciStateAt (D : ℕ → ℕ → ℚ) (d : ℕ → ℚ) (C L : Option ℚ) (strain : ℕ → ℕ → ℕ → ℚ × ℚ) (cb : CICallback)
    (pick : List Ins → ℕ) : ℕ → CIState → Option CIState
  | 0, s => if s.unrouted = [] then none else some s
  | m + 1, s =>
    if s.unrouted = [] then none
    else
      match ciStepCb D d C L strain cb pick s with
      | .ok (some s) => ciStateAt D d C L strain cb pick m s
      | _ => none

/-- What an interrupt in the insertion procedure carries, cheapest_insertion.py 404-409. -/
def mjCarried (D : ℕ → ℕ → ℚ) (d : ℕ → ℚ) (C L : Option ℚ) (N : ℕ) (mode : CIMode)
    (strain : ℕ → ℕ → ℕ → ℚ × ℚ) (cb : CICallback) (pick : List Ins → ℕ) (m : ℕ) : Option (List ℕ) :=
  match ciInit D d N 1 strain mode with
  | .error _ => none
  | .ok s => (ciStateAt D d C L strain cb pick m s).map ciInterrupted

/-- The variables of the insertion procedure while the callback looks for 2-opt moves, mole_jameson_insertion.py
55-90: the customer is in the route, and still among the unrouted ones. -/
def mjInTwoOpt (s : CIState) (rd : CIRoute) (ins : Ins) : CIState :=
  let route := ciInsertBefore ⟨rd.route.length, ins.customer⟩ ins.before.id rd.route
  { s with routes := s.routes.set s.k { rd with route := route } }

/-- A run that is not interrupted, mole_jameson_insertion.py 260-267: the solution of the insertion procedure,
and the one in the end. The insertion procedure is always called with `minimize_K=False`. -/
def mjRun (D : ℕ → ℕ → ℚ) (d : ℕ → ℚ) (C L : Option ℚ) (N : ℕ) (minimize_K : Bool) (pick : List Ins → ℕ)
    (fuel : ℕ) (conf : (ℚ × ℚ) × CIMode) : Py (Option (List ℕ × List ℕ)) :=
  match cheapest_insertion_cb D d C L N 1 conf.2 (parametrized_insertion_criteria D conf.1.1 conf.1.2)
      (mjTry D L false fuel) pick fuel with
  | .error e => .error e
  | .ok none => .ok none
  | .ok (some sol) =>
    match mjRefine D d C L minimize_K fuel fuel sol with
    | .error e => .error e
    | .ok none => .ok none
    | .ok (some sol') => .ok (some (sol, without_empty_routes sol'))

/-- The `try` of a run, mole_jameson_insertion.py 258-273: `sol` and `interrupted` after it. An interrupt
without a list is swallowed; `sol` has then the value it had. -/
def mjCall (D : ℕ → ℕ → ℚ) (d : ℕ → ℚ) (C L : Option ℚ) (N : ℕ) (minimize_K : Bool) (pick : List Ins → ℕ)
    (fuel : ℕ) (conf : (ℚ × ℚ) × CIMode) : Option MjInt → Py (Option (Option (List ℕ) × Bool))
  | some .before => .ok (some (none, false))
  | some (.inInsertion m) =>
    match mjCarried D d C L N conf.2 (parametrized_insertion_criteria D conf.1.1 conf.1.2)
        (mjTry D L false fuel) pick m with
    | some sol => .ok (some (some sol, true))
    | none =>
      match mjRun D d C L N minimize_K pick fuel conf with
      | .error e => .error e
      | .ok none => .ok none
      | .ok (some r) => .ok (some (some r.2, false))
  | w =>
    match mjRun D d C L N minimize_K pick fuel conf with
    | .error e => .error e
    | .ok none => .ok none
    | .ok (some r) =>
      match w with
      | some .inRefinement => .ok (some (some r.1, false))
      | _ => .ok (some (some r.2, false))

/-- The interrupt of the run number `k`. See mole_jameson_insertion.py 256-273. -/
def mjAt (int : Option (ℕ × MjInt)) (k : ℕ) : Option MjInt :=
  match int with
  | none => none
  | some (k', w) => if k = k' then some w else none

/-- The loop over the configurations, mole_jameson_insertion.py 256-286, from the run number `k`. In each
run the heap has its own way to choose among entries with equal keys. -/
def mjRuns (D : ℕ → ℕ → ℚ) (d : ℕ → ℚ) (C L : Option ℚ) (N : ℕ) (minimize_K : Bool) (pick : ℕ → List Ins → ℕ)
    (fuel : ℕ) (int : Option (ℕ × MjInt)) :
    List ((ℚ × ℚ) × CIMode) → ℕ → Option (List ℕ × ℚ × ℚ) → Py (Option SavEnd)
  | [], _, best => .ok (some (.returned (best.map (·.1))))
  | conf :: confs, k, best =>
    match mjCall D d C L N minimize_K (pick k) fuel conf (mjAt int k) with
    | .error e => .error e
    | .ok none => .ok none
    | .ok (some (sol, interrupted)) =>
      if interrupted then .ok (some (.interrupted ((savKeep D minimize_K best sol).map (·.1))))
      else mjRuns D d C L N minimize_K pick fuel int confs (k + 1) (savKeep D minimize_K best sol)

/-- `mole_jameson_insertion_init`, mole_jameson_insertion.py 187-286. -/
def mole_jameson_insertion_init (D : ℕ → ℕ → ℚ) (d : ℕ → ℚ) (C L : Option ℚ) (N : ℕ) (minimize_K : Bool)
    (criterion : MjCriterion) (pick : ℕ → List Ins → ℕ) (fuel : ℕ) (int : Option (ℕ × MjInt)) :
    Py (Option SavEnd) :=
  mjRuns D d C L N minimize_K pick fuel int (mjConfigurations criterion) 0 none

end Verif
