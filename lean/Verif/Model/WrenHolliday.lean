import Verif.Model.InterRoute

/-! # Model of the complain procedure of `verypy/classic_heuristics/wren_holliday_sweep.py` -/

namespace Verif

/-- The demand of a route after a replacement, wren_holliday_sweep.py 277-281: 0 without a capacity. -/
def complainDemand (d : Option (ℕ → ℚ)) (C : Option ℚ) (node : ℕ) (rd1 : RouteData) (was_replaced : ℕ) : Py ℚ :=
  if truthy C then do
    let r1d ← num rd1.demand
    let a ← dem d was_replaced
    let b ← dem d node
    pure (r1d - a + b)
  else pure 0

/-- The tests of a replacement at the position `i` of a route, wren_holliday_sweep.py 272-288: the
replaced customer, the change of the cost and the new demand, or `none` for `continue`. -/
def complainCheck (D : ℕ → ℕ → ℚ) (d : Option (ℕ → ℚ)) (C L : Option ℚ) (node : ℕ) (rd1 : RouteData) (i : ℕ) :
    Py (Option (ℕ × ℚ × ℚ)) := do
  let replace_after ← idx rd1.route (i - 1)
  let was_replaced ← idx rd1.route i
  let replace_before ← idx rd1.route (i + 1)
  let replace_d ← complainDemand d C node rd1 was_replaced
  if exceeds C C_EPS replace_d then pure none
  else
    let replace_delta := D replace_after node + D node replace_before - D replace_after was_replaced
      - D was_replaced replace_before
    if exceeds L S_EPS (rd1.cost + replace_delta) then pure none
    else pure (some (was_replaced, replace_delta, replace_d))

/-- The loop that fits the replaced customer to another route, wren_holliday_sweep.py 296-317. The
answer is the new routes if it succeeds. -/
def complainFit (D : ℕ → ℕ → ℚ) (d : Option (ℕ → ℚ)) (C L : Option ℚ) (routes : List RouteData) (rd1_idx : ℕ)
    (was_replaced : ℕ) (new_rd1 : RouteData) : List ℕ → Py (Option (List RouteData))
  | [] => .ok none
  | rd2_idx :: rest =>
    if rd1_idx = rd2_idx then complainFit D d C L routes rd1_idx was_replaced new_rd1 rest
    else
      match idx routes rd2_idx with
      | .error e => .error e
      | .ok rd2 =>
        match do_insert_move (.node was_replaced) rd2 D d C L .FIRST_ACCEPT none with
        | .error e => .error e
        | .ok none => complainFit D d C L routes rd1_idx was_replaced new_rd1 rest
        | .ok (some (rds, _)) =>
          match idx rds 1 with
          | .error e => .error e
          | .ok new_rd2 => .ok (some ((routes.set rd2_idx new_rd2).set rd1_idx new_rd1))

/-- The best replacement so far: its delta, the route and the position. See wren_holliday_sweep.py 261-262. -/
abbrev ComplainBest := Option (ℚ × ℕ × ℕ)

/-- Keeping the best replacement, wren_holliday_sweep.py 290-293. -/
def complainKeep (x : ℚ × ℕ × ℕ) (best : ComplainBest) : ComplainBest :=
  match best with
  | none => some x
  | some b => if x.1 < b.1 then some x else some b

/-- The loop over the positions of a route, wren_holliday_sweep.py 271-320. -/
def complainPos (D : ℕ → ℕ → ℚ) (d : Option (ℕ → ℚ)) (C L : Option ℚ) (routes : List RouteData) (node : ℕ)
    (rd1_idx : ℕ) (rd1 : RouteData) : List ℕ → ComplainBest → Py (ComplainBest × Option (List RouteData))
  | [], best => .ok (best, none)
  | i :: rest, best =>
    match complainCheck D d C L node rd1 i with
    | .error e => .error e
    | .ok none => complainPos D d C L routes node rd1_idx rd1 rest best
    | .ok (some (was_replaced, replace_delta, replace_d)) =>
      let best := complainKeep (replace_delta, rd1_idx, i) best
      match complainFit D d C L routes rd1_idx was_replaced
          ⟨rd1.route.take i ++ [node] ++ rd1.route.drop (i + 1), rd1.cost + replace_delta, some replace_d⟩
          (List.range routes.length) with
      | .error e => .error e
      | .ok (some routes') => .ok (best, some routes')
      | .ok none => complainPos D d C L routes node rd1_idx rd1 rest best

/-- The loop over the routes, wren_holliday_sweep.py 261-322. -/
def complainRoutes (D : ℕ → ℕ → ℚ) (d : Option (ℕ → ℚ)) (C L : Option ℚ) (routes : List RouteData) (node : ℕ) :
    List ℕ → ComplainBest → Py (ComplainBest × Option (List RouteData))
  | [], best => .ok (best, none)
  | rd1_idx :: rest, best =>
    match idx routes rd1_idx with
    | .error e => .error e
    | .ok rd1 =>
      if rd1.is_empty then complainRoutes D d C L routes node rest best
      else
        match complainPos D d C L routes node rd1_idx rd1 (pyRange 1 (rd1.route.length - 1)) best with
        | .error e => .error e
        | .ok (best, some routes') => .ok (best, some routes')
        | .ok (best, none) => complainRoutes D d C L routes node rest best

/-- `set.add`. See wren_holliday_sweep.py 316 and 340-341. -/
def setAdd (s : List ℕ) (x : ℕ) : List ℕ := if x ∈ s then s else s ++ [x]

/-- The state of the loop over the unrouted customers: the routes, `was_assigned`, `was_omitted` and
`improvement_found`. See wren_holliday_sweep.py 256-258. -/
structure ComplainState where
  routes : List RouteData
  assigned : List ℕ
  omitted : List ℕ
  improved : Bool

/-- The body of the loop over the unrouted customers, wren_holliday_sweep.py 261-342. -/
def complainNode (D : ℕ → ℕ → ℚ) (d : Option (ℕ → ℚ)) (C L : Option ℚ) (node : ℕ) (s : ComplainState) :
    Py ComplainState :=
  match complainRoutes D d C L s.routes node (List.range s.routes.length) none with
  | .error e => .error e
  | .ok (_, some routes') => .ok ⟨routes', setAdd s.assigned node, s.omitted, true⟩
  | .ok (none, none) => .ok s
  | .ok (some (best_replace_delta, best_rd_idx, i), none) => do
    let rd ← idx s.routes best_rd_idx
    let to_remove ← idx rd.route i
    if truthy C then do
      let a ← dem d node
      let b ← dem d to_remove
      if a > b then do
        let q ← num rd.demand
        pure ⟨s.routes.set best_rd_idx ⟨rd.route.take i ++ [node] ++ rd.route.drop (i + 1),
          rd.cost + best_replace_delta, some (q - b + a)⟩, setAdd s.assigned node, setAdd s.omitted to_remove, true⟩
      else pure s
    else pure s

/-- The loop over the unrouted customers. See wren_holliday_sweep.py 260-342. -/
def complainLoop (D : ℕ → ℕ → ℚ) (d : Option (ℕ → ℚ)) (C L : Option ℚ) : List ℕ → ComplainState → Py ComplainState
  | [], s => .ok s
  | node :: rest, s =>
    match complainNode D d C L node s with
    | .error e => .error e
    | .ok s => complainLoop D d C L rest s

/-- `complain_heuristic`, wren_holliday_sweep.py 246-347. The set of unrouted customers is a list in the
order of its iteration. Returns the routes, the unrouted customers and whether something changed. -/
def complain_heuristic (routes : List RouteData) (unrouted_nodes : List ℕ) (D : ℕ → ℕ → ℚ) (C : Option ℚ)
    (d : Option (ℕ → ℚ)) (L : Option ℚ) : Py (List RouteData × List ℕ × Bool) :=
  match complainLoop D d C L unrouted_nodes ⟨routes, [], [], false⟩ with
  | .error e => .error e
  | .ok s =>
    let left := unrouted_nodes.filter fun n => ! decide (n ∈ s.assigned)
    .ok (s.routes, left ++ s.omitted.filter (fun n => ! decide (n ∈ left)), s.improved)

end Verif
