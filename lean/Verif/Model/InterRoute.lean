import Verif.Model.IntraRoute
import Verif.Model.RouteData

/-! # Model of `verypy/local_search/inter_route_operators.py`

The tuple `(rd1, ..., rdn, delta)` an operator returns is modelled by a list of records and the
delta, `(None, ..., None)` by `none`. The identity test `route1_data==route2_data` (`RouteData` has
no `__eq__`) is not modelled: the operators are modelled for distinct record objects. -/

namespace Verif

/-- Reading a number that may be `None` in arithmetic: `None + 1` is a `TypeError`.
See inter_route_operators.py 420-429. -/
def num (x : Option ℚ) : Py ℚ :=
  match x with
  | none => .error .typeError
  | some q => .ok q

/-- `d[n]`, a `TypeError` if the demands are `None`. See inter_route_operators.py 414. -/
def dem (d : Option (ℕ → ℚ)) (n : ℕ) : Py ℚ :=
  match d with
  | none => .error .typeError
  | some f => .ok (f n)

/-- `C and v-eps>C` where `v` is evaluated only if `C` is set. See inter_route_operators.py 429. -/
def over (C : Option ℚ) (eps : ℚ) (v : Py ℚ) : Py Bool :=
  if truthy C then do
    let x ← v
    pure (exceeds C eps x)
  else pure false

/-- `None if not C else v`. See inter_route_operators.py 114-141. -/
def ifC (C : Option ℚ) (v : Py ℚ) : Py (Option ℚ) :=
  if truthy C then do
    let x ← v
    pure (some x)
  else pure none

/-- `do_1point_move`, inter_route_operators.py 207-291. -/
def do_1point_move (rd1 rd2 : RouteData) (D : ℕ → ℕ → ℚ) (d : Option (ℕ → ℚ)) (C L : Option ℚ)
    (strategy : LSOPT) (best_delta : Option ℚ) : Py (Option (List RouteData × ℚ)) := do
  let (s, _) ← forBreak (pyRange 1 (rd1.route.length - 1))
    ((none, initDelta best_delta) : Search (ℕ × ℕ × ℚ × ℚ)) (fun i s => do
      let remove_after ← idx rd1.route (i - 1)
      let to_move ← idx rd1.route i
      let remove_before ← idx rd1.route (i + 1)
      let remove_delta := D remove_after remove_before - D remove_after to_move
        - D to_move remove_before
      let viol ← over C C_EPS (do
        let r2_d ← num rd2.demand
        let x ← dem d to_move
        pure (r2_d + x))
      if viol then pure (s, false)
      else forBreak (pyRange 1 rd2.route.length) s (fun j s => do
        let insert_after ← idx rd2.route (j - 1)
        let insert_before ← idx rd2.route j
        let insert_delta := D insert_after to_move + D to_move insert_before
          - D insert_after insert_before
        if exceeds L S_EPS (rd2.cost + insert_delta) then pure (s, false)
        else
          let delta := remove_delta + insert_delta
          pure (tryMove strategy (i, j, remove_delta, insert_delta) delta s)))
  match s with
  | (some (i, j, remove_delta, insert_delta), _) => do
    let to_move ← idx rd1.route i
    let dem1 ← ifC C (do
      let r1_d ← num rd1.demand
      let x ← dem d to_move
      pure (r1_d - x))
    let dem2 ← ifC C (do
      let r2_d ← num rd2.demand
      let x ← dem d to_move
      pure (r2_d + x))
    pure (some ([⟨rd1.route.take i ++ rd1.route.drop (i + 1), rd1.cost + remove_delta, dem1⟩,
      ⟨rd2.route.take j ++ [to_move] ++ rd2.route.drop j, rd2.cost + insert_delta, dem2⟩],
      remove_delta + insert_delta))
  | (none, _) => pure none

/-- `do_2point_move`, inter_route_operators.py 294-382. -/
def do_2point_move (rd1 rd2 : RouteData) (D : ℕ → ℕ → ℚ) (d : Option (ℕ → ℚ)) (C L : Option ℚ)
    (strategy : LSOPT) (best_delta : Option ℚ) : Py (Option (List RouteData × ℚ)) := do
  let (s, _) ← forBreak (pyRange 1 (rd1.route.length - 1))
    ((none, initDelta best_delta) : Search (ℕ × ℕ × ℚ × ℚ)) (fun i s => do
      let to_swap1 ← idx rd1.route i
      let swap1_after ← idx rd1.route (i - 1)
      let swap1_before ← idx rd1.route (i + 1)
      forBreak (pyRange 1 (rd2.route.length - 1)) s (fun j s => do
        let to_swap2 ← idx rd2.route j
        let viol1 ← over C C_EPS (do
          let r1_d ← num rd1.demand
          let x1 ← dem d to_swap1
          let x2 ← dem d to_swap2
          pure (r1_d - x1 + x2))
        let viol2 ← if viol1 then pure true else over C C_EPS (do
          let r2_d ← num rd2.demand
          let x1 ← dem d to_swap1
          let x2 ← dem d to_swap2
          pure (r2_d - x2 + x1))
        if viol2 then pure (s, false)
        else
          let swap2_after ← idx rd2.route (j - 1)
          let swap2_before ← idx rd2.route (j + 1)
          let route1_delta := - D swap1_after to_swap1 - D to_swap1 swap1_before
            + D swap1_after to_swap2 + D to_swap2 swap1_before
          let route2_delta := - D swap2_after to_swap2 - D to_swap2 swap2_before
            + D swap2_after to_swap1 + D to_swap1 swap2_before
          if exceeds L 0 (rd1.cost + route1_delta) || exceeds L 0 (rd2.cost + route2_delta) then
            pure (s, false)
          else
            let delta := route1_delta + route2_delta
            pure (tryMove strategy (i, j, route1_delta, route2_delta) delta s)))
  match s with
  | (some (i, j, route1_delta, route2_delta), _) => do
    let to_swap1 ← idx rd1.route i
    let to_swap2 ← idx rd2.route j
    let dem1 ← ifC C (do
      let r1_d ← num rd1.demand
      let x1 ← dem d to_swap1
      let x2 ← dem d to_swap2
      pure (r1_d - x1 + x2))
    let dem2 ← ifC C (do
      let r2_d ← num rd2.demand
      let x1 ← dem d to_swap1
      let x2 ← dem d to_swap2
      pure (r2_d - x2 + x1))
    pure (some ([⟨rd1.route.take i ++ [to_swap2] ++ rd1.route.drop (i + 1), rd1.cost + route1_delta,
        dem1⟩,
      ⟨rd2.route.take j ++ [to_swap1] ++ rd2.route.drop (j + 1), rd2.cost + route2_delta, dem2⟩],
      route1_delta + route2_delta))
  | (none, _) => pure none

/-- `do_chain_move`, inter_route_operators.py 587-682. -/
def do_chain_move (rd1 rd2 rd3 : RouteData) (D : ℕ → ℕ → ℚ) (d : Option (ℕ → ℚ)) (C L : Option ℚ)
    (strategy : LSOPT) (best_delta : Option ℚ) : Py (Option (List RouteData × ℚ)) := do
  let (s, _) ← forBreak (pyRange 1 (rd1.route.length - 1))
    ((none, initDelta best_delta) : Search (ℕ × ℕ × ℕ × ℚ × ℚ × ℚ)) (fun i s => do
      let remove_after ← idx rd1.route (i - 1)
      let to_move ← idx rd1.route i
      let remove_before ← idx rd1.route (i + 1)
      let remove_delta := D remove_after remove_before - D remove_after to_move
        - D to_move remove_before
      forBreak (pyRange 1 (rd2.route.length - 1)) s (fun j s => do
        let replace_after ← idx rd2.route (j - 1)
        let to_replace ← idx rd2.route j
        let replace_before ← idx rd2.route (j + 1)
        let viol1 ← over C 0 (do
          let r2_d ← num rd2.demand
          let x1 ← dem d to_replace
          let x2 ← dem d to_move
          pure (r2_d - x1 + x2))
        let viol2 ← if viol1 then pure true else over C 0 (do
          let r3_d ← num rd3.demand
          let x1 ← dem d to_replace
          pure (r3_d + x1))
        if viol2 then pure (s, false)
        else
          let replace_delta := D replace_after to_move + D to_move replace_before
            - D replace_after to_replace - D to_replace replace_before
          if exceeds L 0 (rd2.cost + replace_delta) then pure (s, false)
          else forBreak (pyRange 1 rd3.route.length) s (fun k s => do
            let insert_after ← idx rd3.route (k - 1)
            let insert_before ← idx rd3.route k
            let insert_delta := D insert_after to_replace + D to_replace insert_before
              - D insert_after insert_before
            if exceeds L 0 (rd3.cost + insert_delta) then pure (s, false)
            else
              let delta := remove_delta + replace_delta + insert_delta
              pure (tryMove strategy (i, j, k, remove_delta, replace_delta, insert_delta) delta s))))
  match s with
  | (some (i, j, k, remove_delta, replace_delta, insert_delta), best_delta) => do
    let to_move ← idx rd1.route i
    let to_replace ← idx rd2.route j
    let dem1 ← ifC C (do
      let r1_d ← num rd1.demand
      let x2 ← dem d to_move
      pure (r1_d - x2))
    let dem2 ← ifC C (do
      let r2_d ← num rd2.demand
      let x1 ← dem d to_replace
      let x2 ← dem d to_move
      pure (r2_d - x1 + x2))
    let dem3 ← ifC C (do
      let r3_d ← num rd3.demand
      let x1 ← dem d to_replace
      pure (r3_d + x1))
    pure (some ([⟨rd1.route.take i ++ rd1.route.drop (i + 1), rd1.cost + remove_delta, dem1⟩,
      ⟨rd2.route.take j ++ [to_move] ++ rd2.route.drop (j + 1), rd2.cost + replace_delta, dem2⟩,
      ⟨rd3.route.take k ++ [to_replace] ++ rd3.route.drop k, rd3.cost + insert_delta, dem3⟩],
      best_delta))
  | (none, _) => pure none

/-- A move of 2-opt*: the positions, which of the two reconnections, and the values stored for the
first route (inter_route_operators.py 133-136, 168-171; those of the second are never used). -/
structure Move2optStar where
  i : ℕ
  j : ℕ
  crossed : Bool
  r1_delta : ℚ
  r1_new_demand : Option ℚ

/-- The test of one of the reconnections of 2-opt*, inter_route_operators.py 114-141 and 149-176:
`dem1`, `dem2` are the new demands and `len1`, `len2` the new costs, evaluated as needed. -/
def test2optStar (strategy : LSOPT) (C L : Option ℚ) (delta : ℚ) (mv : Option ℚ → Move2optStar)
    (dem1 dem2 len1 len2 : Py ℚ) (s : Search Move2optStar) : Py (Search Move2optStar × Bool) := do
  if delta + S_EPS < s.2 then
    let r1_new_demand ← ifC C dem1
    let r2_new_demand ← ifC C dem2
    let v1 ← over C C_EPS (num r1_new_demand)
    let v ← if v1 then pure true else over C C_EPS (num r2_new_demand)
    let viol ← if v then pure true
      else do
        let w ← over L S_EPS len1
        if w then pure true else over L S_EPS len2
    if viol then pure (s, false)
    else pure ((some (mv r1_new_demand), delta), strategy == .FIRST_ACCEPT)
  else pure (s, false)

/-- `do_2optstar_move`, inter_route_operators.py 66-202. The auxiliary data is always updated:
nothing sets `aux_data_updated`. The second returned record carries the cost and demand of the first
(lines 197-198). -/
def do_2optstar_move (rd1 rd2 : RouteData) (D : ℕ → ℕ → ℚ) (d : Option (ℕ → ℚ)) (C L : Option ℚ)
    (strategy : LSOPT) (best_delta : Option ℚ) : Py (Option (List RouteData × ℚ)) := do
  let (fwd_l1, fwd_d1) ← update_auxiliary_data rd1.route D d true
  let (rwd_l1, rwd_d1) ← update_auxiliary_data rd1.route D d false
  let (fwd_l2, fwd_d2) ← update_auxiliary_data rd2.route D d true
  let (rwd_l2, rwd_d2) ← update_auxiliary_data rd2.route D d false
  let (s, _) ← forBreak (pyRange 0 (rd1.route.length - 1))
    ((none, initDelta best_delta) : Search Move2optStar) (fun i s =>
      forBreak (pyRange 0 (rd2.route.length - 1)) s (fun j s => do
        let a ← idx rd1.route i
        let b ← idx rd1.route (i + 1)
        let c ← idx rd2.route j
        let e ← idx rd2.route (j + 1)
        let (s, brk) ← test2optStar strategy C L (D a c + D b e - D a b - D c e)
          (fun x => ⟨i, j, true, D a c - D a b, x⟩)
          (do pure ((← idx fwd_d1 i) + (← idx fwd_d2 j)))
          (do pure ((← idx rwd_d1 (i + 1)) + (← idx rwd_d2 (j + 1))))
          (do pure ((← idx fwd_l1 i) + D a c + (← idx fwd_l2 j)))
          (do pure ((← idx rwd_l1 (i + 1)) + D b e + (← idx rwd_l2 (j + 1)))) s
        if brk then pure (s, true)
        else
          test2optStar strategy C L (D a e + D b c - D a b - D c e)
            (fun x => ⟨i, j, false, D a e - D a b, x⟩)
            (do pure ((← idx fwd_d1 i) + (← idx rwd_d2 (j + 1))))
            (do pure ((← idx rwd_d1 (i + 1)) + (← idx fwd_d2 j)))
            (do pure ((← idx fwd_l1 i) + D a e + (← idx rwd_l2 (j + 1))))
            (do pure ((← idx rwd_l1 (i + 1)) + D b c + (← idx fwd_l2 j))) s))
  match s with
  | (some m, best_delta) =>
    -- `route[:i+1]`, `route[j::-1]`, `route[:i:-1]`, `route[j+1:]`
    let r1 := rd1.route.take (m.i + 1) ++
      (if m.crossed then (rd2.route.take (m.j + 1)).reverse else rd2.route.drop (m.j + 1))
    let r2 := (rd1.route.drop (m.i + 1)).reverse ++
      (if m.crossed then rd2.route.drop (m.j + 1) else (rd2.route.take (m.j + 1)).reverse)
    pure (some ([⟨r1, rd1.cost + m.r1_delta, m.r1_new_demand⟩,
      ⟨r2, rd1.cost + m.r1_delta, m.r1_new_demand⟩], best_delta))
  | (none, _) => pure none

/-- The argument `unrouted` of `do_insert_move`: a customer, a list of customers or a route.
See inter_route_operators.py 413-420. -/
inductive Unrouted where
  | node (n : ℕ)
  | nodes (l : List ℕ)
  | data (rd : RouteData)

/-- The search for the position of one node, inter_route_operators.py 434-459. The result is the list
position (the length minus one for the Python index -1) and the delta, or `none` if there is no
position. -/
def insertPos (D : ℕ → ℕ → ℚ) (L : Option ℚ) (strategy : LSOPT) (ansatz_route : List ℕ)
    (ansatz_l : ℚ) (node : ℕ) (isLast : Bool) : Py (Option (ℕ × ℚ)) :=
  if strategy = .BEST_ACCEPT ∨ truthy L = true then do
    let (best, _) ← forBreak (pyRange 1 ansatz_route.length) (none : Option (ℕ × ℚ))
      (fun i best => do
        let insert_after ← idx ansatz_route (i - 1)
        let insert_before ← idx ansatz_route i
        let insert_delta := D insert_after node + D node insert_before
          - D insert_after insert_before
        if exceeds L S_EPS (ansatz_l + insert_delta) then pure (best, false)
        else
          let best' := match best with
            | none => some (i, insert_delta)
            | some (p, x) => if insert_delta < x then some (i, insert_delta) else some (p, x)
          pure (best', strategy == .FIRST_ACCEPT && isLast))
    pure best
  else do
    let insert_after ← idxNeg ansatz_route 2
    pure (some (ansatz_route.length - 1, D insert_after node + D node 0 - D insert_after 0))

/-- `if C: ansatz_d+=d[node]`, inter_route_operators.py 465. -/
def addDem (d : Option (ℕ → ℚ)) (C : Option ℚ) (dd : Option ℚ) (node : ℕ) : Py (Option ℚ) :=
  if truthy C then do
    let q ← num dd
    let x ← dem d node
    pure (some (q + x))
  else pure dd

/-- The loop over the unrouted nodes, inter_route_operators.py 432-477. -/
def insertLoop (D : ℕ → ℕ → ℚ) (d : Option (ℕ → ℚ)) (C L : Option ℚ) (strategy : LSOPT)
    (best_delta : Option ℚ) :
    List ℕ → List ℕ → ℚ → Option ℚ → ℚ → Py (Option (List RouteData × ℚ))
  | [], route, l, dd, total => pure (some ([RouteData.new, ⟨route, l, dd⟩], total))
  | node :: rest, route, l, dd, total => do
    match ← insertPos D L strategy route l node (rest == []) with
    | none => pure none
    | some (pos, delta) => do
      let dd ← addDem d C dd node
      let total := total + delta
      let worse := match best_delta with
        | none => false
        | some bd => decide (total + S_EPS > bd)
      if worse then pure none
      else
        insertLoop D d C L strategy best_delta rest (route.take pos ++ [node] ++ route.drop pos)
          (l + delta) dd total

/-- `sum(d[n] for n in nodes)`. See inter_route_operators.py 420. -/
def demSum (d : Option (ℕ → ℚ)) : List ℕ → Py ℚ
  | [] => pure 0
  | n :: t => do
    let x ← dem d n
    let y ← demSum d t
    pure (x + y)

/-- `do_insert_move`, inter_route_operators.py 384-477. -/
def do_insert_move (unrouted : Unrouted) (rd : RouteData) (D : ℕ → ℕ → ℚ) (d : Option (ℕ → ℚ))
    (C L : Option ℚ) (strategy : LSOPT) (best_delta : Option ℚ) :
    Py (Option (List RouteData × ℚ)) := do
  let (nodes, unrouted_demand) : List ℕ × Py ℚ := match unrouted with
    | .node n => ([n], demSum d [n])
    | .nodes l => (l, demSum d l)
    | .data u => (u.route.tail.dropLast, num u.demand)
  let viol ← over C C_EPS (do
    let ansatz_d ← num rd.demand
    let x ← unrouted_demand
    pure (ansatz_d + x))
  if viol then pure none
  else insertLoop D d C L strategy best_delta nodes rd.route rd.cost rd.demand 0

/-- `itertools.permutations(l)`: every element in turn first, followed by the permutations of the
rest. The fuel is the length. See inter_route_operators.py 532-545. -/
def pyPermsAux {α : Type} : ℕ → List α → List (List α)
  | 0, _ => [[]]
  | n + 1, l => (List.range l.length).flatMap fun i =>
    match l[i]? with
    | none => []
    | some a => (pyPermsAux n (l.eraseIdx i)).map (a :: ·)

def pyPermutations {α : Type} (l : List α) : List (List α) := pyPermsAux l.length l

/-- A delta bound with infinity as `none`: `total+S_EPS<best_delta`. See inter_route_operators.py 573-579. -/
def ltBound (x : ℚ) (b : Option ℚ) : Bool :=
  match b with
  | none => true
  | some q => decide (x < q)

/-- The loop over the routes for one customer, inter_route_operators.py 555-568. State: the records
and the total delta. The flag tells if the loop was left by `break`, that is, the customer was
successfully inserted. -/
def redistributeNode (D : ℕ → ℕ → ℚ) (d : Option (ℕ → ℚ)) (C L : Option ℚ) (strategy : LSOPT)
    (best_delta : Option ℚ) (node : ℕ) (s : List RouteData × ℚ) :
    Py ((List RouteData × ℚ) × Bool) :=
  forBreak (List.range s.1.length) s (fun i s => do
    let rd2 ← idx s.1 i
    match ← do_insert_move (.node node) rd2 D d C L strategy none with
    | none => pure (s, false)
    | some (rds, delta) => do
      let new_rd2 ← idx rds 1
      let s' := (s.1.set i new_rd2, s.2 + delta)
      pure (s', ltBound (s'.2 + S_EPS) best_delta))

/-- The loop over the customers, inter_route_operators.py 553-572. The flag tells if all the customers
were inserted. -/
def redistributeAll (D : ℕ → ℕ → ℚ) (d : Option (ℕ → ℚ)) (C L : Option ℚ) (strategy : LSOPT)
    (best_delta : Option ℚ) : List ℕ → List RouteData × ℚ → Py ((List RouteData × ℚ) × Bool)
  | [], s => pure (s, true)
  | n :: t, s => do
    let (s, inserted) ← redistributeNode D d C L strategy best_delta n s
    if inserted then redistributeAll D d C L strategy best_delta t s else pure (s, false)

/-- The loop over the orderings, inter_route_operators.py 548-579. The state is `best_delta` (`none` is
infinity) and `best_insertion_routes`. -/
def redistributeOrderings (D : ℕ → ℕ → ℚ) (d : Option (ℕ → ℚ)) (C L : Option ℚ)
    (strategy : LSOPT) : List (List ℕ × List RouteData) → Option ℚ × Option (List RouteData) →
    Py (Option ℚ × Option (List RouteData))
  | [], s => pure s
  | (customers, routes) :: t, s => do
    let ((rds, total), all) ← redistributeAll D d C L strategy s.1 customers (routes, 0)
    if all && ltBound total s.1 then
      redistributeOrderings D d C L strategy t (some total, some rds)
    else redistributeOrderings D d C L strategy t s

/-- The orderings for each recombination level, inter_route_operators.py 532-545. Other levels leave
the variable undefined, which is an `UnboundLocalError` when it is used. -/
def orderings (level : ℕ) (customers : List ℕ) (routes : List RouteData) :
    Py (List (List ℕ × List RouteData)) :=
  match level with
  | 0 => .ok [(customers, routes)]
  | 1 => .ok ((pyPermutations customers).map (fun c => (c, routes)))
  | 2 => .ok ((pyPermutations routes).map (fun r => (customers, r)))
  | 3 => .ok ((pyPermutations customers).flatMap fun c =>
      (pyPermutations routes).map (fun r => (c, r)))
  | _ => .error .nameError

/-- `sum(C-rrd.demand for rrd in routes)`. See inter_route_operators.py 520. -/
def slackSum (c : ℚ) : List RouteData → Py ℚ
  | [] => pure 0
  | rd :: t => do
    let x ← num rd.demand
    let y ← slackSum c t
    pure (c - x + y)

/-- The capacity check of `do_redistribute_move`, inter_route_operators.py 519-522: the demand of the
route is more than the free capacity of the receiving routes. -/
def noRoom (rd1 : RouteData) (routes : List RouteData) (C : Option ℚ) : Py Bool :=
  match C with
  | none => pure false
  | some c =>
    if c = 0 then pure false
    else do
      let slack ← slackSum c routes
      let x ← num rd1.demand
      pure (decide (x - C_EPS > slack))

/-- `do_redistribute_move`, inter_route_operators.py 479-585, for a list of receiving routes. -/
def do_redistribute_move (rd1 : RouteData) (routes : List RouteData) (D : ℕ → ℕ → ℚ)
    (d : Option (ℕ → ℚ)) (C L : Option ℚ) (strategy : LSOPT) (best_delta : Option ℚ)
    (recombination_level : ℕ) : Py (Option (List RouteData × ℚ)) := do
  let noroom ← noRoom rd1 routes C
  if noroom then pure none
  else do
    let bd : Option ℚ := if truthy best_delta then best_delta else none
    let ords ← orderings recombination_level rd1.route.tail.dropLast routes
    match ← redistributeOrderings D d C L strategy ords (bd, none) with
    | (some best_delta, some rds) => pure (some (RouteData.new :: rds, best_delta))
    | _ => pure none

end Verif
