import Verif.Model.IntraRoute
import Verif.Model.Lr3opt

/-! # Model of `verypy/local_search/naive_implementations.py`

The messages that are printed are left out. `do_naive_3optstar_move` (250-323) only raises `NotImplementedError`. -/

namespace Verif

/-- `_naive_constraint_check`, naive_implementations.py 31-51. Its text is that of `_check_CL_constraints`, lr3opt.py 169-191. -/
def naive_constraint_check (sol : List ℕ) (D : ℕ → ℕ → ℚ) (d : ℕ → ℚ) (C L : Option ℚ) : Bool := check_CL_constraints sol D d C L

/-- The end of an operator: `if best_sol: return best_sol, best_delta; else: return None, None`, for example naive_implementations.py 149-153. An
empty list counts as false. -/
def naiveAnswer (s : Search (List ℕ)) : Option (List ℕ × ℚ) :=
  match s with
  | (some (n :: t), x) => some (n :: t, x)
  | (some [], _) => none
  | (none, _) => none

/-- `while solution[route_end]!=0: route_end+=1`, naive_implementations.py 115-116 and 76-77, on the part of the list from `route_end` on. -/
def routeEnd : List ℕ → ℕ → Py ℕ
  | [], _ => .error .indexError
  | n :: t, i => if n ≠ 0 then routeEnd t (i + 1) else .ok i

/-- `solution[:b]+solution[c:a:-1]+solution[d:]` with `b = a+1` and `d = c+1`, naive_implementations.py 130-132. -/
def reversal (sol : List ℕ) (a c : ℕ) : List ℕ := sol.take (a + 1) ++ sliceRev sol c a ++ sol.drop (c + 1)

/-- The loop over the routes of `do_naive_2opt_move`, naive_implementations.py 112-147. The first argument bounds the number of passes: `route_end`
grows in each of them. -/
def naive2optRoutes (sol : List ℕ) (D : ℕ → ℕ → ℚ) (strategy : LSOPT) : ℕ → ℕ → ℕ → Search (List ℕ) → Py (Search (List ℕ))
  | 0, _, _, s => .ok s
  | n + 1, route_start, route_end, s =>
    if route_end < sol.length then
      match routeEnd (sol.drop route_end) route_end with
      | .error e => .error e
      | .ok route_end =>
        match forBreak (pyRange route_start route_end) s (fun a s => forBreak (pyRange (a + 2) route_end) s (fun c s =>
            .ok (tryMove strategy (reversal sol a c) (objf (reversal sol a c) D - objf sol D) s))) with
        | .error e => .error e
        | .ok (s, true) => .ok s
        | .ok (s, false) => naive2optRoutes sol D strategy n route_end (route_end + 1) s
    else .ok s

/-- `do_naive_2opt_move`, naive_implementations.py 94-153. -/
def do_naive_2opt_move (sol : List ℕ) (D : ℕ → ℕ → ℚ) (strategy : LSOPT) (best_delta : Option ℚ) : Py (Option (List ℕ × ℚ)) :=
  match naive2optRoutes sol D strategy sol.length 0 1 (none, initDelta best_delta) with
  | .error e => .error e
  | .ok s => .ok (naiveAnswer s)

/-- The test of a candidate, naive_implementations.py 358-368 and 428-440. -/
def naiveTry (sol ansatz : List ℕ) (D : ℕ → ℕ → ℚ) (d : ℕ → ℚ) (C L : Option ℚ) (strategy : LSOPT) (s : Search (List ℕ)) :
    Search (List ℕ) × Bool :=
  if naive_constraint_check ansatz D d C L then tryMove strategy ansatz (objf ansatz D - objf sol D) s else (s, false)

/-- `do_naive_1point_move`, naive_implementations.py 335-375. -/
def do_naive_1point_move (sol : List ℕ) (D : ℕ → ℕ → ℚ) (d : ℕ → ℚ) (C L : Option ℚ) (strategy : LSOPT) (best_delta : Option ℚ) :
    Py (Option (List ℕ × ℚ)) :=
  match forBreak sol ((none, initDelta best_delta) : Search (List ℕ)) (fun n s =>
      if n = 0 then .ok (s, false)
      else forBreak (pyRange 1 (sol.length - 1)) s (fun j s => .ok (naiveTry sol ((sol.erase n).insertIdx j n) D d C L strategy s))) with
  | .error e => .error e
  | .ok (s, _) => .ok (naiveAnswer s)

/-- `do_naive_2point_move`, naive_implementations.py 393-445. -/
def do_naive_2point_move (sol : List ℕ) (D : ℕ → ℕ → ℚ) (d : ℕ → ℚ) (C L : Option ℚ) (strategy : LSOPT) (best_delta : Option ℚ) :
    Py (Option (List ℕ × ℚ)) :=
  match forBreak (pyRange 0 sol.length) ((none, initDelta best_delta) : Search (List ℕ)) (fun i s =>
      match idx sol i with
      | .error e => .error e
      | .ok n1 =>
        if n1 = 0 then .ok (s, false)
        else forBreak (pyRange 1 (sol.length - 1)) s (fun j s =>
          match idx sol j with
          | .error e => .error e
          | .ok n2 => if n2 = 0 then .ok (s, false) else .ok (naiveTry sol ((sol.set i n2).set j n1) D d C L strategy s))) with
  | .error e => .error e
  | .ok (s, _) => .ok (naiveAnswer s)

/-- The loop over the routes of `_apply_as_intra_route`, naive_implementations.py 73-89, with `total_delta` last. The first argument bounds the
number of passes, as `route_end` grows. A change of zero would count as none. -/
def intraRoutes (op : List ℕ → Py (Option (List ℕ × ℚ))) : ℕ → ℕ → ℕ → List ℕ → ℚ → Py (List ℕ × ℚ)
  | 0, _, _, sol, total => .ok (sol, total)
  | n + 1, route_start, route_end, sol, total =>
    if route_end < sol.length then
      match routeEnd (sol.drop route_end) route_end with
      | .error e => .error e
      | .ok route_end =>
        match op (slice sol route_start (route_end + 1)) with
        | .error e => .error e
        | .ok none => intraRoutes op n route_end (route_end + 1) sol total
        | .ok (some (new_route, improvement)) =>
          if improvement ≠ 0 then
            intraRoutes op n route_end (route_end + 1) (sol.take route_start ++ new_route ++ sol.drop (route_end + 1)) (total + improvement)
          else intraRoutes op n route_end (route_end + 1) sol total
    else .ok (sol, total)

/-- `_apply_as_intra_route`, naive_implementations.py 53-92. -/
def apply_as_intra_route (op : List ℕ → Py (Option (List ℕ × ℚ))) (sol : List ℕ) (best_delta : Option ℚ) : Py (Option (List ℕ × ℚ)) :=
  match intraRoutes op sol.length 0 1 sol 0 with
  | .error e => .error e
  | .ok (ansatz_sol, total_delta) => if total_delta + S_EPS < initDelta best_delta then .ok (some (ansatz_sol, total_delta)) else .ok none

/-- `do_naive_relocate_move`, naive_implementations.py 378-391. The argument `best_delta` is not passed on. -/
def do_naive_relocate_move (sol : List ℕ) (D : ℕ → ℕ → ℚ) (d : ℕ → ℚ) (C L : Option ℚ) (strategy : LSOPT) (_best_delta : Option ℚ) :
    Py (Option (List ℕ × ℚ)) :=
  apply_as_intra_route (fun route => do_naive_1point_move route D d C L strategy none) sol none

/-- `do_naive_exchange_move`, naive_implementations.py 447-458. The argument `best_delta` is not passed on. -/
def do_naive_exchange_move (sol : List ℕ) (D : ℕ → ℕ → ℚ) (d : ℕ → ℚ) (C L : Option ℚ) (strategy : LSOPT) (_best_delta : Option ℚ) :
    Py (Option (List ℕ × ℚ)) :=
  apply_as_intra_route (fun route => do_naive_2point_move route D d C L strategy none) sol none

/-- The first or the second alternative of `do_naive_2optstar_move`, naive_implementations.py 186-223, for the edges from `a` and from `c`. The
last argument is `left_mid_depot` and `right_mid_depot`. The second alternative is skipped if there is no depot in between. -/
def starAnsatz (sol : List ℕ) (a c : ℕ) (mid : Option (ℕ × ℕ)) : ℕ → Py (Option (List ℕ))
  | 1 =>
    match mid with
    | none => .ok (some (reversal sol a c))
    | some (l, r) => .ok (some (sol.take (a + 1) ++ sliceRev sol c r ++ slice sol l (r + 1) ++ sliceRev sol (l - 1) a ++ sol.drop (c + 1)))
  | _ =>
    match mid with
    | none => .ok none
    | some (l, r) =>
      match routeEnd (sol.drop (c + 1)) (c + 1) with
      | .error _ => .error .valueError
      | .ok next => .ok (some (sol.take (a + 1) ++ slice sol (c + 1) next ++ slice sol l (r + 1) ++ sliceRev sol (l - 1) a ++ sliceRev sol c r ++
          sol.drop next))

/-- `do_naive_2optstar_move`, naive_implementations.py 157-247. The function `fast_constraint_check`, which is called for a candidate that improves
the solution, exists nowhere. The state of the inner loop is `left_mid_depot` and `right_mid_depot`. -/
def do_naive_2optstar_move (sol : List ℕ) (D : ℕ → ℕ → ℚ) (best_delta : Option ℚ) : Py (Option (List ℕ × ℚ)) :=
  match forBreak (pyRange 0 (sol.length - 3)) () (fun a _ =>
      match forBreak (pyRange (a + 1) (sol.length - 1)) (if sol[a + 1]? = some 0 then some (a + 1, a + 1) else none) (fun c mid =>
          let mid := if sol[c]? = some 0 then (match mid with
            | none => some (c, c)
            | some (l, _) => some (l, c)) else mid
          match forBreak [1, 2] () (fun alternative _ =>
              match starAnsatz sol a c mid alternative with
              | .error e => .error e
              | .ok none => .ok ((), false)
              | .ok (some ansatz) => if objf ansatz D - objf sol D + S_EPS < initDelta best_delta then .error .nameError else .ok ((), false)) with
          | .error e => .error e
          | .ok _ => .ok (mid, false)) with
      | .error e => .error e
      | .ok _ => .ok ((), false)) with
  | .error e => .error e
  | .ok _ => .ok none

/-- `max_iterations and iteration==max_iterations`, naive_implementations.py 490. -/
def maxReached (max_iterations : Option ℕ) (iteration : ℕ) : Bool :=
  match max_iterations with
  | none => false
  | some m => m != 0 && iteration == m

/-- The body of the loop over the operators of `do_naive_local_search`, naive_implementations.py 475-491. The state is `sol`, `iteration` and
`improved`. -/
def naiveStep (max_iterations : Option ℕ) (op : List ℕ → Py (Option (List ℕ × ℚ))) (s : List ℕ × ℕ × Bool) : Py ((List ℕ × ℕ × Bool) × Bool) :=
  match op s.1 with
  | .error e => .error e
  | .ok none => .ok (s, false)
  | .ok (some (new_sol, _)) => .ok ((new_sol, s.2.1 + 1, true), maxReached max_iterations (s.2.1 + 1))

/-- A pass over the operators of `do_naive_local_search`, naive_implementations.py 472-491. -/
def naivePass (ops : List (List ℕ → Py (Option (List ℕ × ℚ)))) (max_iterations : Option ℕ) (sol : List ℕ) (iteration : ℕ) :
    Py (List ℕ × ℕ × Bool) :=
  match forBreak ops (sol, iteration, false) (naiveStep max_iterations) with
  | .error e => .error e
  | .ok (s, _) => .ok s

/-- `do_naive_local_search`, naive_implementations.py 460-492, for operators that are given their strategy. `none` is a run that has not ended after
the given number of passes. The `break` leaves only the inner loop. -/
def naiveLoop (ops : List (List ℕ → Py (Option (List ℕ × ℚ)))) (max_iterations : Option ℕ) : ℕ → List ℕ → ℕ → Py (Option (List ℕ))
  | 0, _, _ => .ok none
  | n + 1, sol, iteration =>
    match naivePass ops max_iterations sol iteration with
    | .error e => .error e
    | .ok (sol, iteration, true) => naiveLoop ops max_iterations n sol iteration
    | .ok (sol, _, false) => .ok (some sol)

/-- `do_naive_local_search`, naive_implementations.py 460-492. -/
def do_naive_local_search (fuel : ℕ) (ops : List (List ℕ → Py (Option (List ℕ × ℚ)))) (sol : List ℕ) (max_iterations : Option ℕ) :
    Py (Option (List ℕ)) := naiveLoop ops max_iterations fuel sol 0

end Verif
