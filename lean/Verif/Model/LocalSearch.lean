import Verif.Model.InterRoute

/-! # Model of `verypy/local_search/__init__.py` -/

namespace Verif

/-- `ITEROPT`, local_search/__init__.py 35-37. -/
inductive ITEROPT where
  | FIRST_ACCEPT
  | BEST_ACCEPT
  | ALL_ACCEPT
  | REPEATED_ACCEPT
  deriving DecidableEq, Repr

/-- How an operator is called, local_search/__init__.py 135-148: with a route if it has one route
argument before `D`, otherwise with the records of `k + 2` routes. The problem data `D, d, C, L` is
already given to the function. A result of `none` stands for a delta of `None`. -/
inductive OpFn where
  | single (f : List ℕ → LSOPT → Py (Option (List ℕ × ℚ)))
  | multi (k : ℕ) (f : List RouteData → LSOPT → Py (Option (List RouteData × ℚ)))

/-- An operator with its identity (functions are compared by identity in Python) and whether it is a
member of `ROUTE_ORDER_SENSITIVE_OPERATORS`. See local_search/__init__.py 99-104. -/
structure LsOp where
  name : ℕ
  sensitive : Bool
  fn : OpFn

/-- `route_count`, local_search/__init__.py 102-103. -/
def LsOp.count (op : LsOp) : ℕ :=
  match op.fn with
  | .single _ => 1
  | .multi k _ => k + 2

/-- `is_sorted`, util.py 28-30. -/
def is_sorted : List ℕ → Bool
  | [] => true
  | [_] => true
  | a :: b :: t => decide (a ≤ b) && is_sorted (b :: t)

/-- `route_datas[ri] for ri in route_indices`. See local_search/__init__.py 140. -/
def getAll (rds : List RouteData) : List ℕ → Py (List RouteData)
  | [] => .ok []
  | ri :: t =>
    match idx rds ri, getAll rds t with
    | .error e, _ => .error e
    | _, .error e => .error e
    | .ok a, .ok l => .ok (a :: l)

/-- The call of the operator and, for a single route, the new record, local_search/__init__.py
135-148 and 170-171. (The code makes the new record only if it keeps the result.) -/
def callOp (op : LsOp) (rds : List RouteData) (ris : List ℕ) (strategy : LSOPT) :
    Py (Option (List RouteData × ℚ)) :=
  match op.fn with
  | .single f =>
    match getAll rds ris with
    | .error e => .error e
    | .ok [old_rd] =>
      match f old_rd.route strategy with
      | .error e => .error e
      | .ok none => .ok none
      | .ok (some (r, delta)) => .ok (some ([⟨r, old_rd.cost + delta, old_rd.demand⟩], delta))
    | .ok _ => .error .typeError
  | .multi _ f =>
    match getAll rds ris with
    | .error e => .error e
    | .ok l => f l strategy

/-- What changes: pairs of a route index and its new record. See local_search/__init__.py 167-177. -/
abbrev Changes := List (ℕ × RouteData)

/-- How a new result is combined with `best_result` and `best_delta` of the operator,
local_search/__init__.py 159-177. Both are `None` or neither, so they are one option here. -/
def keepResult (op : LsOp) (iter : ITEROPT) (best : Option (Changes × ℚ)) (new : Changes)
    (delta : ℚ) : Option (Changes × ℚ) :=
  match best with
  | none => some (new, delta)
  | some (best_result, best_delta) =>
    match op.fn with
    | .single _ =>
      if iter = .BEST_ACCEPT then
        if delta + S_EPS > best_delta then best else some (new, delta)
      else some (best_result ++ new, best_delta + delta)
    | .multi _ _ => if delta + S_EPS < best_delta then some (new, delta) else best

/-- State of the search. `marks` has the pairs `(ris, op)` with `op in at_lsop_optimal[ris]`, and `reg`
the pairs `(ri, ris)` with `ris` in `customer_to_at_lsopt_optimal[ri]`. See local_search/__init__.py 79-89. -/
structure LsState where
  rds : List RouteData
  idxs : List ℕ
  marks : List (List ℕ × ℕ)
  reg : List (ℕ × List ℕ)

/-- The loop over combinations of routes for one operator, local_search/__init__.py 118-181. State:
`best_result, best_delta` and `no_improving_lsop_found`. -/
def combLoop (op : LsOp) (st : LSOPT) (iter : ITEROPT) (s : LsState) :
    Py ((Option (Changes × ℚ) × List (List ℕ)) × Bool) :=
  forBreak (pyPermsAux op.count s.idxs) ((none, []) : Option (Changes × ℚ) × List (List ℕ))
    fun ris c =>
      if !op.sensitive && !is_sorted ris then .ok (c, false)
      else if s.marks.contains (ris, op.name) then .ok (c, false)
      else
        match callOp op s.rds ris st with
        | .error e => .error e
        | .ok none => .ok ((c.1, c.2 ++ [ris]), false)
        | .ok (some (rds', delta)) =>
          .ok ((keepResult op iter c.1 (ris.zip rds') delta, c.2), st == .FIRST_ACCEPT)

/-- Marking, local_search/__init__.py 187-190. -/
def markOptimal (op : LsOp) (found : List (List ℕ)) (s : LsState) : LsState :=
  { s with
    marks := found.map (fun ris => (ris, op.name)) ++ s.marks
    reg := found.flatMap (fun ris => ris.map (fun ri => (ri, ris))) ++ s.reg }

/-- Application of a result, local_search/__init__.py 202-212 and 245-254. -/
def applyResult : Changes → LsState → Py LsState
  | [], s => .ok s
  | (ri, new_rd) :: t, s =>
    match setIdx s.rds ri new_rd with
    | .error e => .error e
    | .ok rds =>
      let marks := s.marks.filter (fun m => !s.reg.contains (ri, m.1))
      if new_rd.route.length ≤ 2 then
        if s.idxs.contains ri then
          applyResult t { s with rds := rds, marks := marks, idxs := s.idxs.erase ri }
        else .error .valueError
      else applyResult t { s with rds := rds, marks := marks }

/-- `best_iteration_result`, local_search/__init__.py 193-198. -/
def keepBest (bi : Option (Changes × ℚ)) (res : Changes) (delta : ℚ) : Option (Changes × ℚ) :=
  match bi with
  | none => some (res, delta)
  | some (_, bd) => if delta + S_EPS < bd then some (res, delta) else bi

/-- The loop over the operators, local_search/__init__.py 97-237, from the operator number `i`. The
answer is the state, the best result of the iteration and `improving_iteration`; `none` tells that the
fuel did not suffice. -/
def opsLoop (ops : List LsOp) (st : LSOPT) (iter : ITEROPT) :
    ℕ → LsState → ℕ → Option (Changes × ℚ) → Bool →
      Py (Option (LsState × Option (Changes × ℚ) × Bool))
  | 0, _, _, _, _ => .ok none
  | fuel + 1, s, i, bi, imp =>
    match ops[i]? with
    | none => .ok (some (s, bi, imp))
    | some op =>
      match combLoop op st iter s with
      | .error e => .error e
      | .ok ((best, found), _) =>
        let s := markOptimal op found s
        match best with
        | none => opsLoop ops st iter fuel s (i + 1) bi imp
        | some (res, delta) =>
          if iter = .BEST_ACCEPT then
            opsLoop ops st iter fuel s (i + 1) (keepBest bi res delta) imp
          else
            match applyResult res s with
            | .error e => .error e
            | .ok s =>
              if iter = .FIRST_ACCEPT then .ok (some (s, bi, true))
              else if iter = .REPEATED_ACCEPT then opsLoop ops st iter fuel s i bi true
              else opsLoop ops st iter fuel s (i + 1) bi true

/-- The step after the loop over the operators, local_search/__init__.py 241-265. -/
def endIteration (iter : ITEROPT) (s : LsState) (bi : Option (Changes × ℚ)) (imp : Bool) :
    Py (LsState × Bool) :=
  match bi with
  | none => .ok (s, imp)
  | some (res, _) =>
    if iter = .BEST_ACCEPT then
      match applyResult res s with
      | .error e => .error e
      | .ok s => .ok (s, true)
    else .ok (s, imp)

/-- The main loop, local_search/__init__.py 88-265. The answer is the final state; `none` tells that
the fuel did not suffice. -/
def lsLoop (ops : List LsOp) (st : LSOPT) (iter : ITEROPT) (max_iterations : Option ℕ)
    (ofuel : ℕ) : ℕ → LsState → ℕ → Py (Option LsState)
  | 0, _, _ => .ok none
  | fuel + 1, s, iteration =>
    match opsLoop ops st iter ofuel s 0 none false with
    | .error e => .error e
    | .ok none => .ok none
    | .ok (some (s, bi, imp)) =>
      match endIteration iter s bi imp with
      | .error e => .error e
      | .ok (s, imp) =>
        let iteration := iteration + 1
        match max_iterations with
        | some (k + 1) =>
          if k + 1 ≤ iteration then .ok (some s)
          else if imp then lsLoop ops st iter max_iterations ofuel fuel s iteration
          else .ok (some s)
        | _ =>
          if imp then lsLoop ops st iter max_iterations ofuel fuel s iteration
          else .ok (some s)

/-- The initial state, local_search/__init__.py 79-86. -/
def lsInit (sol : List ℕ) (D : ℕ → ℕ → ℚ) (d : Option (ℕ → ℚ)) : LsState :=
  let route_datas := from_solution sol D d
  { rds := route_datas, idxs := List.range route_datas.length, marks := [], reg := [] }

/-- `do_local_search`, local_search/__init__.py 43-273. `D`, `d`, `C` and `L` for the operators are
inside them; the debug output is not modelled. -/
def do_local_search (fuel : ℕ) (ops : List LsOp) (sol : List ℕ) (D : ℕ → ℕ → ℚ)
    (d : Option (ℕ → ℚ)) (st : LSOPT) (iter : ITEROPT) (max_iterations : Option ℕ) :
    Py (Option (List ℕ)) :=
  match lsLoop ops st iter max_iterations fuel fuel (lsInit sol D d) 0 with
  | .error e => .error e
  | .ok none => .ok none
  | .ok (some s) => .ok (some (to_solution s.rds))

/-- Two route arguments. See local_search/__init__.py 140-148. -/
def onTwo (f : RouteData → RouteData → LSOPT → Py (Option (List RouteData × ℚ)))
    (l : List RouteData) (st : LSOPT) : Py (Option (List RouteData × ℚ)) :=
  match l with
  | [a, b] => f a b st
  | _ => .error .typeError

/-- Three route arguments. See local_search/__init__.py 140-148. -/
def onThree (f : RouteData → RouteData → RouteData → LSOPT → Py (Option (List RouteData × ℚ)))
    (l : List RouteData) (st : LSOPT) : Py (Option (List RouteData × ℚ)) :=
  match l with
  | [a, b, c] => f a b c st
  | _ => .error .typeError

/-- The operators as the search calls them, with no `best_delta`. See local_search/__init__.py 136-148. -/
def op2opt (D : ℕ → ℕ → ℚ) : LsOp :=
  ⟨0, false, .single fun r st => do_2opt_move r D st none⟩
def op3opt (D : ℕ → ℕ → ℚ) : LsOp :=
  ⟨1, false, .single fun r st => do_3opt_move r D st none⟩
def opRelocate (D : ℕ → ℕ → ℚ) : LsOp :=
  ⟨2, false, .single fun r st => do_relocate_move r D st none⟩
def opExchange (D : ℕ → ℕ → ℚ) : LsOp :=
  ⟨3, false, .single fun r st => do_exchange_move r D st none⟩
def op1point (D : ℕ → ℕ → ℚ) (d : Option (ℕ → ℚ)) (C L : Option ℚ) : LsOp :=
  ⟨4, true, .multi 0 (onTwo fun a b st => do_1point_move a b D d C L st none)⟩
def op2point (D : ℕ → ℕ → ℚ) (d : Option (ℕ → ℚ)) (C L : Option ℚ) : LsOp :=
  ⟨5, false, .multi 0 (onTwo fun a b st => do_2point_move a b D d C L st none)⟩
def op2optstar (D : ℕ → ℕ → ℚ) (d : Option (ℕ → ℚ)) (C L : Option ℚ) : LsOp :=
  ⟨6, false, .multi 0 (onTwo fun a b st => do_2optstar_move a b D d C L st none)⟩
def opChain (D : ℕ → ℕ → ℚ) (d : Option (ℕ → ℚ)) (C L : Option ℚ) : LsOp :=
  ⟨7, true, .multi 1 (onThree fun a b c st => do_chain_move a b c D d C L st none)⟩
def opRedistribute (D : ℕ → ℕ → ℚ) (d : Option (ℕ → ℚ)) (C L : Option ℚ) : LsOp :=
  ⟨8, true, .multi 0 (onTwo fun a b st => do_redistribute_move a [b] D d C L st none 0)⟩

end Verif
