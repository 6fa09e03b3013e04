import Verif.Model.CvrpOps
import Verif.Model.SolutionOperators

/-! # Model of `verypy/classic_heuristics/lr3opt.py` -/

namespace Verif

/-- Variables of the loop of `_check_CL_constraints`, lr3opt.py 175-177. -/
structure CLState where
  prev_node : Option ℕ
  c : ℚ
  l : ℚ

/-- The loop of `_check_CL_constraints`, lr3opt.py 178-191. -/
def checkCLLoop (D : ℕ → ℕ → ℚ) (d : ℕ → ℚ) (C L : Option ℚ) : List ℕ → CLState → Bool
  | [], _ => true
  | node :: t, s =>
    let c := if truthy C && node != 0 then s.c + d node else s.c
    if node ≠ 0 ∧ exceeds C C_EPS c then false
    else
      let l := match s.prev_node with
        | none => s.l
        | some p => if truthy L then s.l + D p node else s.l
      if s.prev_node.isSome ∧ exceeds L S_EPS l then false
      else checkCLLoop D d C L t
        { prev_node := some node, c := if node = 0 then 0 else c, l := if node = 0 then 0 else l }

/-- `_check_CL_constraints(sol,D,d,C,L)`, lr3opt.py 169-191. -/
def check_CL_constraints (sol : List ℕ) (D : ℕ → ℕ → ℚ) (d : ℕ → ℚ) (C L : Option ℚ) : Bool :=
  checkCLLoop D d C L sol { prev_node := none, c := 0, l := 0 }

/-- Variables of the loops of `_force_feasible`, lr3opt.py 195-199. -/
structure FFState where
  feasible_routes : List (List ℕ)
  feasibler : List ℕ
  totald : ℚ
  totall : ℚ
  prevn : ℕ

/-- One iteration of the inner loop of `_force_feasible`, lr3opt.py 201-214. -/
def ffStep (D : ℕ → ℕ → ℚ) (d : ℕ → ℚ) (C L : Option ℚ) (s : FFState) (n : ℕ) : FFState :=
  let C_violated := exceeds C C_EPS (s.totald + d n)
  let L_violated := exceeds L S_EPS (s.totall + D s.prevn n + D n 0)
  let s := if (n = 0 ∨ C_violated ∨ L_violated) ∧ 1 < s.feasibler.length then
      { feasible_routes := s.feasible_routes ++ [s.feasibler ++ [0]], feasibler := [0], totald := 0,
        totall := 0, prevn := 0 }
    else s
  { feasible_routes := s.feasible_routes
    feasibler := if n ≠ 0 then s.feasibler ++ [n] else s.feasibler
    totald := if truthy C then s.totald + d n else s.totald
    totall := if truthy L then s.totall + D s.prevn n else s.totall
    prevn := n }

/-- One iteration of the outer loop of `_force_feasible`, lr3opt.py 197-214. -/
def ffRoute (D : ℕ → ℕ → ℚ) (d : ℕ → ℚ) (C L : Option ℚ) (feasible_routes : List (List ℕ))
    (r : List ℕ) : List (List ℕ) :=
  (r.tail.foldl (ffStep D d C L)
    { feasible_routes := feasible_routes, feasibler := [0], totald := 0, totall := 0,
      prevn := 0 }).feasible_routes

/-- `_force_feasible(sol,D,d,C,L)`, lr3opt.py 193-215. `none` models the returned `None`. -/
def force_feasible (sol : List ℕ) (D : ℕ → ℕ → ℚ) (d : ℕ → ℚ) (C L : Option ℚ) :
    Option (List ℕ) :=
  routes2sol ((sol2routes sol).foldl (ffRoute D d C L) [])


/-! ## The checker of the relaxed moves -/

/-- `lambdas`, the multipliers of the capacity and of the route cost limit. See lr3opt.py 283. -/
structure Lambdas where
  lc : Option ℚ
  ll : Option ℚ
deriving DecidableEq

/-- `if route_d-C_EPS>C: ... (route_d-C)*lambdas[0]`, e.g. lr3opt.py 69-70. A missing multiplier raises. -/
def lrPen (lim lam : Option ℚ) (e x : ℚ) : Py ℚ :=
  if exceeds lim e x then
    match lim, lam with
    | some c, some l => .ok ((x - c) * l)
    | _, _ => .error .typeError
  else .ok 0

/-- The sum of two values that may raise. See lr3opt.py 65-98. -/
def lrAdd (x y : Py ℚ) : Py ℚ :=
  match x with
  | .error e => .error e
  | .ok a =>
    match y with
    | .error e => .error e
    | .ok b => .ok (a + b)

/-- `if ldepot_12:`, a position that is neither missing nor zero. See lr3opt.py 68 and 85. -/
def lrTrue : Option ℕ → Bool
  | none => false
  | some p => p != 0

/-- The penalties that are lifted for one of the limits, lr3opt.py 66-81 for `C` (`cum` is `cum_d`, `w` zero) and
83-98 for `L` (`cum` is `cum_l`, `w` the lengths of the three removed edges). -/
def lrLifted (lim lam : Option ℚ) (e : ℚ) (cum w : ℕ → ℚ) (t : S3Data) : Py ℚ :=
  if truthy lim then
    let r1 := cum 0 + cum 1 + w 0
    let r2 := if lrTrue t.l12 then cum 2 + cum 3 + w 1 else r1 + (cum 3 + w 1)
    let r3 := if lrTrue t.l34 then cum 4 + cum 5 + w 2 else r2 + (cum 5 + w 2)
    lrAdd (lrAdd (if lrTrue t.l12 then lrPen lim lam e r1 else .ok 0)
      (if lrTrue t.l34 then lrPen lim lam e r2 else .ok 0)) (lrPen lim lam e r3)
  else .ok 0

/-- `removed_penalties`, lr3opt.py 65-98. -/
def lrRemoved (D : ℕ → ℕ → ℚ) (C L : Option ℚ) (lam : Lambdas) (t : S3Data) : Py ℚ :=
  lrAdd (lrLifted C lam.lc C_EPS t.cum_d (fun _ => 0) t)
    (lrLifted L lam.ll S_EPS t.cum_l (fun i => D (t.end_n (2 * i)) (t.end_n (2 * i + 1))) t)

/-- The penalties of a finished route, lr3opt.py 131-138 and 151-154. -/
def lrRoute (C L : Option ℚ) (lam : Lambdas) (rd rl : ℚ) : Py ℚ :=
  lrAdd (lrPen C lam.lc C_EPS rd) (lrPen L lam.ll S_EPS rl)

/-- The loop over the edges and what follows it, lr3opt.py 118-156. `none` stands for the returned `None`. -/
def lrLoop (D : ℕ → ℕ → ℚ) (C L : Option ℚ) (lam : Lambdas) (t : S3Data) (best : ℚ) :
    List (ℕ × ℕ) → Option (ℕ × ℕ) → ℚ → ℚ → ℚ → Py (Option ℚ)
  | [], _, delta, rd, rl =>
    match lrRoute C L lam rd rl with
    | .error x => .error x
    | .ok p => if delta + p + S_EPS < best then .ok (some (delta + p)) else .ok none
  | e :: es, prev, delta, rd, rl =>
    let rd' := fun r => if truthy C then r + t.cum_d e.2 else r
    let rl' := fun r => if truthy L then r + (D (t.end_n e.1) (t.end_n e.2) + t.cum_l e.2) else r
    match s3Depot t prev e with
    | .error x => .error x
    | .ok false => lrLoop D C L lam t best es (some e) delta (rd' rd) (rl' rl)
    | .ok true =>
      match lrRoute C L lam rd rl with
      | .error x => .error x
      | .ok p =>
        if best ≤ delta + p + S_EPS then .ok none
        else lrLoop D C L lam t best es (some e) (delta + p) (rd' (if truthy C then t.cum_d e.1 else rd))
          (rl' (if truthy L then t.cum_l e.1 else rl))

/-- `_check_lr3opt_move`, lr3opt.py 51-157. -/
def check_lr3opt_move (D : ℕ → ℕ → ℚ) (C L : Option ℚ) (lam : Lambdas) : S3Checker := fun best edges t =>
  match lrRemoved D C L lam t with
  | .error x => .error x
  | .ok p =>
    if s3Delta D t edges - p + S_EPS < best then lrLoop D C L lam t best edges none (s3Delta D t edges - p) 0 0
    else .ok none


/-! ## The heuristic -/

/-- `np.max(D[aidx][:, aidx])` for the nodes of the solution, lr3opt.py 217-219. `none` for an empty solution, where
`np.max` raises. -/
def lrMax (D : ℕ → ℕ → ℚ) (sol : List ℕ) : Option ℚ := (sol.flatMap fun i => sol.map fun j => D i j).max?

/-- The average of a list of numbers, `np.average`. See lr3opt.py 286 and 294. -/
def lrAverage (l : List ℚ) : ℚ := l.sum / l.length

/-- `closest_neighbor_D.min(axis=0)`: for each node the smallest entry of its column, the diagonal replaced by the
largest distance, lr3opt.py 292-294. -/
def lrClosest (D : ℕ → ℕ → ℚ) (N : ℕ) (max_D : ℚ) : List ℚ :=
  (List.range N).map fun j => ((List.range N).map fun i => if i = j then max_D else D i j).min?.getD max_D

/-- The multipliers at the start, lr3opt.py 282-294. `none` if a multiplier is computed and the largest distance is
zero: numpy then goes on with an infinite or undefined number, which is not modelled. -/
def lrStart (D : ℕ → ℕ → ℚ) (d : ℕ → ℚ) (N : ℕ) (C L : Option ℚ) (lam : Lambdas) (sol : List ℕ) : Py (Option Lambdas) :=
  let needC := truthy C && lam.lc.isNone
  let needL := truthy L && lam.ll.isNone
  if needC || needL then
    match lrMax D sol with
    | none => .error .valueError
    | some max_D =>
      if max_D = 0 then .ok none
      else .ok (some ⟨if needC then some (lrAverage ((List.range N).map d) / (20 * max_D)) else lam.lc,
        if needL then some (lrAverage (lrClosest D N max_D) / (10 * max_D)) else lam.ll⟩)
  else .ok (some lam)

/-- `sol[-1]==0 and sol[-2]==0`, lr3opt.py 309. -/
def lrPadded (sol : List ℕ) : Py Bool :=
  match idxNeg sol 1 with
  | .error x => .error x
  | .ok a =>
    if a = 0 then
      match idxNeg sol 2 with
      | .error x => .error x
      | .ok b => .ok (b = 0)
    else .ok false

/-- `while not (sol[-1]==0 and sol[-2]==0): sol+=[0]`, lr3opt.py 309-310. After two rounds the test holds. -/
def lrPad (sol : List ℕ) : Py (List ℕ) :=
  match lrPadded sol with
  | .error x => .error x
  | .ok true => .ok sol
  | .ok false =>
    match lrPadded (sol ++ [0]) with
    | .error x => .error x
    | .ok true => .ok (sol ++ [0])
    | .ok false => .ok (sol ++ [0] ++ [0])

/-- Where the heuristic is: in the relaxed problem, with the multipliers and the number of consecutive increases, or in
the postoptimization, or done (a solution that passed the check), or done with a solution that was forced to the
limits (`none` for a returned `None`). See lr3opt.py 306-376. -/
inductive LrState where
  | search (sol : List ℕ) (lam : Lambdas) (incs : ℕ)
  | post (sol : List ℕ)
  | done (sol : List ℕ)
  | forced (sol : Option (List ℕ))
deriving DecidableEq

/-- The options of `lr3opt_init`. `huge` is the largest number below `float('inf')`. See lr3opt.py 221-230. -/
structure LrOpts where
  postoptimize : Bool
  max_incs : Option ℕ
  huge : ℚ

/-- `lambdas[0]==float('inf')`. See lr3opt.py 344 and 347. -/
def lrInf (huge : ℚ) : Option ℚ → Bool
  | none => false
  | some x => decide (huge < x)

/-- `lambdas[i] = lambdas[i]*2`, with the multiplier kept if it is missing, lr3opt.py 342-347. The doubled number is
exact. In the code a number above `huge` becomes infinite; for the first multiplier the heuristic then ends, an infinite
second multiplier is not modelled. -/
def lrDouble (lam : Lambdas) : Lambdas := ⟨lam.lc.map (· * 2), lam.ll.map (· * 2)⟩

/-- More consecutive increases than allowed, lr3opt.py 360-364. -/
def lrOver (o : LrOpts) (incs : ℕ) : Bool :=
  match o.max_incs with
  | none => false
  | some m => decide (m < incs + 1)

/-- STEP 3 and the safeguard, lr3opt.py 339-365. The second test for infinity looks at the first multiplier again. -/
def lrTighten (o : LrOpts) (D : ℕ → ℕ → ℚ) (d : ℕ → ℚ) (C L : Option ℚ) (sol : List ℕ) (lam : Lambdas) (incs : ℕ) : LrState :=
  let lam' := lrDouble lam
  let atInf := (lam.lc.isSome && lrInf o.huge lam'.lc) || (lam.ll.isSome && lrInf o.huge lam'.lc)
  if atInf || lrOver o incs then .forced (force_feasible sol D d C L)
  else .search sol lam' (incs + 1)

/-- `return normalize_solution(sol)`, lr3opt.py 331 and 338. -/
def lrReturn (sol : List ℕ) : Py LrState :=
  match normalize_solution sol with
  | .error x => .error x
  | .ok s => .ok (.done s)

/-- What is done when no move is left, lr3opt.py 319-365. -/
def lrOptimum (o : LrOpts) (D : ℕ → ℕ → ℚ) (d : ℕ → ℚ) (C L : Option ℚ) (sol : List ℕ) (lam : Lambdas) (incs : ℕ) : Py LrState :=
  if check_CL_constraints sol D d C L then
    if o.postoptimize then .ok (.post sol) else lrReturn sol
  else .ok (lrTighten o D d C L sol lam incs)

/-- One round of `while True`, lr3opt.py 306-376, or of the postoptimization, lr3opt.py 327-336. -/
def lrStep (o : LrOpts) (D : ℕ → ℕ → ℚ) (d : ℕ → ℚ) (C L : Option ℚ) : LrState → Py LrState
  | .search sol lam incs =>
    match lrPad sol with
    | .error x => .error x
    | .ok sol =>
      match do_3optstar_move (check_lr3opt_move D C L lam) sol D d C L true none with
      | .error x => .error x
      | .ok none => lrOptimum o D d C L sol lam incs
      | .ok (some (new, _)) =>
        if sol = new then lrOptimum o D d C L sol lam incs else .ok (.search new lam 0)
  | .post sol =>
    match do_3optstar_move (check_3opt_move D C L) sol D d C L true none with
    | .error x => .error x
    | .ok none => lrReturn sol
    | .ok (some (new, _)) => .ok (.post new)
  | s => .ok s

/-- A number of rounds. See lr3opt.py 306-376. -/
def lrRun (o : LrOpts) (D : ℕ → ℕ → ℚ) (d : ℕ → ℚ) (C L : Option ℚ) : ℕ → LrState → Py LrState
  | 0, s => .ok s
  | n + 1, s =>
    match lrStep o D d C L s with
    | .error x => .error x
    | .ok s' => lrRun o D d C L n s'

/-- `lr3opt_init`, lr3opt.py 221-385, after the given number of rounds, from the solution that the initialization
gives. The state after a number of rounds is also what an interrupt finds. The outer `none` is the case that is not
modelled, see `lrStart`. -/
def lr3opt_init (o : LrOpts) (D : ℕ → ℕ → ℚ) (d : ℕ → ℚ) (N : ℕ) (C L : Option ℚ) (lam : Lambdas) (init : List ℕ)
    (rounds : ℕ) : Py (Option LrState) :=
  match lrStart D d N C L lam init with
  | .error x => .error x
  | .ok none => .ok none
  | .ok (some lam) =>
    match lrRun o D d C L rounds (.search init lam 0) with
    | .error x => .error x
    | .ok s => .ok (some s)

/-- What `raise KeyboardInterrupt(_force_feasible(sol, D, d, C, L))` passes on, lr3opt.py 380-383. The two return
statements are not interrupted. -/
def lrInterrupted (D : ℕ → ℕ → ℚ) (d : ℕ → ℚ) (C L : Option ℚ) : LrState → Option (List ℕ)
  | .search sol _ _ => force_feasible sol D d C L
  | .post sol => force_feasible sol D d C L
  | .done sol => some sol
  | .forced sol => sol

end Verif
