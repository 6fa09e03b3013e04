import Verif.Model.Util
import Verif.Model.Sort
import Verif.Model.GillettMiller

/-!
# The two phase heuristic of Christofides, Mingozzi and Toth

`_phase_one`, `_phase_two`, `_routestates2solution` and `cmt_2phase_init`,
classic_heuristics/cmt_2phase.py 56-579. An `OrderedSet` is the list of its elements. The routine for the
travelling salesman problem is a parameter. Random shuffles are parameters. Logging is left out, and so is
the handler of interrupts of `cmt_2phase_init`; those of the phases are modelled.
-/

namespace Verif

/-- The routine for the travelling salesman problem, `solve_tsp`, with the matrix fixed. See cmt_2phase.py 28-38. -/
abbrev CmtTsp := List ℕ → List ℕ × ℚ

/-- `RouteState`, cmt_2phase.py 193; also the local variables `route`, `route_demand`, `route_cost` and
`route_l_updated` of `_phase_one`, lines 101-104. -/
structure CmtRoute where
  route : List ℕ
  demand : ℚ
  cost : ℚ
  updated : Bool
deriving DecidableEq

/-- The rules for the seed, cmt_2phase.py 503-510. -/
inductive CmtSeed where
  | first
  | farthest
  | closest
  | biggest
  | other
deriving DecidableEq

/-- `_first_seed`, `_farthest_seed`, `_closest_seed`, `_biggest_seed`, cmt_2phase.py 56-70. With another
name `seed_f` is never bound. -/
def cmtSeed (D : ℕ → ℕ → ℚ) (d : ℕ → ℚ) (m : CmtSeed) (unrouted : List ℕ) : Py ℕ :=
  match m with
  | .first => idx unrouted 0
  | .farthest =>
    match gmArgmin (fun n => - D 0 n) unrouted with
    | some n => .ok n
    | none => .error .valueError
  | .closest =>
    match gmArgmin (fun n => D 0 n) unrouted with
    | some n => .ok n
    | none => .error .valueError
  | .biggest =>
    match gmArgmin (fun n => - d n) unrouted with
    | some n => .ok n
    | none => .error .valueError
  | .other => .error .nameError

/-- The new route of a seed, cmt_2phase.py 101-104 and 225-228. -/
def cmtStart (D : ℕ → ℕ → ℚ) (d : ℕ → ℚ) (C : Option ℚ) (k : ℕ) : CmtRoute :=
  { route := [0, k], demand := if truthy C then d k else 0, cost := D 0 k + D k 0, updated := true }

/-- What becomes of a customer that is tried. See cmt_2phase.py 117-161. -/
inductive CmtOutcome where
  | overC
  | overL
  | accepted (r : CmtRoute)
deriving DecidableEq

/-- The test of a customer, cmt_2phase.py 128-160 and 346-383 (the same in both phases, but for the cache
of the second phase). -/
def cmtInsert (D : ℕ → ℕ → ℚ) (d : ℕ → ℚ) (C L : Option ℚ) (tsp : CmtTsp) (r : CmtRoute) (i : ℕ) :
    Py CmtOutcome :=
  if exceeds C C_EPS (r.demand + d i) then .ok .overC
  else
    match r.route.getLast? with
    | none => .error .indexError
    | some z =>
      let ub := r.cost - D z 0 + D z i + D i 0
      let dem := if truthy C then r.demand + d i else r.demand
      if exceeds L S_EPS ub then
        let new := tsp (r.route ++ [i])
        if exceeds L S_EPS new.2 then .ok .overL
        else .ok (.accepted { route := new.1.dropLast, demand := dem, cost := new.2, updated := true })
      else .ok (.accepted { route := (r.route ++ [i, 0]).dropLast, demand := dem, cost := ub, updated := false })

/-- `unrouted.remove(i)`, util.py 165-167. -/
def cmtRemove (unrouted : List ℕ) (i : ℕ) : Py (List ℕ) :=
  if i ∈ unrouted then .ok (unrouted.erase i) else .error .keyError

/-- The loop over the savings, cmt_2phase.py 117-161. -/
def cmtFill (D : ℕ → ℕ → ℚ) (d : ℕ → ℚ) (C L : Option ℚ) (tsp : CmtTsp) :
    List ℕ → CmtRoute → List ℕ → Py (CmtRoute × List ℕ)
  | [], r, un => .ok (r, un)
  | i :: t, r, un =>
    match cmtInsert D d C L tsp r i with
    | .error e => .error e
    | .ok (.accepted r') =>
      match cmtRemove un i with
      | .error e => .error e
      | .ok un' => cmtFill D d C L tsp t r' un'
    | .ok _ => cmtFill D d C L tsp t r un

/-- The last call of the routine for the route, cmt_2phase.py 168-170 and 199-201. -/
def cmtFinish (tsp : CmtTsp) (r : CmtRoute) : List ℕ × ℚ :=
  if r.updated then (r.route, r.cost) else ((tsp r.route).1.dropLast, (tsp r.route).2)

/-- The order of tuples of a number and a node. See cmt_2phase.py 116 and 334. -/
def cmtLe (a b : ℚ × ℕ) : Bool := decide (a.1 < b.1) || (decide (a.1 = b.1) && decide (a.2 ≤ b.2))

/-- `savings`, cmt_2phase.py 113-116. -/
def cmtSavings (D : ℕ → ℕ → ℚ) (lam : ℚ) (k : ℕ) (unrouted : List ℕ) : List ℕ :=
  (pySort cmtLe (unrouted.map fun n => (D 0 n + lam * D n k, n))).map (·.2)

/-- The variables of `_phase_one`. See cmt_2phase.py 77-92. -/
structure CmtOne where
  unrouted : List ℕ
  seeds : List ℕ
  sol : List ℕ
  total : ℚ
deriving DecidableEq

/-- One round of the main loop of `_phase_one`, cmt_2phase.py 94-180. -/
def cmtOneStep (D : ℕ → ℕ → ℚ) (d : ℕ → ℚ) (C L : Option ℚ) (tsp : CmtTsp) (lam : ℚ) (m : CmtSeed) (s : CmtOne) :
    Py CmtOne :=
  match cmtSeed D d m s.unrouted with
  | .error e => .error e
  | .ok k =>
    match cmtRemove s.unrouted k with
    | .error e => .error e
    | .ok un =>
      match cmtFill D d C L tsp (cmtSavings D lam k un) (cmtStart D d C k) un with
      | .error e => .error e
      | .ok (r, un') =>
        .ok { unrouted := un', seeds := s.seeds ++ [k], sol := s.sol ++ (cmtFinish tsp r).1
              total := s.total + (cmtFinish tsp r).2 }

/-- The main loop of `_phase_one`, cmt_2phase.py 92-180. -/
def cmtOneLoop (D : ℕ → ℕ → ℚ) (d : ℕ → ℚ) (C L : Option ℚ) (tsp : CmtTsp) (lam : ℚ) (m : CmtSeed) :
    ℕ → CmtOne → Py (Option CmtOne)
  | 0, _ => .ok none
  | fuel + 1, s =>
    if s.unrouted = [] then .ok (some s)
    else
      match cmtOneStep D d C L tsp lam m s with
      | .error e => .error e
      | .ok s' => cmtOneLoop D d C L tsp lam m fuel s'

/-- `_phase_one`, cmt_2phase.py 72-191. `order` are the customers, shuffled or not. The counter of retries is
left to `cmt_2phase_init`. -/
def cmt_phase_one (D : ℕ → ℕ → ℚ) (d : ℕ → ℚ) (C L : Option ℚ) (tsp : CmtTsp) (lam : ℚ) (m : CmtSeed)
    (order : List ℕ) (fuel : ℕ) : Py (Option (List ℕ × List ℕ × ℚ)) :=
  match cmtOneLoop D d C L tsp lam m fuel ⟨order, [], [], 0⟩ with
  | .error e => .error e
  | .ok none => .ok none
  | .ok (some s) => .ok (some (s.seeds, s.sol ++ [0], s.total))

/-- The solution handed out by an interrupt of `_phase_one`, cmt_2phase.py 181-183. -/
def cmtOneInterrupted (sol unrouted : List ℕ) : List ℕ :=
  sol ++ ((unrouted.filter fun n => ! decide (n ∈ sol)).map fun n => [n]).foldl routes2sol_step [0]

/-! ## The second phase -/

/-- `_routestates2solution`, cmt_2phase.py 194-208. -/
def cmtSolution (tsp : CmtTsp) (routes : List CmtRoute) : List ℕ × ℚ :=
  (routes.flatMap (fun r => (cmtFinish tsp r).1) ++ [0], (routes.map fun r => (cmtFinish tsp r).2).sum)

/-- `eps`, cmt_2phase.py 241-243, with the row given by the seed. -/
def cmtEps (D : ℕ → ℕ → ℚ) (mu : ℚ) (seed n : ℕ) : ℚ := D 0 n + mu * D n seed - D 0 seed

/-- The variables of `_phase_two`. The cache `insertion_infeasible` is the list of the pairs of a route and a
customer that are set. See cmt_2phase.py 213-250. -/
structure CmtTwo where
  unrouted : List ℕ
  routes : List CmtRoute
  infeasible : List (ℕ × ℕ)
  nth : ℕ
  idxs : List ℕ
  made : Bool
  first : Bool
deriving DecidableEq

/-- The parameters of `_phase_two`, and the two choices the code leaves open: the order of the routes after a
shuffle, and `np.argpartition`. See cmt_2phase.py 209-212. -/
structure CmtParams where
  seeds : List ℕ
  mu : ℚ
  most : Bool
  rep : Option ℕ
  shuffle : CmtTwo → List ℕ
  partition : List ℚ → ℕ → List ℕ

/-- The start of a round over the routes, cmt_2phase.py 254-272. `none` means `break`. -/
def cmtRefill (p : CmtParams) (s : CmtTwo) : Option CmtTwo :=
  if s.idxs ≠ [] then some s
  else if s.first then some { s with idxs := p.shuffle s, first := false, made := false }
  else
    match p.rep with
    | none => none
    | some m =>
      let nth := if s.made then s.nth else s.nth + 1
      if nth > m then none
      else some { s with idxs := p.shuffle s, nth := nth, made := false }

/-- The position of the first least value, `np.argmin`. See cmt_2phase.py 64 and 285. -/
def cmtArgmin (vals : List ℚ) : Option ℕ := gmArgmin (fun p => vals.getD p 0) (List.range vals.length)

/-- `r_stars_unrouted` for one customer, cmt_2phase.py 284-301: the position in `route_seed_idxs`. -/
def cmtStar (D : ℕ → ℕ → ℚ) (p : CmtParams) (nth : ℕ) (idxs : List ℕ) (n : ℕ) : Py ℕ :=
  let vals := idxs.map fun k => cmtEps D p.mu (p.seeds.getD k 0) n
  if nth = 1 ∨ idxs.length = 1 then
    match cmtArgmin vals with
    | some q => .ok q
    | none => .error .valueError
  else .ok ((p.partition vals (nth - 1)).idxOf (nth - 1))

/-- `r_stars_unrouted`, cmt_2phase.py 284-301, each with its customer. -/
def cmtStars (D : ℕ → ℕ → ℚ) (p : CmtParams) (nth : ℕ) (idxs : List ℕ) : List ℕ → Py (List (ℕ × ℕ))
  | [] => .ok []
  | n :: t =>
    match cmtStar D p nth idxs n with
    | .error e => .error e
    | .ok q =>
      match cmtStars D p nth idxs t with
      | .error e => .error e
      | .ok qs => .ok ((q, n) :: qs)

/-- The position of the chosen route, cmt_2phase.py 303-311. `np.unique` is sorted, so it is the first
position with the most customers. -/
def cmtChoose (p : CmtParams) (idxs : List ℕ) (stars : List (ℕ × ℕ)) : Option ℕ :=
  if p.most then
    gmArgmin (fun q => - ((stars.filter fun x => decide (x.1 = q)).length : ℚ)) (List.range idxs.length)
  else some 0

/-- The least value of a list that is not empty, `np.min`. See cmt_2phase.py 324. -/
def cmtMin : ℚ → List ℚ → ℚ
  | a, [] => a
  | a, b :: t => cmtMin (min a b) t

/-- `sigmas`, cmt_2phase.py 317-330. -/
def cmtSigma (D : ℕ → ℕ → ℚ) (p : CmtParams) (k : ℕ) (rest : List ℕ) (n : ℕ) : ℚ :=
  match rest.map fun j => cmtEps D p.mu (p.seeds.getD j 0) n with
  | [] => - cmtEps D p.mu (p.seeds.getD k 0) n
  | a :: t => cmtMin a t - cmtEps D p.mu (p.seeds.getD k 0) n

/-- `sigma_ls.sort(reverse=True)`, cmt_2phase.py 332-334. -/
def cmtSigmas (D : ℕ → ℕ → ℚ) (p : CmtParams) (k : ℕ) (rest : List ℕ) (cols : List ℕ) : List ℕ :=
  (pySort (fun a b => cmtLe b a) (cols.map fun n => (cmtSigma D p k rest n, n))).map (·.2)

/-- The variables of the loop over the sigmas. See cmt_2phase.py 337-385. -/
structure CmtTry where
  r : CmtRoute
  unrouted : List ℕ
  infeasible : List (ℕ × ℕ)
  made : Bool

/-- One iteration of it, cmt_2phase.py 346-385. The capacity is tested before the cache. -/
def cmtTryOne (D : ℕ → ℕ → ℚ) (d : ℕ → ℚ) (C L : Option ℚ) (tsp : CmtTsp) (k : ℕ) (i : ℕ) (s : CmtTry) :
    Py CmtTry :=
  match cmtInsert D d C L tsp s.r i with
  | .error e => .error e
  | .ok .overC => .ok s
  | .ok out =>
    if truthy L ∧ (k, i) ∈ s.infeasible then .ok s
    else
      match out with
      | .overC => .ok s
      | .overL => .ok { s with infeasible := (k, i) :: s.infeasible }
      | .accepted r' =>
        match cmtRemove s.unrouted i with
        | .error e => .error e
        | .ok un => .ok { s with r := r', unrouted := un, made := true }

/-- The loop over the sigmas, cmt_2phase.py 341-385. -/
def cmtTryAll (D : ℕ → ℕ → ℚ) (d : ℕ → ℚ) (C L : Option ℚ) (tsp : CmtTsp) (k : ℕ) :
    List ℕ → CmtTry → Py CmtTry
  | [], s => .ok s
  | i :: t, s =>
    match cmtTryOne D d C L tsp k i s with
    | .error e => .error e
    | .ok s' => cmtTryAll D d C L tsp k t s'

/-- The rest of a round once the route at position `q` is chosen, cmt_2phase.py 303-397. -/
def cmtServe (D : ℕ → ℕ → ℚ) (d : ℕ → ℚ) (C L : Option ℚ) (tsp : CmtTsp) (p : CmtParams) (s : CmtTwo)
    (stars : List (ℕ × ℕ)) (q : ℕ) : Py CmtTwo :=
  match idx s.idxs q with
  | .error e => .error e
  | .ok k =>
    let rest := s.idxs.erase k
    let cols := (stars.filter fun x => decide (x.1 = q)).map (·.2)
    match idx s.routes k with
    | .error e => .error e
    | .ok r =>
      match cmtTryAll D d C L tsp k (cmtSigmas D p k rest cols) ⟨r, s.unrouted, s.infeasible, s.made⟩ with
      | .error e => .error e
      | .ok t =>
        .ok { s with
              unrouted := t.unrouted
              routes := if t.made then s.routes.set k t.r else s.routes
              infeasible := t.infeasible
              idxs := rest
              made := t.made }

/-- One round of the main loop of `_phase_two` after its bookkeeping, cmt_2phase.py 277-397. The first branch
is the `continue` of lines 291-293. -/
def cmtTwoStep (D : ℕ → ℕ → ℚ) (d : ℕ → ℚ) (C L : Option ℚ) (tsp : CmtTsp) (p : CmtParams) (s : CmtTwo) :
    Py CmtTwo :=
  if ¬ (s.nth = 1 ∨ s.idxs.length = 1) ∧ s.idxs.length < s.nth then .ok { s with idxs := [] }
  else
    match cmtStars D p s.nth s.idxs s.unrouted with
    | .error e => .error e
    | .ok stars =>
      match cmtChoose p s.idxs stars with
      | none => .error .valueError
      | some q => cmtServe D d C L tsp p s stars q

/-- The main loop of `_phase_two`, cmt_2phase.py 252-397. -/
def cmtTwoLoop (D : ℕ → ℕ → ℚ) (d : ℕ → ℚ) (C L : Option ℚ) (tsp : CmtTsp) (p : CmtParams) :
    ℕ → CmtTwo → Py (Option CmtTwo)
  | 0, _ => .ok none
  | fuel + 1, s =>
    if s.unrouted = [] then .ok (some s)
    else
      match cmtRefill p s with
      | none => .ok (some s)
      | some s1 =>
        match cmtTwoStep D d C L tsp p s1 with
        | .error e => .error e
        | .ok s2 => cmtTwoLoop D d C L tsp p fuel s2

/-- The state before the loop, cmt_2phase.py 213-249. -/
def cmtTwoInit (D : ℕ → ℕ → ℚ) (d : ℕ → ℚ) (C : Option ℚ) (p : CmtParams) (order : List ℕ) : CmtTwo :=
  { unrouted := p.seeds.foldl List.erase order
    routes := p.seeds.map (cmtStart D d C)
    infeasible := [], nth := 1, idxs := [], made := false, first := true }

/-- `_phase_two`, cmt_2phase.py 209-414. The inner `none` is a failure (`0, None, None`), the outer one means
that the fuel ran out. -/
def cmt_phase_two (D : ℕ → ℕ → ℚ) (d : ℕ → ℚ) (C L : Option ℚ) (tsp : CmtTsp) (p : CmtParams) (order : List ℕ)
    (fuel : ℕ) : Py (Option (Option (List ℕ × ℚ))) :=
  match cmtTwoLoop D d C L tsp p fuel (cmtTwoInit D d C p order) with
  | .error e => .error e
  | .ok none => .ok none
  | .ok (some s) => if s.unrouted ≠ [] then .ok (some none) else .ok (some (some (cmtSolution tsp s.routes)))

/-- The solution handed out by an interrupt of `_phase_two`, cmt_2phase.py 398-402. -/
def cmtTwoInterrupted (tsp : CmtTsp) (s : CmtTwo) : List ℕ :=
  let rs := (cmtSolution tsp s.routes).1
  rs.dropLast ++ ((s.unrouted.filter fun n => ! decide (n ∈ rs)).map fun n => [n]).foldl routes2sol_step [0]

/-! ## The heuristic -/

/-- `phase2_repeated_association_with_n_routes`, cmt_2phase.py 531-533. -/
inductive CmtRep where
  | once
  | times (n : ℕ)
  | routes
deriving DecidableEq

/-- `associate_routes`, cmt_2phase.py 531-533. -/
def cmtRep (r : CmtRep) (K : ℕ) : Option ℕ :=
  match r with
  | .once => none
  | .times n => some n
  | .routes => some K

/-- What the shuffles and `np.argpartition` give in one attempt. See cmt_2phase.py 84, 219, 257 and 297. -/
structure CmtLuck where
  order1 : List ℕ
  order2 : List ℕ
  shuffle : CmtTwo → List ℕ
  partition : List ℚ → ℕ → List ℕ

/-- The arguments of `cmt_2phase_init`, cmt_2phase.py 417-423. -/
structure CmtArgs where
  D : ℕ → ℕ → ℚ
  d : ℕ → ℚ
  C : Option ℚ
  L : Option ℚ
  tsp : CmtTsp
  minimize_K : Bool
  lam : ℚ
  mu : ℚ
  seed : CmtSeed
  most : Bool
  rep : CmtRep

/-- The current best: solution, cost and number of routes. See cmt_2phase.py 514-516. -/
structure CmtBest where
  sol : Option (List ℕ)
  f : Option ℚ
  K : Option ℚ
deriving DecidableEq

/-- What an attempt gives: the two pairs of a solution and its cost, and the number of routes of the first.
See cmt_2phase.py 525-552. -/
structure CmtAttempt where
  sol1 : List ℕ
  f1 : ℚ
  K1 : ℕ
  second : Option (List ℕ × ℚ)

/-- The two phases of an attempt, cmt_2phase.py 525-537. -/
def cmtAttempt (a : CmtArgs) (l : CmtLuck) (fuel : ℕ) : Py (Option CmtAttempt) :=
  match cmt_phase_one a.D a.d a.C a.L a.tsp a.lam a.seed l.order1 fuel with
  | .error e => .error e
  | .ok none => .ok none
  | .ok (some (seeds, sol1, f1)) =>
    match cmt_phase_two a.D a.d a.C a.L a.tsp ⟨seeds, a.mu, a.most, cmtRep a.rep seeds.length, l.shuffle, l.partition⟩ l.order2 fuel with
    | .error e => .error e
    | .ok none => .ok none
    | .ok (some second) => .ok (some ⟨sol1, f1, seeds.length, second⟩)

/-- The better one of the two, cmt_2phase.py 553-567. A second phase that failed has no solution, no cost and
zero routes, line 409. -/
def cmtPick (mk : Bool) (t : CmtAttempt) (b : CmtBest) : CmtBest :=
  let f2 := t.second.map (·.2)
  let K2 : Option ℚ := some (if t.second.isSome then (t.K1 : ℚ) else 0)
  let p1 := is_better_sol f2 K2 (some t.f1) (some t.K1) mk
  let b1 := is_better_sol b.f b.K (some t.f1) (some t.K1) mk
  let b2 := is_better_sol b.f b.K f2 K2 mk
  if p1 && b1 then ⟨some t.sol1, some t.f1, some t.K1⟩
  else if !p1 && b2 then ⟨t.second.map (·.1), f2, K2⟩
  else b

/-- The loop of retries, cmt_2phase.py 519-576. -/
def cmtRetry (a : CmtArgs) (luck : ℕ → CmtLuck) (fuel : ℕ) : ℕ → CmtBest → Py (Option CmtBest)
  | 0, b => .ok (some b)
  | r + 1, b =>
    match cmtAttempt a (luck r) fuel with
    | .error e => .error e
    | .ok none => .ok none
    | .ok (some t) =>
      if t.second.isSome then .ok (some (cmtPick a.minimize_K t b))
      else cmtRetry a luck fuel r (cmtPick a.minimize_K t b)

/-- `cmt_2phase_init`, cmt_2phase.py 417-579. `retries` is `number_of_randomized_retries`. Without it there is
one attempt, with the customers and the routes in their order. The inner `none` is Python's `None`. -/
def cmt_2phase_init (a : CmtArgs) (N : ℕ) (retries : Option ℕ) (luck : ℕ → CmtLuck) (fuel : ℕ) :
    Py (Option (Option (List ℕ))) :=
  match retries with
  | some r =>
    match cmtRetry a luck fuel r ⟨none, none, none⟩ with
    | .error e => .error e
    | .ok none => .ok none
    | .ok (some b) => .ok (some b.sol)
  | none =>
    let l : CmtLuck := { order1 := pyRange 1 N, order2 := pyRange 1 N
                         shuffle := fun s => List.range s.routes.length, partition := (luck 0).partition }
    match cmtAttempt a l fuel with
    | .error e => .error e
    | .ok none => .ok none
    | .ok (some t) => .ok (some (cmtPick a.minimize_K t ⟨none, none, none⟩).sol)

end Verif
