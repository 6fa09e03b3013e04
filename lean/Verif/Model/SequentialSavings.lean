import Verif.Model.ParallelSavings

/-! # Model of `verypy/classic_heuristics/sequential_savings.py` -/

namespace Verif

/-- `clarke_wright_savings(unrouted, i, D)`, sequential_savings.py 35-38. The set `unrouted` is a list
in the order of its iteration; the sort removes the dependency on that order. -/
def clarke_wright_savings (D : ℕ → ℕ → ℚ) (unrouted : List ℕ) (i : ℕ) : List Saving :=
  pySort savingLe ((unrouted.filter fun j => i ≠ j).map fun j =>
    (D i 0 + D 0 j - D i j, -D i j, i, j))

/-- The argument `initialize_routes_with`, sequential_savings.py 87-106. -/
inductive SeedMode where
  | farthest | closest | first | last | savings
  | callable (seeds : List ℕ)
  | other

/-- The sort key `(D[0][i],i)`, sequential_savings.py 91. -/
def keyLe (D : ℕ → ℕ → ℚ) (a b : ℕ) : Bool :=
  decide (D 0 a < D 0 b) || (decide (D 0 a = D 0 b) && decide (a ≤ b))

/-- `seed_customers`, sequential_savings.py 87-106. `zip(*[])` can not be unpacked to four variables:
`ValueError`. -/
def seedCustomers (N : ℕ) (D : ℕ → ℕ → ℚ) : SeedMode → Py (List ℕ)
  | .farthest => .ok (pySort (keyLe D) (pyRange 1 N))
  | .closest => .ok (pySort (fun a b => keyLe D b a) (pyRange 1 N))
  | .first => .ok (pyRange 1 N)
  | .last => .ok (pyRange 0 N).reverse
  | .savings =>
    let l := pySort savingLe ((pyRange 1 N).flatMap (clarke_wright_savings D (pyRange 1 N)))
    if l = [] then .error .valueError else .ok (l.map fun sv => sv.2.2.2)
  | .callable seeds => .ok seeds
  | .other => .error .valueError

/-- What an interrupt sees: `solution`, `emerging_route_nodes` and `unrouted`. See sequential_savings.py 201-207. -/
abbrev SSView := List ℕ × Option (List ℕ) × List ℕ

/-- The variables of `sequential_savings_init`. `seen` does not exist in the code: it records the
variables an interrupt uses after each statement that changes them, with the line number.
See sequential_savings.py 83-114. -/
structure SSState where
  solution : List ℕ
  emerging : Option (List ℕ)
  unrouted : List ℕ
  savings : List Saving
  route_d : ℚ
  route_l : ℚ
  seeds : List ℕ
  seen : List (ℕ × SSView)

/-- The loop that finds a seed, sequential_savings.py 118-121. The argument is the seed list
backwards as `pop()` takes the last element. -/
def popSeed (unrouted : List ℕ) : List ℕ → Py (ℕ × List ℕ)
  | [] => .error .indexError
  | seed :: t => if seed ∈ unrouted then .ok (seed, t) else popSeed unrouted t

/-- Start of a new route, sequential_savings.py 117-133. -/
def ssStart (D : ℕ → ℕ → ℚ) (d : ℕ → ℚ) (C L : Option ℚ) (cb : List ℕ → ℕ → List Saving)
    (s : SSState) : Py SSState :=
  if s.savings ≠ [] then .ok s
  else
    match popSeed s.unrouted s.seeds.reverse with
    | .error e => .error e
    | .ok (seed, rest) =>
      let unrouted := s.unrouted.erase seed
      .ok { s with
        seeds := rest.reverse
        emerging := some [seed]
        unrouted := unrouted
        route_d := if truthy C then d seed else 0
        route_l := if truthy L then D 0 seed + D seed 0 else 0
        savings := cb unrouted seed
        seen := s.seen ++ [(123, s.solution, some [seed], s.unrouted),
          (124, s.solution, some [seed], unrouted)] }

/-- The merge of the customer `j` next to `i`, sequential_savings.py 155-184. -/
def ssMerge (D : ℕ → ℕ → ℚ) (d : ℕ → ℚ) (C L : Option ℚ) (cb : List ℕ → ℕ → List Saving) (i j : ℕ)
    (route : List ℕ) (e0 e1 : ℕ) (s : SSState) : SSState :=
  let do_left := decide (e0 = i)
  let do_right := decide (e1 = i) && decide (1 < route.length)
  if !(do_left || do_right) then s
  else
    let l_delta := D 0 j + D i j - D 0 i
    if exceeds L S_EPS (s.route_l + l_delta) then s
    else
      let route1 := if do_left then j :: route else route
      let route2 := if do_right then route1 ++ [j] else route1
      let unrouted := s.unrouted.erase j
      { s with
        route_l := if truthy L then s.route_l + l_delta else s.route_l
        route_d := if truthy C then s.route_d + d j else s.route_d
        emerging := some route2
        unrouted := unrouted
        savings := pySort savingLe (s.savings ++ cb unrouted j)
        seen := s.seen ++ (if do_left then [(177, s.solution, some route1, s.unrouted)] else []) ++
          (if do_right then [(179, s.solution, some route2, s.unrouted)] else []) ++
          [(180, s.solution, some route2, unrouted)] }

/-- The body of the inner loop for a popped saving, sequential_savings.py 141-184. `None[0]` is a
`TypeError`. -/
def ssStep (D : ℕ → ℕ → ℚ) (d : ℕ → ℚ) (C L : Option ℚ) (minimize_K : Bool)
    (cb : List ℕ → ℕ → List Saving) (sv : Saving) (s : SSState) : Py SSState :=
  let i := sv.2.2.1
  let j := sv.2.2.2
  if minimize_K = false ∧ D i 0 + D 0 j - D i j < 0 then .ok { s with savings := [] }
  else if j ∉ s.unrouted then .ok s
  else if exceeds C C_EPS (s.route_d + d j) then .ok s
  else
    match s.emerging with
    | none => .error .typeError
    | some route =>
      match idx route 0, idxNeg route 1 with
      | .error e, _ => .error e
      | _, .error e => .error e
      | .ok e0, .ok e1 => .ok (ssMerge D d C L cb i j route e0 e1 s)

/-- The inner loop, sequential_savings.py 135-184. The answer `none` tells that the fuel, which bounds
the number of iterations, did not suffice. -/
def ssInner (D : ℕ → ℕ → ℚ) (d : ℕ → ℚ) (C L : Option ℚ) (minimize_K : Bool)
    (cb : List ℕ → ℕ → List Saving) : ℕ → SSState → Py (Option SSState)
  | 0, _ => .ok none
  | fuel + 1, s =>
    match s.savings.getLast? with
    | none => .ok (some s)
    | some sv =>
      match ssStep D d C L minimize_K cb sv { s with savings := s.savings.dropLast } with
      | .error e => .error e
      | .ok s' => ssInner D d C L minimize_K cb fuel s'

/-- Completion of the route, sequential_savings.py 196-199. `None.append` is an `AttributeError`, which
the model does not tell from a `TypeError`. -/
def ssFinish (s : SSState) : Py SSState :=
  match s.emerging with
  | none => .error .typeError
  | some route =>
    .ok { s with
      solution := s.solution ++ (route ++ [0])
      emerging := none
      seen := s.seen ++ [(197, s.solution, some (route ++ [0]), s.unrouted),
        (198, s.solution ++ (route ++ [0]), some (route ++ [0]), s.unrouted),
        (199, s.solution ++ (route ++ [0]), none, s.unrouted)] }

/-- The outer loop, sequential_savings.py 115-199. -/
def ssOuter (D : ℕ → ℕ → ℚ) (d : ℕ → ℚ) (C L : Option ℚ) (minimize_K : Bool)
    (cb : List ℕ → ℕ → List Saving) (inner : ℕ) : ℕ → SSState → Py (Option SSState)
  | 0, _ => .ok none
  | fuel + 1, s =>
    if s.unrouted = [] then .ok (some s)
    else
      match ssStart D d C L cb s with
      | .error e => .error e
      | .ok s1 =>
        match ssInner D d C L minimize_K cb inner s1 with
        | .error e => .error e
        | .ok none => .ok none
        | .ok (some s2) =>
          match ssFinish s2 with
          | .error e => .error e
          | .ok s3 => ssOuter D d C L minimize_K cb inner fuel s3

/-- The solution attached to an interrupt, sequential_savings.py 201-207. `routes2sol` is called with
a generator, which is true also if there is nothing to generate, so it never returns `None` here; the
code's in-place extensions are written as concatenation. -/
def ssInterrupted (v : SSView) : List ℕ :=
  v.1 ++ (match v.2.1 with
    | none => []
    | some r => if r = [] then [] else r ++ [0]) ++
    ((v.2.2.map fun n => [n]).foldl routes2sol_step [0]).tail

/-- `sequential_savings_init`, sequential_savings.py 40-209, for an `N×N` matrix. `cb` is the savings
callback applied to the matrix. The answer is the returned solution and, for all the states an
interrupt can see, the line after which it is seen and the solution attached to the interrupt. -/
def sequential_savings_init (fuel N : ℕ) (D : ℕ → ℕ → ℚ) (d : ℕ → ℚ) (C L : Option ℚ)
    (minimize_K : Bool) (mode : SeedMode) (cb : List ℕ → ℕ → List Saving) :
    Py (Option (List ℕ × List (ℕ × List ℕ))) :=
  match seedCustomers N D mode with
  | .error e => .error e
  | .ok seeds =>
    match ssOuter D d C L minimize_K cb fuel fuel
      { solution := [0], emerging := none, unrouted := pyRange 1 N, savings := [], route_d := 0,
        route_l := 0, seeds := seeds, seen := [(113, [0], none, pyRange 1 N)] } with
    | .error e => .error e
    | .ok none => .ok none
    | .ok (some s) => .ok (some (s.solution, s.seen.map fun x => (x.1, ssInterrupted x.2)))

end Verif
