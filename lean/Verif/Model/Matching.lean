import Verif.Model.Sweep
import Verif.Model.Sort
import Verif.Model.Util

/-! # Model of `verypy/classic_heuristics/matchingvrp.py`

A frozen set that contains the depot is the sorted list of its customers. The demand cache is left out, as it holds
sums only. The solver of the integer program and the routine for the travelling salesman are given. -/

namespace Verif

/-- `a.union(b)`. See matchingvrp.py 138 and 322. -/
def nsUnion (a b : List ℕ) : List ℕ :=
  pySort (fun x y => decide (x ≤ y)) (a ++ b.filter fun n => ! a.contains n)

/-- `tsp_cache`: the newest entry comes first. See matchingvrp.py 106-109 and 273. -/
abbrev TspCache := List (List ℕ × (List ℕ × ℚ))

/-- `_get_tsp_sol`, matchingvrp.py 106-109. The order in which a frozen set lists its elements is a part of the
routine. -/
def getTsp (tsp : Router) (s : List ℕ) (cache : TspCache) : (List ℕ × ℚ) × TspCache :=
  match cache.lookup s with
  | some v => (v, cache)
  | none => (tsp (0 :: s), (s, tsp (0 :: s)) :: cache)

/-- `_get_demand`, matchingvrp.py 111-114. -/
def nsDemand (d : ℕ → ℚ) (s : List ℕ) : ℚ := ((0 :: s).map d).sum

/-- `_calculate_savings`, matchingvrp.py 130-147. -/
def mbSaving (d : ℕ → ℚ) (C L : Option ℚ) (W : ℚ) (tsp : Router) (a b : List ℕ) (cache : TspCache) : ℚ × TspCache :=
  if exceeds C C_EPS (nsDemand d a + nsDemand d b) then (W, cache)
  else
    let u := getTsp tsp (nsUnion a b) cache
    if exceeds L S_EPS u.1.2 then (W, u.2)
    else
      let s := getTsp tsp a u.2
      let t := getTsp tsp b s.2
      (s.1.2 + t.1.2 - u.1.2, t.2)

/-- The savings of a list of pairs of routes with their numbers; the comprehensions of matchingvrp.py 285-288 and
342-345. -/
def mbEval (d : ℕ → ℚ) (C L : Option ℚ) (W : ℚ) (tsp : Router) :
    List ((List ℕ × ℕ) × (List ℕ × ℕ)) → TspCache → List (ℚ × ℕ × ℕ) × TspCache
  | [], cache => ([], cache)
  | (a, b) :: ps, cache =>
    let s := mbSaving d C L W tsp a.1 b.1 cache
    let r := mbEval d C L W tsp ps s.2
    ((s.1, a.2, b.2) :: r.1, r.2)

/-- The pairs of routes with `i<j`, matchingvrp.py 287-288. -/
def mbPairs (sets : List (List ℕ)) : List ((List ℕ × ℕ) × (List ℕ × ℕ)) :=
  sets.zipIdx.flatMap fun a => (sets.zipIdx.filter fun b => decide (a.2 < b.2)).map fun b => (a, b)

/-- The pairs of the route `a` with number `i` and each other one, matchingvrp.py 342-345. -/
def mbRow (a : List ℕ) (i : ℕ) (sets : List (List ℕ)) : List ((List ℕ × ℕ) × (List ℕ × ℕ)) :=
  (sets.zipIdx.filter fun b => decide (b.2 ≠ i)).map fun b => ((a, i), b)

/-- `_calculate_secondary_criteria`, matchingvrp.py 116-127; `total_route_wt` is a function. -/
def mbSecondary (es : List (ℚ × ℕ × ℕ)) : List ℚ :=
  let total (i : ℕ) : ℚ := (es.map fun e => (if e.2.1 = i then e.1 else 0) + if e.2.2 = i then e.1 else 0).sum
  es.map fun e => -(total e.2.1 + total e.2.2 - 2 * e.1)

/-- `a<b` for the tuples of matchingvrp.py 92-97; the second entry is 0 if there is no secondary criterion. -/
def mbLess (a b : (ℚ × ℕ × ℕ) × ℚ) : Bool :=
  decide (a.1.1 < b.1.1 ∨ (a.1.1 = b.1.1 ∧ (a.2 < b.2 ∨ (a.2 = b.2 ∧
    (a.1.2.1 < b.1.2.1 ∨ (a.1.2.1 = b.1.2.1 ∧ a.1.2.2 < b.1.2.2))))))

/-- `max` of tuples; of nothing it is a `ValueError`. See matchingvrp.py 93 and 96. -/
def mbMax : List ((ℚ × ℕ × ℕ) × ℚ) → Py ((ℚ × ℕ × ℕ) × ℚ)
  | [] => .error .valueError
  | a :: t => .ok (t.foldl (fun m x => if mbLess m x then x else m) a)

/-- `_mmp_solve`, matchingvrp.py 60-104. `mmp` is the solver for the integer program, in which each route that is the
first of a pair is in exactly one chosen pair (`_mmp_add_cnts_sum`, matchingvrp.py 53-58): it gives the values of the
variables, or `none` if there is no optimal solution. Time limits and interrupts in the solver are not modelled. -/
def mmpSolve (mmp : List (ℚ × ℕ × ℕ) → Option (List Bool)) (second : Bool) (es : List (ℚ × ℕ × ℕ)) :
    Py (Option (ℚ × ℕ × ℕ)) :=
  match mmp es with
  | none => .ok none
  | some X =>
    let w2 := if second then mbSecondary es else es.map fun _ => 0
    match mbMax (((es.zip w2).zip X).filterMap fun p => if p.2 then some p.1 else none) with
    | .error e => .error e
    | .ok m => .ok (some m.1)

/-- The state of the main loop. See matchingvrp.py 272-289. -/
structure MbState where
  savings : List (ℚ × ℕ × ℕ)
  sets : List (List ℕ)
  cache : TspCache
  deriving DecidableEq, Repr

/-- The part of a merge before the savings are evaluated, matchingvrp.py 322-341: the new state, the new route and its
number. -/
def mbJoin (s : MbState) (i j : ℕ) : Py (MbState × List ℕ × ℕ) :=
  match idx s.sets i, idx s.sets j with
  | .ok a, .ok b =>
    let savings := (s.savings.filter fun e => decide (e.2.1 ≠ i ∧ e.2.2 ≠ i ∧ e.2.1 ≠ j ∧ e.2.2 ≠ j)).map fun e =>
      (e.1, if e.2.1 < j then e.2.1 else e.2.1 - 1, if e.2.2 < j then e.2.2 else e.2.2 - 1)
    let sets := s.sets.eraseIdx j
    let i' := if i > j then i - 1 else i
    match setIdx sets i' (nsUnion a b) with
    | .error e => .error e
    | .ok sets => .ok (⟨savings, sets, s.cache⟩, nsUnion a b, i')
  | .error e, _ => .error e
  | _, .error e => .error e

/-- A merge of the routes `i` and `j`, matchingvrp.py 322-346. -/
def mbMerge (d : ℕ → ℚ) (C L : Option ℚ) (W : ℚ) (tsp : Router) (s : MbState) (i j : ℕ) : Py MbState :=
  match mbJoin s i j with
  | .error e => .error e
  | .ok (s, a, i) =>
    let r := mbEval d C L W tsp (mbRow a i s.sets) s.cache
    .ok ⟨s.savings ++ r.1, s.sets, r.2⟩

/-- The body of the main loop, matchingvrp.py 290-351: `none` is `break`. An empty list of savings is the `ValueError`
of unpacking `zip(*savings)`. The debug output is left out. -/
def mbStep (d : ℕ → ℚ) (C L : Option ℚ) (minimizeK second : Bool) (W : ℚ) (tsp : Router)
    (mmp : List (ℚ × ℕ × ℕ) → Option (List Bool)) (s : MbState) : Py (Option MbState) :=
  if s.savings = [] then .error .valueError
  else if !s.savings.any fun e => decide (e.1 ≠ W ∧ e.1 ≠ 0) then .ok none
  else
    match mmpSolve mmp second s.savings with
    | .error e => .error e
    | .ok none => .ok none
    | .ok (some (best, i, j)) =>
      if best = W then .ok none
      else if !minimizeK && decide (best < 0) then .ok (some s)
      else
        match mbMerge d C L W tsp s i j with
        | .error e => .error e
        | .ok s => .ok (some s)

/-- The main loop: the state in which it is left, or `none` if out of fuel. See matchingvrp.py 290-351. -/
def mbLoop (f : MbState → Py (Option MbState)) : ℕ → MbState → Py (Option MbState)
  | 0, _ => .ok none
  | fuel + 1, s =>
    match f s with
    | .error e => .error e
    | .ok none => .ok (some s)
    | .ok (some s) => mbLoop f fuel s

/-- The routes before the main loop, matchingvrp.py 281. -/
def mbSingles (N : ℕ) : List (List ℕ) := (pyRange 1 N).map fun i => [i]

/-- The state before the main loop, matchingvrp.py 272-288. -/
def mbStart (d : ℕ → ℚ) (C L : Option ℚ) (N : ℕ) (W : ℚ) (tsp : Router) : MbState :=
  let r := mbEval d C L W tsp (mbPairs (mbSingles N)) []
  ⟨r.1, mbSingles N, r.2⟩

/-- The tours of the routes, matchingvrp.py 359. -/
def mbRoutes (tsp : Router) : List (List ℕ) → TspCache → List (List ℕ)
  | [], _ => []
  | s :: ss, cache =>
    let r := getTsp tsp s cache
    r.1.1 :: mbRoutes tsp ss r.2

/-- `mbsa_init` with the default callbacks, or without the second one, matchingvrp.py 238-362. `none` is out of
fuel. -/
def mbsa_init (d : ℕ → ℚ) (C L : Option ℚ) (N : ℕ) (minimizeK second : Bool) (W : ℚ) (tsp : Router)
    (mmp : List (ℚ × ℕ × ℕ) → Option (List Bool)) (fuel : ℕ) : Py (Option (List ℕ)) :=
  match mbLoop (mbStep d C L minimizeK second W tsp mmp) fuel (mbStart d C L N W tsp) with
  | .error e => .error e
  | .ok none => .ok none
  | .ok (some s) => .ok (some ([0] ++ (mbRoutes tsp s.sets s.cache).flatMap fun r => r.drop 1))

/-- The states at the head of the main loop. See matchingvrp.py 290-351. -/
inductive MbReach (d : ℕ → ℚ) (C L : Option ℚ) (N : ℕ) (minimizeK second : Bool) (W : ℚ) (tsp : Router)
    (mmp : List (ℚ × ℕ × ℕ) → Option (List Bool)) : MbState → Prop
  | start : MbReach d C L N minimizeK second W tsp mmp (mbStart d C L N W tsp)
  | step {s s' : MbState} : MbReach d C L N minimizeK second W tsp mmp s →
      mbStep d C L minimizeK second W tsp mmp s = .ok (some s') → MbReach d C L N minimizeK second W tsp mmp s'

/-- The cache after further calls of `_get_tsp_sol`. See matchingvrp.py 106-109. -/
def cacheMore (tsp : Router) (more : List (List ℕ)) (cache : TspCache) : TspCache :=
  more.map (fun x => (x, tsp (0 :: x))) ++ cache

/-- The states in which the handler of interrupts may find the routes, matchingvrp.py 283-356: while the first savings
are evaluated, at the head of the loop or in the solver, and while the savings of a new route are evaluated. An
interrupt between the two assignments of a merge is not modelled. -/
inductive MbInterrupt (d : ℕ → ℚ) (C L : Option ℚ) (N : ℕ) (minimizeK second : Bool) (W : ℚ) (tsp : Router)
    (mmp : List (ℚ × ℕ × ℕ) → Option (List Bool)) : MbState → Prop
  | first (more : List (List ℕ)) : MbInterrupt d C L N minimizeK second W tsp mmp ⟨[], mbSingles N, cacheMore tsp more []⟩
  | head {s : MbState} : MbReach d C L N minimizeK second W tsp mmp s → MbInterrupt d C L N minimizeK second W tsp mmp s
  | row {s s' s'' : MbState} {i j i' : ℕ} {a : List ℕ} (w : ℚ) (more : List (List ℕ)) :
      MbReach d C L N minimizeK second W tsp mmp s → mbStep d C L minimizeK second W tsp mmp s = .ok (some s'') →
      mmpSolve mmp second s.savings = .ok (some (w, i, j)) → (minimizeK = true ∨ 0 ≤ w) →
      mbJoin s i j = .ok (s', a, i') →
      MbInterrupt d C L N minimizeK second W tsp mmp ⟨s'.savings, s'.sets, cacheMore tsp more s'.cache⟩

/-! ## The handler of interrupts -/

/-- An entry of `route_sets` in `_geedy_merge`: a set, or the number of the route it was joined with.
See matchingvrp.py 186 and 192-195. -/
abbrev MbSlot := List ℕ ⊕ ℕ

/-- `a>=b` on the entries of the savings list. See matchingvrp.py 155. -/
def mbGe (a b : ℚ × ℕ × ℕ) : Bool :=
  decide (b.1 < a.1 ∨ (a.1 = b.1 ∧ (b.2.1 < a.2.1 ∨ (a.2.1 = b.2.1 ∧ b.2.2 ≤ a.2.2))))

/-- The first pass, matchingvrp.py 159-186. -/
def mbFirst (D : ℕ → ℕ → ℚ) (L : Option ℚ) (W : ℚ) :
    List (ℚ × ℕ × ℕ) → List ℕ → List MbSlot → TspCache → Py (List MbSlot × TspCache)
  | [], _, slots, cache => .ok (slots, cache)
  | (saving, i, j) :: es, joined, slots, cache =>
    if saving = W then .ok (slots, cache)
    else if joined.contains i || joined.contains j then mbFirst D L W es joined slots cache
    else
      match idx slots i, idx slots j with
      | .ok (.inl a), .ok (.inl b) =>
        let ab := nsUnion a b
        match cache.lookup ab with
        | none =>
          let route := [0] ++ (0 :: ab) ++ [0]
          let f := objf route D
          mbFirst D L W es joined slots
            (if !truthy L || decide (∀ l ∈ L, f - S_EPS < l) then (ab, (route, f)) :: cache else cache)
        | some _ =>
          match setIdx slots i (.inl ab) with
          | .error e => .error e
          | .ok slots =>
            match setIdx slots j (.inr i) with
            | .error e => .error e
            | .ok slots => mbFirst D L W es (j :: i :: joined) slots cache
      | .error e, _ => .error e
      | _, .error e => .error e
      | _, _ => .error .attributeError

/-- `while isinstance(route_sets[i], int): i = route_sets[i]`, matchingvrp.py 192-195; `none` is out of fuel. -/
def mbFollow (slots : List MbSlot) : ℕ → ℕ → Py (Option (ℕ × List ℕ))
  | 0, _ => .ok none
  | fuel + 1, i =>
    match idx slots i with
    | .error e => .error e
    | .ok (.inl a) => .ok (some (i, a))
    | .ok (.inr k) => mbFollow slots fuel k

/-- `dict[key]`. See matchingvrp.py 201-205. -/
def cacheGet (cache : TspCache) (s : List ℕ) : Py (List ℕ × ℚ) :=
  match cache.lookup s with
  | some v => .ok v
  | none => .error .keyError

/-- The best of the four ways to join two chains, matchingvrp.py 210-223: the route and its cost. -/
def mbSmash (D : ℕ → ℕ → ℚ) (ci cj : List ℕ) (li lj : ℚ) : Py (List ℕ × ℚ) :=
  match idx ci 0, idxNeg ci 1, idx cj 0, idxNeg cj 1 with
  | .ok na, .ok nb, .ok nc, .ok nd =>
    let c0 := li + lj + D nb nc - D nb 0 - D nc 0
    let c1 := li + lj + D na nc - D na 0 - D nc 0
    let c2 := li + lj + D nb nd - D nb 0 - D nd 0
    let c3 := li + lj + D na nd - D na 0 - D nd 0
    let m := min (min (min c0 c1) c2) c3
    if c0 = m then .ok ([0] ++ ci ++ cj ++ [0], m)
    else if c1 = m then .ok ([0] ++ ci.reverse ++ cj ++ [0], m)
    else if c2 = m then .ok ([0] ++ ci ++ cj.reverse ++ [0], m)
    else .ok ([0] ++ cj ++ ci ++ [0], m)
  | .error e, _, _, _ => .error e
  | _, .error e, _, _ => .error e
  | _, _, .error e, _ => .error e
  | _, _, _, .error e => .error e

/-- The body of the second pass for the routes `i` and `j`, matchingvrp.py 190-227. `none` is out of fuel. -/
def mbSecondBody (D : ℕ → ℕ → ℚ) (d : ℕ → ℚ) (C L : Option ℚ) (i j : ℕ) (slots : List MbSlot) (cache : TspCache) :
    Py (Option (List MbSlot × TspCache)) :=
  match mbFollow slots (slots.length + 1) i, mbFollow slots (slots.length + 1) j with
  | .error e, _ => .error e
  | .ok none, _ => .ok none
  | _, .error e => .error e
  | _, .ok none => .ok none
  | .ok (some (i, a)), .ok (some (j, b)) =>
    if i = j then .ok (some (slots, cache))
    else
      match cacheGet cache a, cacheGet cache b with
      | .error e, _ => .error e
      | _, .error e => .error e
      | .ok ta, .ok tb =>
        if exceeds C C_EPS (nsDemand d a + nsDemand d b) then .ok (some (slots, cache))
        else
          match mbSmash D ((ta.1.drop 1).dropLast) ((tb.1.drop 1).dropLast) ta.2 tb.2 with
          | .error e => .error e
          | .ok (route, f) =>
            if exceeds L S_EPS f then .ok (some (slots, cache))
            else
              match setIdx slots i (.inl (nsUnion a b)) with
              | .error e => .error e
              | .ok slots =>
                match setIdx slots j (.inr i) with
                | .error e => .error e
                | .ok slots => .ok (some (slots, (nsUnion a b, (route, f)) :: cache))

/-- The second pass, matchingvrp.py 188-227. -/
def mbSecond (D : ℕ → ℕ → ℚ) (d : ℕ → ℚ) (C L : Option ℚ) :
    List (ℚ × ℕ × ℕ) → List MbSlot → TspCache → Py (Option (List MbSlot × TspCache))
  | [], slots, cache => .ok (some (slots, cache))
  | e :: es, slots, cache =>
    match mbSecondBody D d C L e.2.1 e.2.2 slots cache with
    | .error e => .error e
    | .ok none => .ok none
    | .ok (some (slots, cache)) => mbSecond D d C L es slots cache

/-- The solution from the sets, matchingvrp.py 231-236, without the last depot. -/
def mbCollect (cache : TspCache) : List MbSlot → Py (List ℕ)
  | [] => .ok []
  | .inr _ :: ss => mbCollect cache ss
  | .inl a :: ss =>
    match cacheGet cache a, mbCollect cache ss with
    | .error e, _ => .error e
    | _, .error e => .error e
    | .ok t, .ok sol => .ok (t.1.dropLast ++ sol)

/-- `_geedy_merge`, matchingvrp.py 149-236, without a further interrupt. `none` is out of fuel, which does not
happen. -/
def geedyMerge (D : ℕ → ℕ → ℚ) (d : ℕ → ℚ) (C L : Option ℚ) (W : ℚ) (s : MbState) : Py (Option (List ℕ)) :=
  let savings := pySort mbGe s.savings
  match mbFirst D L W savings [] (s.sets.map .inl) s.cache with
  | .error e => .error e
  | .ok (slots, cache) =>
    match mbSecond D d C L savings slots cache with
    | .error e => .error e
    | .ok none => .ok none
    | .ok (some (slots, cache)) =>
      match mbCollect cache slots with
      | .error e => .error e
      | .ok sol => .ok (some (sol ++ [0]))

end Verif
