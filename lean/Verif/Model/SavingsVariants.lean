import Verif.Model.ParallelSavings
import Verif.Model.LocalSearch
import Verif.Model.Sweep

/-! # Model of the variants of the parallel savings algorithm

`verypy/classic_heuristics/gaskell_savings.py`, `paessens_savings.py`, `suppression_savings.py` and
`cawlip_savings.py`. Matrices are `N×N`. -/

namespace Verif

/-! ## The savings functions -/

/-- The records of a savings function, in the order of the filling, for the criterion `crit`: lines 36-41
and 50-54 of gaskell_savings.py, 46-52 of paessens_savings.py, 55-63 of suppression_savings.py. -/
def savingsRecords (N : ℕ) (D : ℕ → ℕ → ℚ) (crit : ℕ → ℕ → ℚ) : List Saving :=
  (pyRange 1 N).flatMap fun i => (pyRange (i + 1) N).map fun j => (crit i j, -D i j, i, j)

/-- `savings.sort(reverse=True)`. See gaskell_savings.py 42 and 55. -/
def sortSavings (l : List Saving) : List Saving := pySort (fun a b => savingLe b a) l

/-- `np.average(D[0:])`: the mean of all the `N*N` values, gaskell_savings.py 35. The list of the values is
never empty here, as a matrix has at least the depot; the mean of no values (0 here) is not a number there. -/
def npAverage (N : ℕ) (D : ℕ → ℕ → ℚ) : ℚ :=
  ((List.range N).flatMap fun i => (List.range N).map fun j => D i j).sum / (N * N)

/-- `gaskell_lambda_savings_function`, gaskell_savings.py 31-44. -/
def gaskell_lambda_savings_function (N : ℕ) (D : ℕ → ℕ → ℚ) : List Saving :=
  let d_avg := npAverage N D
  sortSavings (savingsRecords N D fun i j =>
    (D i 0 + D 0 j - D i j) * (d_avg + |D 0 i - D 0 j| - D i j))

/-- `gaskell_pi_savings_function`, gaskell_savings.py 46-56. -/
def gaskell_pi_savings_function (N : ℕ) (D : ℕ → ℕ → ℚ) : List Saving :=
  sortSavings (savingsRecords N D fun i j => D i 0 + D 0 j - 2 * D i j)

/-- `paessens_savings_function`, paessens_savings.py 37-54. -/
def paessens_savings_function (N : ℕ) (D : ℕ → ℕ → ℚ) (g f : ℚ) : List Saving :=
  sortSavings (savingsRecords N D fun i j => D i 0 + D 0 j - g * D i j + f * |D i 0 - D 0 j|)

/-! ## One run -/

/-- When an interrupt comes in a run: before the `try` of the savings procedure (parallel_savings.py
90-95; then it carries nothing), in the savings procedure when `routes` has its `m`-th value, or in the
local search after it (which does not handle interrupts, so that it carries nothing). -/
inductive SavInt where
  | before
  | inSavings (m : ℕ)
  | inImprovement

/-- What an interrupt of the savings procedure leads to, for example gaskell_savings.py 98-102: `sol` and
`interrupted` after the `try`. An interrupt that comes without a list is swallowed. The answer is `none`
if no interrupt comes, in particular if `routes` never has its `m`-th value. -/
def savCaught (res : Option (List ℕ) × List (ℕ × Option (List ℕ))) : Option SavInt → Option (Option (List ℕ) × Bool)
  | some .before => some (none, false)
  | some (.inSavings m) =>
    match res.2[m]? with
    | some (_, some isol) => some (some isol, true)
    | some (_, none) => some (none, false)
    | none => none
  | _ => none

/-- The call of the savings procedure, for example gaskell_savings.py 95-102: `sol` and `interrupted`
after the `try`. -/
def savCall (res : Option (List ℕ) × List (ℕ × Option (List ℕ))) (w : Option SavInt) : Option (List ℕ) × Bool :=
  match savCaught res w with
  | some r => r
  | none => (res.1, false)

/-- The comparison with the best, for example gaskell_savings.py 103-109. Without a solution the cost and
the number of routes are infinite: that is only taken when there is nothing yet, and then everything
else is better, just as everything is better than nothing. -/
def savKeep (D : ℕ → ℕ → ℚ) (minimize_K : Bool) (best : Option (List ℕ × ℚ × ℚ)) (sol : Option (List ℕ)) :
    Option (List ℕ × ℚ × ℚ) :=
  match sol with
  | none => best
  | some sol => keepBetter D minimize_K best sol

/-- How a heuristic ends: it returns, or raises `KeyboardInterrupt(best_sol)`. See gaskell_savings.py 111-115. -/
inductive SavEnd where
  | returned (sol : Option (List ℕ))
  | interrupted (sol : Option (List ℕ))
  deriving DecidableEq

/-- The interrupt of the run number `k`. See gaskell_savings.py 94-102. -/
def savAt (int : Option (ℕ × SavInt)) (k : ℕ) : Option SavInt :=
  match int with
  | none => none
  | some (k', w) => if k = k' then some w else none

/-! ## Gaskell -/

/-- `savings_method`, gaskell_savings.py 80-88. -/
inductive GaskellMethod where
  | both | lambda | pi | other
  deriving DecidableEq

/-- `savings_functions`, gaskell_savings.py 79-88. -/
def gaskellLists (N : ℕ) (D : ℕ → ℕ → ℚ) : GaskellMethod → Py (List (List Saving))
  | .both => .ok [gaskell_lambda_savings_function N D, gaskell_pi_savings_function N D]
  | .lambda => .ok [gaskell_lambda_savings_function N D]
  | .pi => .ok [gaskell_pi_savings_function N D]
  | .other => .error .valueError

/-- The loop over the savings functions, gaskell_savings.py 94-115, from the run number `k`. -/
def gaskellRuns (N : ℕ) (D : ℕ → ℕ → ℚ) (d : ℕ → ℚ) (C L : Option ℚ) (minimize_K : Bool)
    (int : Option (ℕ × SavInt)) : List (List Saving) → ℕ → Option (List ℕ × ℚ × ℚ) → Py SavEnd
  | [], _, best => .ok (.returned (best.map (·.1)))
  | savings :: rest, k, best =>
    match parallel_savings_init N D d C L minimize_K savings with
    | .error e => .error e
    | .ok res =>
      match savCall res (savAt int k) with
      | (sol, interrupted) =>
        if interrupted then .ok (.interrupted ((savKeep D minimize_K best sol).map (·.1)))
        else gaskellRuns N D d C L minimize_K int rest (k + 1) (savKeep D minimize_K best sol)

/-- `gaskell_savings_init`, gaskell_savings.py 58-115. -/
def gaskell_savings_init (N : ℕ) (D : ℕ → ℕ → ℚ) (d : ℕ → ℚ) (C L : Option ℚ) (minimize_K : Bool)
    (method : GaskellMethod) (int : Option (ℕ × SavInt)) : Py SavEnd :=
  match gaskellLists N D method with
  | .error e => .error e
  | .ok lists => gaskellRuns N D d C L minimize_K int lists 0 none

/-! ## Paessens -/

/-- A parameter pair `(g, f)`. See paessens_savings.py 84-91. -/
abbrev GF := ℚ × ℚ

/-- `np.linspace(a, a + step * (num - 1), num)`. See paessens_savings.py 86-87. -/
def linspace (a step : ℚ) (num : ℕ) : List ℚ := (List.range num).map fun i => a + step * i

/-- `strategy`, paessens_savings.py 70-76; other strings are not modelled. -/
inductive PaessensStrategy where
  | M1 | M4
  | list (l : List GF)

/-- The parameters in the beginning, paessens_savings.py 84-91. The order of the pairs is that of
`_cartesian_product`, lines 34-35: the second varies fastest. -/
def paessensStart : PaessensStrategy → List GF
  | .M1 => (linspace (8 / 10) (1 / 10) 13).flatMap fun g => (linspace 0 (1 / 10) 11).map fun f => (g, f)
  | .M4 => [(1, 1 / 10), (1, 5 / 10), (14 / 10, 0), (14 / 10, 5 / 10)]
  | .list l => l

/-- The parameters around the best of the first four, paessens_savings.py 136-140. -/
def paessensAround (p : GF) : List GF :=
  [(p.1 - 1 / 10, p.2), (p.1 + 1 / 10, p.2), (p.1, p.2 - 1 / 10), (p.1, p.2 + 1 / 10)]

/-- The improvement of a solution and the removal of the empty routes, paessens_savings.py 111-115.
`None` has no routes for the local search (util.py 90), and is not iterable. The outer `none` tells that
the fuel did not suffice. -/
def paessensImprove (fuel : ℕ) (D : ℕ → ℕ → ℚ) (d : ℕ → ℚ) (do_3opt : Bool) (sol : Option (List ℕ)) :
    Py (Option (List ℕ)) :=
  if do_3opt then
    match do_local_search fuel [op3opt D] (sol.getD []) D (some d) .BEST_ACCEPT .ALL_ACCEPT none with
    | .error e => .error e
    | .ok none => .ok none
    | .ok (some sol) => .ok (some (without_empty_routes sol))
  else
    match sol with
    | none => .error .typeError
    | some sol => .ok (some (without_empty_routes sol))

/-- The `try` of a run, paessens_savings.py 108-120: `sol` and `interrupted` after it. An interrupt of the
local search is swallowed; `sol` is then what the savings procedure returned. -/
def paessensCall (fuel : ℕ) (D : ℕ → ℕ → ℚ) (d : ℕ → ℚ) (do_3opt : Bool)
    (res : Option (List ℕ) × List (ℕ × Option (List ℕ))) (w : Option SavInt) :
    Py (Option (Option (List ℕ) × Bool)) :=
  match w, savCaught res w with
  | some .inImprovement, _ => .ok (some (res.1, false))
  | _, some r => .ok (some r)
  | _, none =>
    match paessensImprove fuel D d do_3opt res.1 with
    | .error e => .error e
    | .ok none => .ok none
    | .ok (some sol) => .ok (some (some sol, false))

/-- `best_params` after a run, paessens_savings.py 124-128; see `savKeep` for runs without a solution. -/
def paessensBest (D : ℕ → ℕ → ℚ) (minimize_K : Bool) (best : Option (List ℕ × ℚ × ℚ)) (params : Option GF)
    (sol : Option (List ℕ)) (p : GF) : Option GF :=
  match sol with
  | none => match params with
    | none => some p
    | some q => some q
  | some sol =>
    if is_better_sol (best.map (·.2.1)) (best.map (·.2.2)) (some (objf sol D))
        (some ((sol.count 0 : ℚ) - 1)) minimize_K then some p else params

/-- The parameters that are added after a run, paessens_savings.py 133-140: `params_idx` is already
increased. `None` cannot be unpacked to a pair. -/
def paessensMore (strategy : PaessensStrategy) (params_idx : ℕ) (params : Option GF) : Py (List GF) :=
  match strategy with
  | .M4 =>
    if params_idx = 4 then
      match params with
      | none => .error .typeError
      | some p => .ok (paessensAround p)
    else .ok []
  | _ => .ok []

/-- The loop over the parameters, paessens_savings.py 99-140: the list has the parameters that are left.
At most `runs` runs. -/
def paessensRuns (fuel N : ℕ) (D : ℕ → ℕ → ℚ) (d : ℕ → ℚ) (C L : Option ℚ) (minimize_K : Bool)
    (strategy : PaessensStrategy) (do_3opt : Bool) (int : Option (ℕ × SavInt)) :
    ℕ → List GF → ℕ → Option (List ℕ × ℚ × ℚ) → Option GF → Py (Option SavEnd)
  | 0, _, _, _, _ => .ok none
  | _ + 1, [], _, best, _ => .ok (some (.returned (best.map (·.1))))
  | runs + 1, p :: rest, k, best, params =>
    match parallel_savings_init N D d C L minimize_K (paessens_savings_function N D p.1 p.2) with
    | .error e => .error e
    | .ok res =>
      match paessensCall fuel D d do_3opt res (savAt int k) with
      | .error e => .error e
      | .ok none => .ok none
      | .ok (some (sol, true)) => .ok (some (.interrupted ((savKeep D minimize_K best sol).map (·.1))))
      | .ok (some (sol, false)) =>
        match paessensMore strategy (k + 1) (paessensBest D minimize_K best params sol p) with
        | .error e => .error e
        | .ok more =>
          paessensRuns fuel N D d C L minimize_K strategy do_3opt int runs (rest ++ more) (k + 1)
            (savKeep D minimize_K best sol) (paessensBest D minimize_K best params sol p)

/-- `paessens_savings_init`, paessens_savings.py 56-141. -/
def paessens_savings_init (fuel N : ℕ) (D : ℕ → ℕ → ℚ) (d : ℕ → ℚ) (C L : Option ℚ) (minimize_K : Bool)
    (strategy : PaessensStrategy) (do_3opt : Bool) (int : Option (ℕ × SavInt)) : Py (Option SavEnd) :=
  paessensRuns fuel N D d C L minimize_K strategy do_3opt int fuel (paessensStart strategy) 0 none none

/-! ## Holmes and Parker -/

/-- The variables that the calls of the savings function share: `suppressed` and `savings_cache`.
See suppression_savings.py 36 and 120-130. -/
structure SupState where
  suppressed : List (ℕ × ℕ)
  cache : List Saving

/-- The savings of the first call, suppression_savings.py 47-64. -/
def supFirst (N : ℕ) (D : ℕ → ℕ → ℚ) (suppressed : List (ℕ × ℕ)) : List Saving :=
  sortSavings (savingsRecords N D fun i j =>
    if suppressed.contains (i, j) then 0 else max 0 (D i 0 + D 0 j - D i j))

/-- The loop over the topmost savings, suppression_savings.py 68-75. It runs past the end of the list if
all of it is suppressed. -/
def supZero (suppressed : List (ℕ × ℕ)) : List Saving → Py (List Saving)
  | [] => .error .indexError
  | sv :: rest =>
    if suppressed.contains (sv.2.2.1, sv.2.2.2) then
      match supZero suppressed rest with
      | .error e => .error e
      | .ok rest => .ok ((0, sv.2) :: rest)
    else .ok (sv :: rest)

/-- The reuse of the savings, suppression_savings.py 65-78. Sorting a list that was not changed since it
was sorted changes nothing, so it is sorted in any case. -/
def supAgain (s : SupState) : Py (List Saving) :=
  match supZero s.suppressed s.cache with
  | .error e => .error e
  | .ok l => .ok (sortSavings l)

/-- `supression_savings_function` with a list as the cache, suppression_savings.py 36-87: the savings and
the new values of the shared variables. -/
def supression_savings_function (N : ℕ) (D : ℕ → ℕ → ℚ) (s : SupState) : Py (List Saving × SupState) :=
  match (if s.cache = [] then .ok (supFirst N D s.suppressed) else supAgain s : Py (List Saving)) with
  | .error e => .error e
  | .ok l =>
    match idx l 0 with
    | .error e => .error e
    | .ok sv => .ok (l, ⟨setAddP s.suppressed (sv.2.2.1, sv.2.2.2), l⟩)
where
  /-- `suppressed.add`, suppression_savings.py 84. -/
  setAddP (s : List (ℕ × ℕ)) (p : ℕ × ℕ) : List (ℕ × ℕ) := if s.contains p then s else s ++ [p]

/-- The loop of the heuristic, suppression_savings.py 127-156, for so many runs from the run number `k`.
If an interrupt comes before the `try` of the savings procedure, the savings function is not called. -/
def supRuns (N : ℕ) (D : ℕ → ℕ → ℚ) (d : ℕ → ℚ) (C L : Option ℚ) (minimize_K : Bool)
    (int : Option (ℕ × SavInt)) : ℕ → ℕ → SupState → Option (List ℕ × ℚ × ℚ) → Py SavEnd
  | 0, _, _, best => .ok (.returned (best.map (·.1)))
  | runs + 1, k, s, best =>
    match savAt int k with
    | some .before => supRuns N D d C L minimize_K int runs (k + 1) s best
    | w =>
      match supression_savings_function N D s with
      | .error e => .error e
      | .ok (savings, s) =>
        match parallel_savings_init N D d C L minimize_K savings with
        | .error e => .error e
        | .ok res =>
          match savCall res w with
          | (sol, interrupted) =>
            if interrupted then .ok (.interrupted ((savKeep D minimize_K best sol).map (·.1)))
            else supRuns N D d C L minimize_K int runs (k + 1) s (savKeep D minimize_K best sol)

/-- The number of the runs, suppression_savings.py 110-115: `none` is `"auto"`. `len(D)-1` customers. -/
def supCount (N : ℕ) (Lprime : Option ℕ) : ℕ :=
  let n := N - 1
  min (match Lprime with
    | none => n / 7 + 5
    | some l => l) ((n * n - n) / 2)

/-- `suppression_savings_init`, suppression_savings.py 89-156. -/
def suppression_savings_init (N : ℕ) (D : ℕ → ℕ → ℚ) (d : ℕ → ℚ) (C L : Option ℚ) (minimize_K : Bool)
    (Lprime : Option ℕ) (int : Option (ℕ × SavInt)) : Py SavEnd :=
  supRuns N D d C L minimize_K int (supCount N Lprime) 0 ⟨[], []⟩ none

/-! ## Robbins and Turner -/

/-- `cawlip_savings_init`, cawlip_savings.py 28-49, when no interrupt comes; see `cawlip_savings_end`. -/
def cawlip_savings_init (fuel N : ℕ) (D : ℕ → ℕ → ℚ) (d : ℕ → ℚ) (C L : Option ℚ) (minimize_K : Bool) :
    Py (Option (List ℕ)) :=
  match parallel_savings_init N D d C L minimize_K (clarke_wright_savings_function N D) with
  | .error e => .error e
  | .ok (sol, _) => do_local_search fuel [op2opt D] (sol.getD []) D (some d) .BEST_ACCEPT .ALL_ACCEPT none

/-- `cawlip_savings_init`, cawlip_savings.py 28-49, with an interrupt. There is no handler: one that comes in the
savings procedure is passed on with what that attaches to it (parallel_savings.py 179-181), others carry nothing. -/
def cawlip_savings_end (fuel N : ℕ) (D : ℕ → ℕ → ℚ) (d : ℕ → ℚ) (C L : Option ℚ) (minimize_K : Bool)
    (int : Option SavInt) : Py (Option SavEnd) :=
  match parallel_savings_init N D d C L minimize_K (clarke_wright_savings_function N D) with
  | .error e => .error e
  | .ok (sol, seen) =>
    let attached : Option (Option (List ℕ)) := match int with
      | none => none
      | some .before => some none
      | some (.inSavings m) => seen[m]?.map (·.2)
      | some .inImprovement => some none
    match attached with
    | some isol => .ok (some (.interrupted isol))
    | none =>
      match do_local_search fuel [op2opt D] (sol.getD []) D (some d) .BEST_ACCEPT .ALL_ACCEPT none with
      | .error e => .error e
      | .ok none => .ok none
      | .ok (some sol) => .ok (some (.returned (some sol)))

end Verif
