import Verif.Model.Py

/-! # Model of `verypy/cvrp_io.py` -/

namespace Verif

/-! ## Explicit matrices -/

/-- `EDGE_WEIGHT_FORMAT`, cvrp_io.py 241-242. A format the reader does not know is `other`. -/
inductive EWFormat where
  | fullMatrix | lowerRow | lowerDiagRow | upperRow | upperDiagRow | lowerCol | other
  deriving DecidableEq

/-- Start of `ij_section_pos` as (i, j), cvrp_io.py 252-257. -/
def ijStart : EWFormat → ℕ × ℕ
  | .lowerRow => (0, 1)
  | .upperRow => (1, 0)
  | .lowerCol => (1, 0)
  | _ => (0, 0)

/-- The incrementers of `ij_section_pos`, cvrp_io.py 292-322; `n` is `len(D)`. -/
def ijNext (f : EWFormat) (n : ℕ) (p : ℕ × ℕ) : ℕ × ℕ :=
  let (i, j) := p
  match f with
  | .lowerRow => if i + 1 = j then (0, j + 1) else (i + 1, j)
  | .upperRow => if i + 1 = n then (j + 1 + 1, j + 1) else (i + 1, j)
  | .lowerCol => if i + 1 = n then (j + 1 + 1, j + 1) else (i + 1, j)
  | .fullMatrix => if i + 1 = n then (0, j + 1) else (i + 1, j)
  | .lowerDiagRow => if i + 1 = j + 1 then (0, j + 1) else (i + 1, j)
  | .upperDiagRow => if i + 1 = n then (j + 1, j + 1) else (i + 1, j)
  | .other => (i, j)

/-- The final position the reader demands, cvrp_io.py 363-370. -/
def ijComplete (f : EWFormat) (n : ℕ) (p : ℕ × ℕ) : Bool :=
  match f with
  | .fullMatrix => decide (p = (0, n))
  | .lowerRow => decide (p = (0, n))
  | .lowerDiagRow => decide (p = (0, n))
  | .upperRow => decide (p.1 = n ∧ p.2 + 1 = n)
  | .lowerCol => decide (p.1 = n ∧ p.2 + 1 = n)
  | .upperDiagRow => decide (p = (n, n))
  | .other => false

/-- `D[i][j] = v; D[j][i] = v`, cvrp_io.py 289-290, of an `n×n` matrix. -/
def symSet (D : ℕ → ℕ → ℚ) (i j : ℕ) (v : ℚ) : ℕ → ℕ → ℚ :=
  fun a b => if (a = i ∧ b = j) ∨ (a = j ∧ b = i) then v else D a b

/-- The loop over the values of the section, cvrp_io.py 285-322. The values of all the lines of the
section come in a single list: the line breaks do not matter. Out of range is `IndexError`. -/
def readWeights (f : EWFormat) (n : ℕ) : List ℚ → ℕ × ℕ → (ℕ → ℕ → ℚ) → Py ((ℕ × ℕ) × (ℕ → ℕ → ℚ))
  | [], p, D => .ok (p, D)
  | v :: t, p, D =>
    if p.1 < n ∧ p.2 < n then readWeights f n t (ijNext f n p) (symSet D p.1 p.2 v)
    else .error .indexError

/-- The explicit matrix part of `read_TSPLIB_CVRP`, cvrp_io.py 249-257, 283-322 and 363-372, for a file
of dimension `n` with weight type EXPLICIT. -/
def readExplicit (f : EWFormat) (n : ℕ) (vs : List ℚ) : Py (ℕ → ℕ → ℚ) :=
  match readWeights f n vs (ijStart f) (fun _ _ => 0) with
  | .error e => .error e
  | .ok (p, D) => if ijComplete f n p then .ok D else .error .ioError

/-- The values `write_TSPLIB_file` writes to the section, cvrp_io.py 517-518 and 539-546, for an `n×n`
matrix. Without `float_to_int_precision` a float is written so that it is read back exactly; `int`
truncates towards zero otherwise. The result is the list of the values of all the lines. -/
def writeExplicit (n : ℕ) (D : ℕ → ℕ → ℚ) (selected : List ℕ) (precision : Option ℚ) : List ℚ :=
  let sel := if selected = [] then pyRange 0 n else selected
  let out (x : ℚ) : ℚ := match precision with
    | none => x
    | some p => ((x * p).num.tdiv (x * p).den : ℤ)
  let rec rows : List ℕ → List ℚ
    | [] => []
    | i :: t => (t.map fun j => out (D i j)) ++ rows t
  rows sel

/-! ## Depot permutation -/

/-- `row_col_permutation`, cvrp_io.py 387; `n` is `len(D)`. -/
def depotPerm (n idx_0 : ℕ) : List ℕ := [idx_0] ++ pyRange 0 idx_0 ++ pyRange (idx_0 + 1) n

/-- The two loops over `range(N)`, cvrp_io.py 388-391, on an `n×n` matrix; `N = n-1`. `perm i` is
`row_col_permutation[i]`. -/
def permuteD (n : ℕ) (perm : ℕ → ℕ) (D : ℕ → ℕ → ℚ) : ℕ → ℕ → ℚ :=
  let D1 := (pyRange 0 (n - 1)).foldl (fun D i => fun a b => if b = i then D (perm a) i else D a b) D
  (pyRange 0 (n - 1)).foldl (fun D i => fun a b => if a = i then D i (perm b) else D a b) D1

/-- `demands = [demands[idx_0]]+demands[:idx_0]+demands[idx_0+1:]`, cvrp_io.py 392-397, also used for
the points. -/
def permuteList {α : Type} (l : List α) (idx_0 : ℕ) : Py (List α) :=
  match idx l idx_0 with
  | .error e => .error e
  | .ok x => .ok ([x] ++ l.take idx_0 ++ l.drop (idx_0 + 1))

/-! ## VRPH solutions -/

/-- The loop of `as_VRPH_solution`, cvrp_io.py 487-494. -/
def vrphLoop : List ℕ → Bool → List ℤ
  | [], _ => []
  | node :: t, visit_depot =>
    if node = 0 then vrphLoop t true
    else if visit_depot then -(node : ℤ) :: vrphLoop t false
    else (node : ℤ) :: vrphLoop t visit_depot

/-- `as_VRPH_solution(sol)`, cvrp_io.py 480-496. `max([])` is a `ValueError`. -/
def as_VRPH_solution (sol : List ℕ) : Py (List ℤ) :=
  match sol with
  | [] => .error .valueError
  | a :: t => .ok ([((t.foldl max a : ℕ) : ℤ) + 1] ++ vrphLoop sol false ++ [0])

/-! ## Solution files -/

/-- Python's whitespace, as far as it occurs in the files. See cvrp_io.py 127 and 135. -/
def isWS (c : Char) : Bool := c == ' ' || c == '\t' || c == '\n' || c == '\r'

/-- `s.split()`. See cvrp_io.py 127 and 135. -/
def splitWS : List Char → List (List Char)
  | [] => []
  | c :: t =>
    if isWS c then splitWS t
    else
      match t with
      | [] => [[c]]
      | c' :: _ =>
        if isWS c' then [c] :: splitWS t
        else
          match splitWS t with
          | [] => [[c]]
          | w :: ws => (c :: w) :: ws

/-- `s.split(sep)` for a separator of one character. See cvrp_io.py 126. -/
def splitChar (sep : Char) : List Char → List (List Char)
  | [] => [[]]
  | c :: t =>
    if c = sep then [] :: splitChar sep t
    else
      match splitChar sep t with
      | [] => [[c]]
      | w :: ws => (c :: w) :: ws

/-- `f.readlines()`: the lines with their line ends. See cvrp_io.py 121. -/
def readlines : List Char → List (List Char)
  | [] => []
  | c :: t =>
    if c = '\n' then [c] :: readlines t
    else
      match readlines t with
      | [] => [[c]]
      | w :: ws => (c :: w) :: ws

/-- `str(n)` for a natural number. See cvrp_io.py 503. -/
def showNat (n : ℕ) : List Char := Nat.toDigits 10 n

/-- `"%d"%n` for an integer. See cvrp_io.py 506-510. -/
def showInt (n : ℤ) : List Char := if n < 0 then '-' :: showNat n.natAbs else showNat n.natAbs

/-- `int(s)` for a string of decimal digits; anything else is a `ValueError`. Signs, underscores and
surrounding white space, which Python accepts, are not modelled. See cvrp_io.py 127. -/
def parseNat (s : List Char) : Py ℕ :=
  if s ≠ [] ∧ s.all Char.isDigit then .ok (s.foldl (fun n c => 10 * n + (c.toNat - '0'.toNat)) 0)
  else .error .valueError

/-- The whole list of numbers or the first exception. See cvrp_io.py 127. -/
def parseNats : List (List Char) → Py (List ℕ)
  | [] => .ok []
  | s :: t =>
    match parseNat s with
    | .error e => .error e
    | .ok n =>
      match parseNats t with
      | .error e => .error e
      | .ok ns => .ok (n :: ns)

/-- The routes of `as_OPT_solution`, cvrp_io.py 499: the runs of customers; the depots added to the
ends and removed again are left out. -/
def optFileRoutes (sol : List ℕ) : List (List ℕ) :=
  ((pyGroupby (fun z => decide (z = 0)) sol).filter (fun xr => !xr.1)).map (·.2)

/-- `"\t".join(l)`. See cvrp_io.py 503. -/
def joinTab : List (List Char) → List Char
  | [] => []
  | [w] => w
  | w :: t => w ++ '\t' :: joinTab t

/-- The line of route number `ri+1`, cvrp_io.py 502-504. -/
def optRouteLine (ri : ℕ) (route : List ℕ) : List Char :=
  ['R', 'o', 'u', 't', 'e', ' ', '#'] ++ showNat (ri + 1) ++ [':', ' '] ++ joinTab (route.map showNat) ++ ['\n']

/-- The loop over the routes, cvrp_io.py 501-504. -/
def optRouteLines : ℕ → List (List ℕ) → List Char
  | _, [] => []
  | ri, r :: t => optRouteLine ri r ++ optRouteLines (ri + 1) t

/-- `as_OPT_solution(cost, sol)`, cvrp_io.py 498-511. `fmt` is `%.2f`, used if the cost is not an integer. -/
def as_OPT_solution (fmt : ℚ → List Char) (cost : ℚ) (sol : List ℕ) : List Char :=
  optRouteLines 0 (optFileRoutes sol) ++ ['C', 'o', 's', 't', ' ', ':', ' '] ++
    (if cost.den = 1 then showInt cost.num else fmt cost) ++ ['\n']

/-- The loop over the nodes of a route line, cvrp_io.py 128-133. `solution[-1]` is safe. -/
def optAppend : List ℕ → List ℕ → Bool → List ℕ
  | sol, [], _ => sol
  | sol, p :: t, first =>
    let sol := if first && sol.getLast? != some 0 then sol ++ [0] else sol
    optAppend (sol ++ [p]) t false

/-- The cost of a file: an integer or a float. See cvrp_io.py 505-510. -/
inductive OptCost where
  | int (n : ℕ)
  | float (s : List Char)
  deriving DecidableEq

/-- One line of a solution file, cvrp_io.py 121-143. `isFloat` tells which strings `float()` accepts.
A tuple of a wrong length is a `ValueError`. -/
def optLine (isFloat : List Char → Bool) (l : List Char) (s : List ℕ × Option OptCost) :
    Py (List ℕ × Option OptCost) :=
  let lower := l.map Char.toLower
  let r : Py (List ℕ) :=
    if ['r', 'o', 'u', 't', 'e'] <:+: lower then
      match splitChar ':' l with
      | [_, routestring] =>
        match parseNats (splitWS routestring) with
        | .error e => .error e
        | .ok p_idxs => .ok (optAppend s.1 p_idxs true)
      | _ => .error .valueError
    else .ok s.1
  match r with
  | .error e => .error e
  | .ok sol =>
    if ['c', 'o', 's', 't'] <:+: lower then
      match splitWS l with
      | [_, coststring] =>
        match parseNat coststring with
        | .ok n => .ok (sol, some (.int n))
        | .error _ => if isFloat coststring then .ok (sol, some (.float coststring)) else .error .valueError
      | _ => .error .valueError
    else .ok (sol, s.2)

/-- The loop over the lines, cvrp_io.py 120. -/
def optLines (isFloat : List Char → Bool) : List (List Char) → List ℕ × Option OptCost →
    Py (List ℕ × Option OptCost)
  | [], s => .ok s
  | l :: t, s =>
    match optLine isFloat l s with
    | .error e => .error e
    | .ok s => optLines isFloat t s

/-- `read_OPT_CVRP(file_name)`, cvrp_io.py 107-153, of a file with extension `.opt`. `re_k` is the
number of vehicles the file name tells. `count_k+1` in line 124 is a statement without effect, so
`count_k` stays 0. -/
def read_OPT_CVRP (isFloat : List Char → Bool) (re_k : Option ℕ) (text : List Char) :
    Py (List ℕ × Option OptCost × ℕ) :=
  match optLines isFloat (readlines text) ([0], none) with
  | .error e => .error e
  | .ok (solution, opt_f) =>
    let solution := if 1 < solution.length then solution ++ [0] else solution
    .ok (solution, opt_f, re_k.getD 0)

end Verif
