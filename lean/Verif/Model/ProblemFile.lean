import Verif.Model.CvrpIo

/-! # Model of the problem files of `verypy/cvrp_io.py`

The reader `read_TSPLIB_CVRP`, the reader of the additional constraints and the writer `write_TSPLIB_file`, on the
characters of the file. How the numbers with fractions are written and read is a parameter, as are the distances of
coordinates. -/

namespace Verif

/-! ## Strings -/

/-- `s.strip()`. See cvrp_io.py 224. -/
def strip (s : List Char) : List Char := ((s.dropWhile isWS).reverse.dropWhile isWS).reverse

/-- `sub in s`. See cvrp_io.py 230-262. -/
def occurs (sub : List Char) : List Char → Bool
  | [] => sub.isPrefixOf []
  | c :: t => sub.isPrefixOf (c :: t) || occurs sub t

/-- `int(s)`: digits with a sign, in white space; anything else is a `ValueError` (underscores are not modelled). See
cvrp_io.py 238. -/
def parseInt (s : List Char) : Py ℤ :=
  match strip s with
  | '-' :: t => (parseNat t).map fun n => -(n : ℤ)
  | '+' :: t => (parseNat t).map fun n => (n : ℤ)
  | t => (parseNat t).map fun n => (n : ℤ)

/-! ## The reader -/

/-- What the file `read_TSPLIB_CVRP` reads does not tell: `float(s)`, `_degrees_and_minutes_to_radians` and `calculate_D` of
the points and the weight type, which gives the size of the matrix and its entries. See cvrp_io.py 53-105. -/
structure TsEnv where
  float : List Char → Py ℚ
  geo : ℚ → ℚ
  calcD : List (Option ℚ × Option ℚ) → Option (List Char) → Py (ℕ × (ℕ → ℕ → ℚ))

/-- The values of `section`, cvrp_io.py 204 and 249-280. -/
inductive TsSection where
  | none | weights | demands | depots | coords | display | skip | svc
  deriving DecidableEq

/-- The variables of `read_TSPLIB_CVRP`, cvrp_io.py 204-220. -/
structure TsSt where
  sec : TsSection
  pos : ℕ
  ij : ℕ × ℕ
  N : ℤ
  C : Option ℤ
  points : Option (List (Option ℚ × Option ℚ))
  dd : Option (List (Option ℚ × Option ℚ))
  demands : Option (List (Option ℚ))
  D : Option (ℕ × (ℕ → ℕ → ℚ))
  upd : Bool
  ewt : Option (List Char)
  ewf : Option (List Char)
  depots : List ℤ

/-- The variables at the beginning, cvrp_io.py 204-220. -/
def tsStart : TsSt := ⟨.none, 0, (0, 0), 0, none, none, none, none, none, false, none, none, []⟩

/-- What a line is: nothing, a field with its value, the end, the head of a section, or data. See cvrp_io.py 224-281. -/
inductive TsKind where
  | blank
  | field (name value : List Char)
  | eof
  | head (s : TsSection)
  | data (line : List Char)
  deriving DecidableEq

/-- The kind of a line, cvrp_io.py 223-281. -/
def tsKind (l : List Char) : TsKind :=
  let line := strip l
  if line = [] then .blank
  else if ':' ∈ line then .field (strip (line.takeWhile (· ≠ ':'))) (line.dropWhile (· ≠ ':')).tail
  else if occurs "EOF".toList line then .eof
  else if occurs "EDGE_WEIGHT_SECTION".toList line then .head .weights
  else if occurs "DEMAND_SECTION".toList line then .head .demands
  else if occurs "DEPOT_SECTION".toList line then .head .depots
  else if occurs "NODE_COORD_SECTION".toList line then .head .coords
  else if occurs "DISPLAY_DATA_SECTION".toList line then .head .display
  else if occurs "SVC_TIME_SECTION".toList line then .head .svc
  else .data line

/-- The weight types that are accepted, cvrp_io.py 235-237. -/
def tsTypes : List (List Char) :=
  ["MAX_2D", "MAN_2D", "EXACT_2D", "CEIL_2D", "FLOOR_2D", "EUC_2D", "EXPLICIT", "GEO", "ATT"].map String.toList

/-- The fields the reader knows, cvrp_io.py 226-242. -/
inductive TsField where
  | type | dimension | capacity | ewt | ewf | other
  deriving DecidableEq

/-- Which field a name is, cvrp_io.py 226-242: all but the first need only occur in it. -/
def tsField (name : List Char) : TsField :=
  if name = "TYPE".toList then .type
  else if occurs "DIMENSION".toList name then .dimension
  else if occurs "CAPACITY".toList name then .capacity
  else if occurs "EDGE_WEIGHT_TYPE".toList name then .ewt
  else if occurs "EDGE_WEIGHT_FORMAT".toList name then .ewf
  else .other

/-- A field is read, cvrp_io.py 225-242. -/
def tsSetField (f : TsField) (value : List Char) (s : TsSt) : Py TsSt :=
  match f with
  | .type => if !occurs "CVRP".toList value && !occurs "TSP".toList value then .error .ioError else .ok s
  | .dimension =>
    match parseInt value with
    | .error e => .error e
    | .ok n => .ok { s with N := n - 1 }
  | .capacity =>
    match parseInt value with
    | .error e => .error e
    | .ok n => .ok { s with C := some n }
  | .ewt =>
    if strip value ∈ tsTypes then .ok { s with ewt := some (strip value) } else .error .ioError
  | .ewf => .ok { s with ewf := some (strip value) }
  | .other => .ok s

/-- The format of the weights, cvrp_io.py 252-255 and 292-318. -/
def ewFormat (f : Option (List Char)) : EWFormat :=
  if f = some "FULL_MATRIX".toList then .fullMatrix
  else if f = some "LOWER_ROW".toList then .lowerRow
  else if f = some "LOWER_DIAG_ROW".toList then .lowerDiagRow
  else if f = some "UPPER_ROW".toList then .upperRow
  else if f = some "UPPER_DIAG_ROW".toList then .upperDiagRow
  else if f = some "LOWER_COL".toList then .lowerCol
  else .other

/-- The head of a section is read, cvrp_io.py 249-281; `np.zeros` of a negative size is a `ValueError`. -/
def tsSetSection (k : TsSection) (s : TsSt) : Py TsSt :=
  match k with
  | .weights =>
    if s.N + 1 < 0 then .error .valueError
    else .ok { s with sec := .weights, D := some ((s.N + 1).toNat, fun _ _ => 0), ij := ijStart (ewFormat s.ewf) }
  | .demands => .ok { s with sec := .demands, demands := some (List.replicate (s.N + 1).toNat none), pos := 0 }
  | .depots => .ok { s with sec := .depots, pos := 0 }
  | .coords =>
    .ok { s with sec := .coords, points := some (List.replicate (s.N + 1).toNat (none, none)), pos := 0
                 upd := if s.ewt ≠ some "EXPLICIT".toList then true else s.upd }
  | .display =>
    match s.points with
    | none => .ok { s with sec := .display, dd := some (List.replicate (s.N + 1).toNat (none, none)), upd := false, pos := 0 }
    | some _ => .ok { s with sec := .skip }
  | k => .ok { s with sec := k }

/-- The values of a line of the weights, cvrp_io.py 283-322. -/
def tsWeights (env : TsEnv) (f : EWFormat) (n : ℕ) : List (List Char) → ℕ × ℕ → (ℕ → ℕ → ℚ) → Py ((ℕ × ℕ) × (ℕ → ℕ → ℚ))
  | [], p, D => .ok (p, D)
  | w :: t, p, D =>
    match env.float w with
    | .error e => .error e
    | .ok v => if p.1 < n ∧ p.2 < n then tsWeights env f n t (ijNext f n p) (symSet D p.1 p.2 v) else .error .indexError

/-- `l[i] = x`. See cvrp_io.py 338-353. -/
def setItem {α : Type} (l : List α) (i : ℕ) (x : α) : Py (List α) := if i < l.length then .ok (l.set i x) else .error .indexError

/-- `float(coords[k])`. See cvrp_io.py 326-327, 344-345 and 351. -/
def tsNumber (env : TsEnv) (ws : List (List Char)) (k : ℕ) : Py ℚ :=
  match idx ws k with
  | .error e => .error e
  | .ok w => env.float w

/-- The coordinates of a line, cvrp_io.py 325-327 and 343-345. -/
def tsPoint (env : TsEnv) (line : List Char) : Py (ℚ × ℚ) :=
  match tsNumber env (splitWS line) 1 with
  | .error e => .error e
  | .ok x =>
    match tsNumber env (splitWS line) 2 with
    | .error e => .error e
    | .ok y => .ok (x, y)

/-- A line of data is read, cvrp_io.py 282-359. (The lists are there if the section is.) -/
def tsData (env : TsEnv) (line : List Char) (s : TsSt) : Py TsSt :=
  match s.sec with
  | .weights =>
    match s.D with
    | none => .error .typeError
    | some (n, D) =>
      match tsWeights env (ewFormat s.ewf) n (splitWS line) s.ij D with
      | .error e => .error e
      | .ok (p, D) => .ok { s with ij := p, D := some (n, D) }
  | .coords =>
    match tsPoint env line with
    | .error e => .error e
    | .ok (x, y) =>
      let p := if s.ewt = some "GEO".toList then (env.geo x, env.geo y) else (x, y)
      match setItem (s.points.getD []) s.pos (some p.1, some p.2) with
      | .error e => .error e
      | .ok ps => .ok { s with points := some ps, pos := s.pos + 1 }
  | .display =>
    match tsPoint env line with
    | .error e => .error e
    | .ok p =>
      match setItem (s.dd.getD []) s.pos (some p.1, some p.2) with
      | .error e => .error e
      | .ok ps => .ok { s with dd := some ps, pos := s.pos + 1 }
  | .demands =>
    match tsNumber env (splitWS line) 1 with
    | .error e => .error e
    | .ok c =>
      match setItem (s.demands.getD []) s.pos (some c) with
      | .error e => .error e
      | .ok ds => .ok { s with demands := some ds, pos := s.pos + 1 }
  | .depots =>
    match parseInt line with
    | .error e => .error e
    | .ok v =>
      if 0 < v then
        if 0 < s.depots.length then .error .ioError else .ok { s with depots := s.depots ++ [v] }
      else .ok s
  | _ => .ok s

/-- A line is read, cvrp_io.py 223-359; nothing is the end of the loop. -/
def tsLine (env : TsEnv) (k : TsKind) (s : TsSt) : Py (Option TsSt) :=
  match k with
  | .blank => .ok (some s)
  | .field name value => (tsSetField (tsField name) value s).map some
  | .eof => .ok none
  | .head h => (tsSetSection h s).map some
  | .data line => (tsData env line s).map some

/-- The loop over the lines, cvrp_io.py 223-359. -/
def tsLoop (env : TsEnv) : List TsKind → TsSt → Py TsSt
  | [], s => .ok s
  | k :: t, s =>
    match tsLine env k s with
    | .error e => .error e
    | .ok none => .ok s
    | .ok (some s) => tsLoop env t s

/-- The test of the explicit matrix, cvrp_io.py 363-372; without a matrix `len(D)` is a `TypeError`. -/
def tsCheck (s : TsSt) : Py Unit :=
  if s.ewt = some "EXPLICIT".toList then
    match s.D with
    | none => if ewFormat s.ewf = .other then .error .ioError else .error .typeError
    | some (n, _) => if ijComplete (ewFormat s.ewf) n s.ij then .ok () else .error .ioError
  else .ok ()

/-- `ProblemDefinition`, cvrp_io.py 156-158. -/
structure TsProblem where
  size : ℤ
  points : Option (List (Option ℚ × Option ℚ))
  dd_points : Option (List (Option ℚ × Option ℚ))
  demands : Option (List (Option ℚ))
  D : Option (ℕ × (ℕ → ℕ → ℚ))
  C : Option ℤ
  ewt : Option (List Char)

/-- A list with the depot first, if there is a list that is not empty, cvrp_io.py 392-397. -/
def tsPermuted {α : Type} (l : Option (List α)) (idx_0 : ℕ) : Py (Option (List α)) :=
  match l with
  | none => .ok none
  | some [] => .ok (some [])
  | some l => (permuteList l idx_0).map some

/-- The depot is made the first node, cvrp_io.py 383-397; `idx_0` is its place. The size of the matrix is `N+1` (that the file
changes its dimension after the matrix is not modelled). -/
def tsDepotFirst (idx_0 : ℕ) (P : TsProblem) : Py TsProblem :=
  match P.D with
  | none => .error .typeError
  | some (n, D) =>
    if n ≤ idx_0 ∧ 1 ≤ P.size then .error .indexError
    else
      match tsPermuted P.demands idx_0 with
      | .error e => .error e
      | .ok ds =>
        match tsPermuted P.points idx_0 with
        | .error e => .error e
        | .ok ps =>
          match tsPermuted P.dd_points idx_0 with
          | .error e => .error e
          | .ok dps => .ok { P with D := some (n, permuteD n (fun i => (depotPerm n idx_0).getD i 0) D)
                                    demands := ds, points := ps, dd_points := dps }

/-- The part after the loop, cvrp_io.py 361-403. That a matrix of whole numbers becomes one of integers does not change its
values. -/
def tsFinish (env : TsEnv) (s : TsSt) : Py TsProblem :=
  match tsCheck s with
  | .error e => .error e
  | .ok () =>
    match (if s.upd then (env.calcD (s.points.getD []) s.ewt).map some else .ok s.D) with
    | .error e => .error e
    | .ok D =>
      let P : TsProblem := ⟨s.N, s.points, s.dd, s.demands, D, s.C, s.ewt⟩
      match (if 1 < s.depots.headD 0 then tsDepotFirst ((s.depots.headD 0).toNat - 1) P else .ok P) with
      | .error e => .error e
      | .ok P => if s.ewt = some "GEO".toList then .ok { P with dd_points := P.points, points := none } else .ok P

/-- `read_TSPLIB_CVRP`, cvrp_io.py 159-403, of the text of the file. -/
def read_TSPLIB_CVRP (env : TsEnv) (text : List Char) : Py TsProblem :=
  match tsLoop env ((readlines text).map tsKind) tsStart with
  | .error e => .error e
  | .ok s => tsFinish env s

/-! ## The additional constraints -/

/-- The variables of `read_TSBLIB_additional_constraints`, cvrp_io.py 415-418. -/
structure AddSt where
  K : Option ℤ
  L : Option ℚ
  ST : Option ℚ
  svc : Bool
  deriving DecidableEq

/-- A number that is a float if there is a point in `s`. See cvrp_io.py 423-426 and 432-440. -/
def addNumber (float : List Char → Py ℚ) (s w : List Char) : Py ℚ :=
  if '.' ∈ s then float w else (parseInt w).map fun n => (n : ℚ)

/-- `l.split()[-1]`. See cvrp_io.py 433. -/
def lastWord (l : List Char) : Py (List Char) :=
  match (splitWS l).getLast? with
  | none => .error .indexError
  | some w => .ok w

/-- The last word of a line as a number, cvrp_io.py 432-440. -/
def addLast (float : List Char → Py ℚ) (l : List Char) : Py ℚ :=
  match lastWord l with
  | .error e => .error e
  | .ok w => addNumber float l w

/-- The last word of a line as an integer, cvrp_io.py 442. -/
def addWhole (l : List Char) : Py ℤ :=
  match lastWord l with
  | .error e => .error e
  | .ok w => parseInt w

/-- A line within the section of the service times, cvrp_io.py 421-430. A string is never equal to the number 1, so the depot is
not left out. -/
def addService (float : List Char → Py ℚ) (l : List Char) (s : AddSt) : Py AddSt :=
  match splitWS l with
  | [_, nst] =>
    match addNumber float nst nst with
    | .error e => .error e
    | .ok t =>
      match s.ST with
      | some st => if t ≠ st then .error .ioError else .ok { s with ST := some t }
      | none => .ok { s with ST := some t }
  | _ => .error .valueError

/-- The fields, cvrp_io.py 431-444. -/
def addFields (float : List Char → Py ℚ) (l : List Char) (s : AddSt) : Py AddSt :=
  match (if occurs "DISTANCE".toList l then (addLast float l).map some else .ok s.L) with
  | .error e => .error e
  | .ok L =>
    match (if occurs "SERVICE_TIME".toList l then (addLast float l).map some else .ok s.ST) with
    | .error e => .error e
    | .ok ST =>
      match (if occurs "VEHICLES".toList l then (addWhole l).map some else .ok s.K) with
      | .error e => .error e
      | .ok K => .ok ⟨K, L, ST, s.svc || occurs "SVC_TIME_SECTION".toList l⟩

/-- A line, cvrp_io.py 420-444. -/
def addLine (float : List Char → Py ℚ) (l : List Char) (s : AddSt) : Py AddSt :=
  match (if s.svc then addService float l s else .ok s) with
  | .error e => .error e
  | .ok s => addFields float l s

/-- The loop over the lines, cvrp_io.py 420-444. -/
def addLoop (float : List Char → Py ℚ) : List (List Char) → AddSt → Py AddSt
  | [], s => .ok s
  | l :: t, s =>
    match addLine float l s with
    | .error e => .error e
    | .ok s => addLoop float t s

/-- `read_TSBLIB_additional_constraints`, cvrp_io.py 407-446: the number of vehicles, the limit on the route cost and the service
time. -/
def read_TSBLIB_additional_constraints (float : List Char → Py ℚ) (text : List Char) :
    Py (Option ℤ × Option ℚ × Option ℚ) :=
  (addLoop float (readlines text) ⟨none, none, none, false⟩).map fun s => (s.K, s.L, s.ST)

/-! ## The writer -/

/-- `int(x)`, also of `"%d"%x`. See cvrp_io.py 525-530 and 552. -/
def pyInt (x : ℚ) : ℤ := x.num.tdiv x.den

/-- How a distance is written, cvrp_io.py 540-543. -/
def wToken (fmt : ℚ → List Char) (precision : Option ℚ) (x : ℚ) : List Char :=
  match precision with
  | none => fmt x
  | some p => showInt (pyInt (x * p))

/-- The lines of the matrix, cvrp_io.py 537-546: the last one has no distances and no line end. -/
def wRows (fmt : ℚ → List Char) (precision : Option ℚ) (D : ℕ → ℕ → ℚ) : List ℕ → List Char
  | [] => []
  | i :: t =>
    (t.flatMap fun j => wToken fmt precision (D i j) ++ [' ']) ++ (if t = [] then [] else ['\n']) ++ wRows fmt precision D t

/-- The lines of the demands of the nodes from the second one, cvrp_io.py 550-555; `n` is `len(D)`. -/
def wDemands (n : ℕ) (d : Option (List ℚ)) : List Char :=
  match d with
  | some (_ :: t) => ((pyRange 2 (t.length + 2)).zip t).flatMap fun e => showNat e.1 ++ [' '] ++ showInt (pyInt e.2) ++ ['\n']
  | _ => (pyRange 2 (n + 1)).flatMap fun i => showNat i ++ " 1\n".toList

/-- Whether the file is for a CVRP, cvrp_io.py 519-521. -/
def wCvrp (path : List Char) : Bool := decide ((path.drop (path.length - 4)).map Char.toLower = ".vrp".toList)

/-- The text that `write_TSPLIB_file` writes, cvrp_io.py 513-560, for an `n×n` matrix and nodes within it; `fmt` is `str` of a
distance. -/
def write_TSPLIB_file (fmt : ℚ → List Char) (path : List Char) (n : ℕ) (D : ℕ → ℕ → ℚ) (d : Option (List ℚ))
    (C L : Option ℚ) (selected : List ℕ) (precision : Option ℚ) : List Char :=
  let sel := if selected = [] then pyRange 0 n else selected
  "NAME: temporary\n".toList ++
  (if wCvrp path then
    "TYPE: CVRP\n".toList ++
    ("CAPACITY: ".toList ++ showInt (if truthy C then pyInt (C.getD 0) else n) ++ ['\n']) ++
    (if truthy L then "DISTANCE: ".toList ++ showInt (pyInt (L.getD 0)) ++ ['\n'] else [])
  else "TYPE: TSP\n".toList) ++
  "COMMENT: temporary CVRP or TSP problem\n".toList ++
  ("DIMENSION: ".toList ++ showNat sel.length ++ ['\n']) ++
  "EDGE_WEIGHT_TYPE: EXPLICIT\n".toList ++
  "EDGE_WEIGHT_FORMAT: UPPER_ROW\n".toList ++
  "EDGE_WEIGHT_SECTION\n".toList ++
  wRows fmt precision D sel ++
  (if wCvrp path then
    "DEMAND_SECTION\n".toList ++ "1 0\n".toList ++ wDemands n d ++ "DEPOT_SECTION\n".toList ++ "1\n".toList ++ "-1\n".toList
  else []) ++
  "EOF".toList

end Verif
