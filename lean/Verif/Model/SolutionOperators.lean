import Verif.Model.Py

/-!
# The 3-opt* move on a whole solution

`_build_cumulative_lists`, `_check_3opt_move`, `MOVES_3OPTSTAR` and `do_3optstar_move`,
local_search/solution_operators.py 45-598. `demands=None` is the function that is zero everywhere: it leaves
the cumulative demands at zero, lines 67-68. A solution given as `SolutionAuxiliaryData` and the option
`return_solution_with_auxiliary_data` (which raises `NotImplementedError`) are left out, and so is the debug
output. Positions `i`, `j`, `k` come from `range(.., sN-1)`, so `solution[i]` and `solution[i+1]` are read
with a default that is never used; the positions in the recipes are read with an explicit error.
-/

namespace Verif

/-- The loop of `_build_cumulative_lists`, solution_operators.py 57-75: demand and cost for each position. -/
def s3Cum (D : ℕ → ℕ → ℚ) (d : ℕ → ℚ) : ℕ → ℚ → ℚ → List ℕ → List (ℚ × ℚ)
  | _, _, _, [] => []
  | prev, cd, cl, n :: t =>
    let cd' := if n = 0 then 0 else cd + d n
    let cl' := if n = 0 then 0 else cl + D prev n
    (cd', cl') :: s3Cum D d n cd' cl' t

/-- `_build_cumulative_lists(solution, D, d, +1)`, solution_operators.py 45-83. -/
def s3Fwd (D : ℕ → ℕ → ℚ) (d : ℕ → ℚ) : List ℕ → List (ℚ × ℚ)
  | [] => []
  | _ :: t => (0, 0) :: s3Cum D d 0 0 0 t

/-- `_build_cumulative_lists(solution, D, d, -1)`, solution_operators.py 45-83: filled from the last but one
position to the first. -/
def s3Rwd (D : ℕ → ℕ → ℚ) (d : ℕ → ℚ) (sol : List ℕ) : List (ℚ × ℚ) :=
  match sol.reverse with
  | [] => []
  | _ :: t => ((0, 0) :: s3Cum D d 0 0 0 t).reverse

/-- What is passed to the checker of a move, solution_operators.py 550-553, but for the matrix, the limits,
the required change and the edges. The tables have the six entries `0` to `5`. -/
structure S3Data where
  removed : ℚ
  end_p : ℕ → ℕ
  end_n : ℕ → ℕ
  cum_d : ℕ → ℚ
  cum_l : ℕ → ℚ
  l12 : Option ℕ
  l34 : Option ℕ

/-- `end_p[prev_edge[1]]<=ldepot<=end_p[curr_edge[0]] or ...`, solution_operators.py 118-123. -/
def s3Between (l : Option ℕ) (a b : ℕ) : Bool :=
  match l with
  | none => false
  | some p => (decide (a ≤ p) && decide (p ≤ b)) || (decide (p ≤ a) && decide (b ≤ p))

/-- Is there a depot between the end of the previous edge and the start of the current one,
solution_operators.py 117-123. The first edge has no previous one. -/
def s3Depot (t : S3Data) (prev : Option (ℕ × ℕ)) (curr : ℕ × ℕ) : Py Bool :=
  if curr.1 = 0 then .ok true
  else
    match prev with
    | none => .error .typeError
    | some p => .ok (decide (p.2 = 5) || s3Between t.l12 (t.end_p p.2) (t.end_p curr.1) ||
        s3Between t.l34 (t.end_p p.2) (t.end_p curr.1))

/-- The loop over the edges of `_check_3opt_move`, solution_operators.py 106-151. -/
def s3Feasible (D : ℕ → ℕ → ℚ) (C L : Option ℚ) (t : S3Data) :
    List (ℕ × ℕ) → Option (ℕ × ℕ) → ℚ → ℚ → Py Bool
  | [], _, _, _ => .ok true
  | e :: es, prev, rd, rl =>
    match s3Depot t prev e with
    | .error x => .error x
    | .ok reset =>
      let rd1 := if truthy C then (if reset then t.cum_d e.1 else rd) + t.cum_d e.2 else rd
      let rl1 := if truthy L then (if reset then t.cum_l e.1 else rl) + (D (t.end_n e.1) (t.end_n e.2) + t.cum_l e.2)
        else rl
      if exceeds C C_EPS rd1 then .ok false
      else if exceeds L S_EPS rl1 then .ok false
      else s3Feasible D C L t es (some e) rd1 rl1

/-- The added less the removed weights, solution_operators.py 97-100. -/
def s3Delta (D : ℕ → ℕ → ℚ) (t : S3Data) (edges : List (ℕ × ℕ)) : ℚ :=
  (edges.map fun e => D (t.end_n e.1) (t.end_n e.2)).sum - t.removed

/-- The checker of a move: the required change, the edges and the tables.
See solution_operators.py 410 and 550-553. -/
abbrev S3Checker := ℚ → List (ℕ × ℕ) → S3Data → Py (Option ℚ)

/-- `_check_3opt_move`, solution_operators.py 85-160. -/
def check_3opt_move (D : ℕ → ℕ → ℚ) (C L : Option ℚ) : S3Checker := fun best edges t =>
  if s3Delta D t edges + S_EPS < best then
    match s3Feasible D C L t edges none 0 0 with
    | .error x => .error x
    | .ok true => .ok (some (s3Delta D t edges))
    | .ok false => .ok none
  else .ok none

/-- `MoveDefinition`, solution_operators.py 165-174; the flags for the loops are never read. The direction of
a part of the recipe is `true` for `1` and `false` for `-1`. -/
structure S3Move where
  idx : ℕ
  edges : List (ℕ × ℕ)
  recipe : List (Option ℕ × Option ℕ × Bool)

/-- `MOVES_3OPTSTAR`, solution_operators.py 176-398. -/
def moves3optstar : List S3Move := [
  ⟨0, [(0, 1), (2, 4), (3, 5)], [(none, some 3, true), (some 4, some 2, false), (some 5, none, true)]⟩,
  ⟨1, [(0, 4), (3, 2), (1, 5)], [(none, some 1, true), (some 4, some 0, false), (some 5, none, true)]⟩,
  ⟨2, [(0, 2), (1, 3), (4, 5)], [(none, some 1, true), (some 2, some 0, false), (some 3, none, true)]⟩,
  ⟨3, [(0, 2), (1, 4), (3, 5)], [(none, some 1, true), (some 2, some 0, false), (some 4, some 2, false),
    (some 5, none, true)]⟩,
  ⟨4, [(0, 3), (4, 1), (2, 5)], [(none, some 1, true), (some 3, some 5, true), (some 1, some 3, true),
    (some 5, none, true)]⟩,
  ⟨5, [(0, 3), (4, 2), (1, 5)], [(none, some 1, true), (some 3, some 5, true), (some 2, some 0, false),
    (some 5, none, true)]⟩,
  ⟨6, [(0, 4), (3, 1), (2, 5)], [(none, some 1, true), (some 4, some 2, false), (some 1, some 3, true),
    (some 5, none, true)]⟩,
  ⟨7, [(0, 3), (4, 5), (2, 1)], [(none, some 1, true), (some 3, none, true), (some 7, some 3, true),
    (some 1, some 7, true)]⟩,
  ⟨8, [(0, 4), (3, 5), (2, 1)], [(none, some 1, true), (some 4, some 2, false), (some 5, none, true),
    (some 7, some 3, true), (some 1, some 7, true)]⟩,
  ⟨9, [(0, 5), (2, 3), (4, 1)], [(none, some 1, true), (some 5, none, true), (some 7, some 5, true),
    (some 1, some 7, true)]⟩,
  ⟨10, [(0, 5), (1, 3), (4, 2)], [(none, some 1, true), (some 5, none, true), (some 7, some 3, true),
    (some 4, some 2, false), (some 1, some 7, true)]⟩,
  ⟨11, [(0, 1), (2, 5), (4, 3)], [(none, some 3, true), (some 5, none, true), (some 9, some 5, true),
    (some 3, some 9, true)]⟩,
  ⟨12, [(0, 2), (1, 5), (4, 3)], [(none, some 1, true), (some 2, some 0, false), (some 5, none, true),
    (some 9, some 5, true), (some 3, some 9, true)]⟩,
  ⟨13, [(0, 5), (4, 1), (2, 3)], [(none, some 1, true), (some 5, none, true), (some 9, some 5, true),
    (some 1, some 9, true)]⟩,
  ⟨14, [(0, 5), (4, 2), (1, 3)], [(none, some 1, true), (some 5, none, true), (some 9, some 5, true),
    (some 2, some 0, false), (some 3, some 9, true)]⟩,
  ⟨15, [(0, 5), (2, 1), (4, 3)], [(none, some 1, true), (some 5, none, true), (some 7, some 3, true),
    (some 1, some 7, true), (some 9, some 5, true), (some 3, some 9, true)]⟩]

/-- The moves tried, solution_operators.py 401-404 and 536-546. -/
def s3Moves (l12 l34 : Option ℕ) : List S3Move :=
  if l12.isSome && l34.isSome then moves3optstar
  else if l12.isSome then moves3optstar.take 11
  else if l34.isSome then moves3optstar.take 7 ++ (moves3optstar.drop 11).take 4
  else moves3optstar.take 7

/-- `best_move` and `best_delta`. A move is its index, the change and the ten cut positions.
See solution_operators.py 418-419 and 556-561. -/
structure S3Best where
  move : Option (ℕ × ℚ × List (Option ℕ))
  delta : ℚ

/-- The positions of the outermost depots of a segment after the node `n` at position `p` was seen,
solution_operators.py 460-463 and 484-487. -/
def s3See (lr : Option ℕ × Option ℕ) (n p : ℕ) : Option ℕ × Option ℕ :=
  if n = 0 then (if lr.1 = none then some p else lr.1, some p) else lr

/-- What `do_3optstar_move` reads of the solution: the nodes and the cumulative lists.
See solution_operators.py 425-436. -/
structure S3Sol where
  node : ℕ → ℕ
  fwd : ℕ → ℚ × ℚ
  rwd : ℕ → ℚ × ℚ

/-- The tables for `i`, `j` and `k`, solution_operators.py 453-456, 470-481 and 490-527. (In the code parts of
them are kept while the inner loops run.) -/
def s3Data (D : ℕ → ℕ → ℚ) (C L : Option ℚ) (s : S3Sol) (i j k : ℕ) (l12 l34 : Option ℕ) : S3Data :=
  { removed := D (s.node i) (s.node (i + 1)) + D (s.node j) (s.node (j + 1)) + D (s.node k) (s.node (k + 1))
    end_p := fun e => [i, i + 1, j, j + 1, k, k + 1].getD e 0
    end_n := fun e => [s.node i, s.node (i + 1), s.node j, s.node (j + 1), s.node k, s.node (k + 1)].getD e 0
    cum_d := fun e => if truthy C then
        [(s.fwd i).1,
         (s.rwd (i + 1)).1 - (if l12 = none then (s.rwd (j + 1)).1 else 0),
         (s.fwd j).1 - (if l12 = none then (s.fwd i).1 else 0),
         (s.rwd (j + 1)).1 - (if l34 = none then (s.rwd (k + 1)).1 else 0),
         (s.fwd k).1 - (if l34 = none then (s.fwd j).1 else 0),
         (s.rwd (k + 1)).1].getD e 0
      else 0
    cum_l := fun e => if truthy L then
        [(s.fwd i).2,
         (s.rwd (i + 1)).2 - (if l12 = none then (s.rwd j).2 else 0),
         (s.fwd j).2 - (if l12 = none then (s.fwd (i + 1)).2 else 0),
         (s.rwd (j + 1)).2 - (if l34 = none then (s.rwd k).2 else 0),
         (s.fwd k).2 - (if l34 = none then (s.fwd (j + 1)).2 else 0),
         (s.rwd (k + 1)).2].getD e 0
      else 0
    l12 := l12
    l34 := l34 }

/-- The cut positions, solution_operators.py 557-561. -/
def s3Cuts (i j k : ℕ) (lr12 lr34 : Option ℕ × Option ℕ) : List (Option ℕ) :=
  [some i, some (i + 1), some j, some (j + 1), some k, some (k + 1), lr12.1.map (· + 1), lr12.2.map (· + 1),
   lr34.1.map (· + 1), lr34.2.map (· + 1)]

/-- The loop over the moves, solution_operators.py 548-566. -/
def s3Try (check : S3Checker) (first : Bool) (t : S3Data) (cuts : List (Option ℕ)) :
    List S3Move → S3Best → Py (S3Best × Bool)
  | [], b => .ok (b, false)
  | mv :: ms, b =>
    match check b.delta mv.edges t with
    | .error x => .error x
    | .ok none => s3Try check first t cuts ms b
    | .ok (some δ) =>
      if first then .ok (⟨some (mv.idx, δ, cuts), δ⟩, true) else s3Try check first t cuts ms ⟨some (mv.idx, δ, cuts), δ⟩

/-- The loop over `k`, solution_operators.py 483-568. -/
def s3LoopK (D : ℕ → ℕ → ℚ) (C L : Option ℚ) (check : S3Checker) (first : Bool) (s : S3Sol) (i j : ℕ)
    (lr12 : Option ℕ × Option ℕ) : List ℕ → Option ℕ × Option ℕ → S3Best → Py (S3Best × Bool)
  | [], _, b => .ok (b, false)
  | k :: ks, lr34, b =>
    let lr := s3See lr34 (s.node k) k
    match s3Try check first (s3Data D C L s i j k lr12.1 lr.1) (s3Cuts i j k lr12 lr) (s3Moves lr12.1 lr.1) b with
    | .error x => .error x
    | .ok (b', true) => .ok (b', true)
    | .ok (b', false) => s3LoopK D C L check first s i j lr12 ks lr b'

/-- The loop over `j`, solution_operators.py 459-570. -/
def s3LoopJ (D : ℕ → ℕ → ℚ) (C L : Option ℚ) (check : S3Checker) (first : Bool) (s : S3Sol) (sN i : ℕ) :
    List ℕ → Option ℕ × Option ℕ → S3Best → Py (S3Best × Bool)
  | [], _, b => .ok (b, false)
  | j :: js, lr12, b =>
    let lr := s3See lr12 (s.node j) j
    match s3LoopK D C L check first s i j lr (pyRange (j + 1) (sN - 1)) (none, none) b with
    | .error x => .error x
    | .ok (b', true) => .ok (b', true)
    | .ok (b', false) => s3LoopJ D C L check first s sN i js lr b'

/-- The loop over `i`, solution_operators.py 447-572. -/
def s3LoopI (D : ℕ → ℕ → ℚ) (C L : Option ℚ) (check : S3Checker) (first : Bool) (s : S3Sol) (sN : ℕ) :
    List ℕ → S3Best → Py (S3Best × Bool)
  | [], b => .ok (b, false)
  | i :: is, b =>
    match s3LoopJ D C L check first s sN i (pyRange (i + 1) (sN - 1)) (none, none) b with
    | .error x => .error x
    | .ok (b', true) => .ok (b', true)
    | .ok (b', false) => s3LoopI D C L check first s sN is b'

/-- `solution[from_pos:to_pos:direction]`. With the direction `-1` both ends are given and not negative.
See solution_operators.py 591. -/
def s3Slice (sol : List ℕ) (a b : Option ℕ) (fwd : Bool) : List ℕ :=
  if fwd then
    (match b with
      | none => sol
      | some b => sol.take b).drop (a.getD 0)
  else
    ((match a with
      | none => sol
      | some a => sol.take (a + 1)).drop (match b with
        | none => 0
        | some b => b + 1)).reverse

/-- The position to start from, with the depot skipped if the new solution ends with one already,
solution_operators.py 586-589. (A position `0` with the direction `-1` would become `-1`; the moves never do
that, because both `j` and `k` are positive.) -/
def s3From (sol acc : List ℕ) (a : Option ℕ) (fwd : Bool) : Py (Option ℕ) :=
  if acc.getLast? = some 0 then
    match a with
    | none => .ok none
    | some p =>
      match idx sol p with
      | .error x => .error x
      | .ok n => if n = 0 then .ok (some (if fwd then p + 1 else p - 1)) else .ok (some p)
  else .ok a

/-- The loop over the recipe, solution_operators.py 577-591. -/
def s3Concat (sol : List ℕ) (cuts : List (Option ℕ)) :
    List (Option ℕ × Option ℕ × Bool) → List ℕ → Py (List ℕ)
  | [], acc => .ok acc
  | (a, b, fwd) :: r, acc =>
    match s3From sol acc (a.bind fun x => cuts.getD x none) fwd with
    | .error x => .error x
    | .ok a' => s3Concat sol cuts r (acc ++ s3Slice sol a' (b.bind fun x => cuts.getD x none) fwd)

/-- The result for the best move, solution_operators.py 574-598. -/
def s3Result (sol : List ℕ) (b : S3Best) : Py (Option (List ℕ × ℚ)) :=
  match b.move with
  | none => .ok none
  | some (m, δ, cuts) =>
    match idx moves3optstar m with
    | .error x => .error x
    | .ok mv =>
      match s3Concat sol cuts mv.recipe [] with
      | .error x => .error x
      | .ok new => .ok (some (new, δ))

/-- `do_3optstar_move`, solution_operators.py 406-598, with the checker of the moves as a parameter. -/
def do_3optstar_move (check : S3Checker) (sol : List ℕ) (D : ℕ → ℕ → ℚ) (d : ℕ → ℚ) (C L : Option ℚ) (first : Bool)
    (best_delta : Option ℚ) : Py (Option (List ℕ × ℚ)) :=
  let s : S3Sol := ⟨fun p => sol.getD p 0, fun p => (s3Fwd D d sol).getD p (0, 0), fun p => (s3Rwd D d sol).getD p (0, 0)⟩
  match s3LoopI D C L check first s sol.length (pyRange 0 (sol.length - 1)) ⟨none, best_delta.getD 0⟩ with
  | .error x => .error x
  | .ok (b, _) => s3Result sol b

end Verif
