import Verif.Model.Util

/-! # Model of `verypy/local_search/intra_route_operators.py` -/

namespace Verif

/-- `LSOPT`, local_search/__init__.py 32-34. -/
inductive LSOPT where
  | FIRST_ACCEPT
  | BEST_ACCEPT
  deriving DecidableEq, Repr

/-- The search state of an operator: `best_move` (or `None`) and `best_delta`. See intra_route_operators.py 66-68. -/
abbrev Search (M : Type) := Option M × ℚ

/-- `if not best_delta: best_delta = 0`, intra_route_operators.py 67-68, 109-110, 276-277 and
327-328. -/
def initDelta (best_delta : Option ℚ) : ℚ :=
  match best_delta with
  | none => 0
  | some x => x

/-- The acceptance test all the operators share, for example intra_route_operators.py 89-94:
`if delta+S_EPS<best_delta: best_move = ...; best_delta = delta; if FIRST_ACCEPT: break`. Returns
the new state and whether to break. -/
def tryMove {M : Type} (strategy : LSOPT) (m : M) (delta : ℚ) (s : Search M) : Search M × Bool :=
  if delta + S_EPS < s.2 then ((some m, delta), strategy == .FIRST_ACCEPT) else (s, false)

/-- `l[hi:lo:-1]` for non-negative `hi`, `lo`. See intra_route_operators.py 98-102. -/
def sliceRev (l : List ℕ) (hi lo : ℕ) : List ℕ := ((l.take (hi + 1)).drop (lo + 1)).reverse

/-- `do_2opt_move`, intra_route_operators.py 59-102. `none` models `(None, None)`. The breaks of the
inner loop propagate to the outer loop as with `accept_move`. -/
def do_2opt_move (route : List ℕ) (D : ℕ → ℕ → ℚ) (strategy : LSOPT) (best_delta : Option ℚ) :
    Py (Option (List ℕ × ℚ)) := do
  let rN := route.length
  let (s, _) ← forBreak (pyRange 0 (rN - 1)) ((none, initDelta best_delta) : Search (ℕ × ℕ))
    (fun i s => forBreak (pyRange (i + 1) (rN - 1)) s (fun j s => do
      let a ← idx route i
      let b ← idx route (i + 1)
      let c ← idx route j
      let d ← idx route (j + 1)
      let delta := D a c + D b d - D a b - D c d
      pure (tryMove strategy (i, j) delta s)))
  match s with
  | (some (i, j), best_delta) =>
    pure (some (route.take (i + 1) ++ sliceRev route j i ++ route.drop (j + 1), best_delta))
  | (none, _) => pure none

/-- A segment of a 3-opt move, for `route[start:stop:step]`. See intra_route_operators.py 143-245. -/
inductive Seg where
  /-- `(None, stop, 1)` -/
  | head (stop : ℕ)
  /-- `(start, stop, 1)` -/
  | fwd (start stop : ℕ)
  /-- `(start, stop, -1)` -/
  | rev (start stop : ℕ)
  /-- `(start, None, 1)` -/
  | tail (start : ℕ)
  deriving DecidableEq, Repr

/-- `route[sgmt[0]:sgmt[1]:sgmt[2]]`. See intra_route_operators.py 258-261. -/
def segSlice (route : List ℕ) : Seg → List ℕ
  | .head stop => route.take stop
  | .fwd start stop => slice route start stop
  | .rev start stop => sliceRev route start stop
  | .tail start => route.drop start

/-- The seven tests of the innermost loop, intra_route_operators.py 141-245, in order, as pairs of
the move and its `delta`. On line 156 `delta==` compares instead of assigning, thus the second test
uses the `delta` of the first. -/
def moves3opt (D : ℕ → ℕ → ℚ) (i j k a b c d e f : ℕ) : List ((Seg × Seg × Seg × Seg) × ℚ) :=
  let removed_weights := D a b + D c d + D e f
  [ ((.head (i + 1), .fwd (i + 1) (j + 1), .rev k j, .tail (k + 1)),
      (D a b + D c e + D d f) - removed_weights),
    ((.head (i + 1), .rev j i, .fwd (j + 1) (k + 1), .tail (k + 1)),
      (D a b + D c e + D d f) - removed_weights),
    ((.head (i + 1), .rev k j, .rev j i, .tail (k + 1)),
      (D a e + D d c + D b f) - removed_weights),
    ((.head (i + 1), .rev j i, .rev k j, .tail (k + 1)),
      (D a c + D b e + D d f) - removed_weights),
    ((.head (i + 1), .fwd (j + 1) (k + 1), .fwd (i + 1) (j + 1), .tail (k + 1)),
      (D a d + D e b + D c f) - removed_weights),
    ((.head (i + 1), .fwd (j + 1) (k + 1), .rev j i, .tail (k + 1)),
      (D a d + D e c + D b f) - removed_weights),
    ((.head (i + 1), .rev k j, .fwd (i + 1) (j + 1), .tail (k + 1)),
      (D a e + D d b + D c f) - removed_weights) ]

/-- `do_3opt_move`, intra_route_operators.py 104-263. The seven `if`s with their breaks are a loop
over the list `moves3opt`. -/
def do_3opt_move (route : List ℕ) (D : ℕ → ℕ → ℚ) (strategy : LSOPT) (best_delta : Option ℚ) :
    Py (Option (List ℕ × ℚ)) := do
  let rN := route.length
  let (s, _) ← forBreak (pyRange 0 (rN - 1))
    ((none, initDelta best_delta) : Search (Seg × Seg × Seg × Seg))
    (fun i s => forBreak (pyRange (i + 1) (rN - 1)) s (fun j s =>
      forBreak (pyRange (j + 1) (rN - 1)) s (fun k s => do
        let a ← idx route i
        let b ← idx route (i + 1)
        let c ← idx route j
        let d ← idx route (j + 1)
        let e ← idx route k
        let f ← idx route (k + 1)
        forBreak (moves3opt D i j k a b c d e f) s (fun mv s => pure (tryMove strategy mv.1 mv.2 s)))))
  match s with
  | (some (s1, s2, s3, s4), best_delta) =>
    pure (some (segSlice route s1 ++ segSlice route s2 ++ segSlice route s3 ++ segSlice route s4,
      best_delta))
  | (none, _) => pure none

/-- `do_relocate_move`, intra_route_operators.py 265-315. -/
def do_relocate_move (route : List ℕ) (D : ℕ → ℕ → ℚ) (strategy : LSOPT)
    (best_delta : Option ℚ) : Py (Option (List ℕ × ℚ)) := do
  let rN := route.length
  let (s, _) ← forBreak (pyRange 1 (rN - 1)) ((none, initDelta best_delta) : Search (ℕ × ℕ))
    (fun i s => forBreak (pyRange 1 rN) s (fun j s => do
      if i = j ∨ j + 1 = i then pure (s, false)
      else
        let a ← idx route (i - 1)
        let b ← idx route i
        let c ← idx route (i + 1)
        let d ← idx route (j - 1)
        let e ← idx route j
        if d = b ∨ e = b then pure (s, false)
        else
          let delta := -D a b - D b c + D a c - D d e + D d b + D b e
          pure (tryMove strategy (i, j) delta s)))
  match s with
  | (some (i, j), best_delta) => do
    let n ← idx route i
    if i < j then
      pure (some (route.take i ++ slice route (i + 1) j ++ [n] ++ route.drop j, best_delta))
    else
      pure (some (route.take j ++ [n] ++ slice route j i ++ route.drop (i + 1), best_delta))
  | (none, _) => pure none

/-- `do_exchange_move`, intra_route_operators.py 317-364. -/
def do_exchange_move (route : List ℕ) (D : ℕ → ℕ → ℚ) (strategy : LSOPT)
    (best_delta : Option ℚ) : Py (Option (List ℕ × ℚ)) := do
  let rN := route.length
  let (s, _) ← forBreak (pyRange 1 (rN - 1)) ((none, initDelta best_delta) : Search (ℕ × ℕ))
    (fun i s => forBreak (pyRange (i + 1) (rN - 1)) s (fun j s => do
      if i = j then pure (s, false)
      else
        let a ← idx route (i - 1)
        let b ← idx route i
        let c ← idx route (i + 1)
        let d ← idx route (j - 1)
        let e ← idx route j
        let f ← idx route (j + 1)
        let delta := if c = e then -D a b - D b e - D e f + D a e + D e b + D b f
          else -D a b - D b c + D a e + D e c - D d e - D e f + D d b + D b f
        pure (tryMove strategy (i, j) delta s)))
  match s with
  | (some (i, j), best_delta) => do
    let ni ← idx route i
    let nj ← idx route j
    pure (some (route.take i ++ [nj] ++ slice route (i + 1) j ++ [ni] ++ route.drop (j + 1),
      best_delta))
  | (none, _) => pure none

end Verif
