import Verif.Model.Rfcs

/-! # Interrupts of `route_first_cluster_second_init`

`verypy/classic_heuristics/rfcs.py`: an interrupt that comes while the tables are filled is caught, and the routes are made from
what the tables hold at that time. Interrupts at other times are not caught there and carry no solution. -/

namespace Verif

/-- Where in the body of the inner loop the interrupt comes: before a call of the TSP routine has returned, between the return and
the first write, or between the two writes. See rfcs.py 80-99. -/
inductive RfStep where
  | before
  | costed
  | torn
  deriving DecidableEq

/-- When the interrupt comes: after so many rows, so many rounds of the inner loop of the next row, and so much of the round after
these. See rfcs.py 68-111. -/
structure RfPoint where
  rows : ℕ
  cells : ℕ
  step : RfStep

/-- Whether the TSP routine is called in the row: whether the capacity suffices for the first customer of it. See rfcs.py 80-90. -/
def rfCalls (d : ℕ → ℚ) (C : Option ℚ) (tour : List ℕ) (gtl u : ℕ) : Bool :=
  match (rfRing u gtl).head? with
  | none => false
  | some v_idx =>
    match idx tour v_idx with
    | .error _ => false
    | .ok v => !exceeds C C_EPS (0 + d v)

/-- The part of a round that is done, rfcs.py 80-98: the tables, and whether `route_cost` has a value. -/
def rfPart (d : ℕ → ℚ) (C L : Option ℚ) (const : ℚ) (popt : Router) (tour : List ℕ) (u v_idx : ℕ) (step : RfStep)
    (s : RfState) (called : Bool) : Py (RfTab × Bool) :=
  if step = .before then .ok (s.2.2, called)
  else
    match idx tour v_idx with
    | .error e => .error e
    | .ok v =>
      if exceeds C C_EPS (s.1 + d v) then .ok (s.2.2, called)
      else
        match rfGrow popt s.2.1 v with
        | .error e => .error e
        | .ok (_, cost) =>
          if exceeds L S_EPS cost ∨ step = .costed then .ok (s.2.2, true)
          else .ok (⟨(s.2.2.put u v_idx ((cost + const : ℚ) : WithTop ℚ) v_idx).dist, s.2.2.next⟩, true)

/-- The tables at the time of the interrupt and whether `route_cost` has a value, rfcs.py 62-113. If the row has fewer rounds, the
interrupt comes at its end. -/
def rfCut (d : ℕ → ℚ) (C L : Option ℚ) (const : ℚ) (popt : Router) (tour : List ℕ) (gtl : ℕ) (p : RfPoint) :
    Py (RfTab × Bool) :=
  match rfRows d C L const popt tour gtl (pyRange 0 p.rows) ⟨fun _ _ => ⊤, fun _ _ => 0⟩ with
  | .error e => .error e
  | .ok t =>
    match forBreak ((rfRing p.rows gtl).take p.cells) ((0, [0, 0], t) : RfState)
        (rfCell d C L const popt tour p.rows) with
    | .error e => .error e
    | .ok (s, broken) =>
      let called := (pyRange 0 p.rows).any (rfCalls d C tour gtl) || (p.cells != 0 && rfCalls d C tour gtl p.rows)
      if broken then .ok (s.2.2, called)
      else
        match (rfRing p.rows gtl)[p.cells]? with
        | none => .ok (s.2.2, called)
        | some v_idx => rfPart d C L const popt tour p.rows v_idx p.step s called

/-- `route.append(0)` in the place of the call of the TSP routine, rfcs.py 148-151. The cost is not used. -/
def rfAppend : Router := fun r => (r ++ [0], 0)

/-- The route as it is, rfcs.py 154-155. The cost is not used. -/
def rfAsIs : Router := fun r => (r, 0)

/-- `_partition_to_routes_with_cost_matrix`, rfcs.py 48-176, if the interrupt comes at the given time: the solution that the raised
`KeyboardInterrupt` carries, or the error that is raised in the place of it. Without a value of `route_cost` line 160 fails after
the first route. -/
def rf_interrupted (fuel N : ℕ) (d : ℕ → ℚ) (C L : Option ℚ) (tour : List ℕ) (const : ℚ) (popt : Router) (p : RfPoint) :
    Py (Option (List ℕ)) :=
  let gtl := rfLen tour
  match rfCut d C L const popt tour gtl p with
  | .error e => .error e
  | .ok (t, called) =>
    let t := fw N t
    let start := rfArgmin N fun i => t.dist i i
    if called then rfWalk rfAppend rfAsIs tour gtl start t.next fuel start [0]
    else
      match rfRoute rfAppend tour gtl (t.next start start) (gtl + 1) start [0, 0] with
      | .error e => .error e
      | .ok none => .ok none
      | .ok (some _) => .error .nameError

end Verif
