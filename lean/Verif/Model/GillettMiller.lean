import Verif.Model.Sweep

/-! # Model of the improvement callback of `verypy/classic_heuristics/gillet_miller_sweep.py` -/

namespace Verif

/-- A routine for the travelling salesman problem, given a distance matrix. See gillet_miller_sweep.py 31 and 53. -/
abbrev TspSolver := (ℕ → ℕ → ℚ) → Router

/-- The data structures of the callback, `_pack_datastructures_callback`, gillet_miller_sweep.py 72-82.
`nodes` is the sweep (`pos_to_node`), `NN_D n` the nodes in the order of the distance from `n` (without
the distances), and `key n` is the number `rho(n) + phi(n)*avr` of lines 109-113, which only chooses the
node to remove. -/
structure GmData where
  N : ℕ
  D : ℕ → ℕ → ℚ
  NN_D : ℕ → List ℕ
  d : ℕ → ℚ
  C : Option ℚ
  L : Option ℚ
  nodes : List ℕ
  key : ℕ → ℚ

/-- The distance matrix with the two entries switched to zero, gillet_miller_sweep.py 50-52. -/
def gmZeroed (D : ℕ → ℕ → ℚ) (a b : ℕ) : ℕ → ℕ → ℚ := fun i j =>
  if (i = a ∧ j = b) ∨ (i = b ∧ j = a) then 0 else D i j

/-- The cost `_shortest_path_through_nodes` returns, gillet_miller_sweep.py 43-70. The path itself is not
used by the callback and is left out. -/
def gmPathCost (tsp : TspSolver) (D : ℕ → ℕ → ℚ) (a b : ℕ) (through : List ℕ) : ℚ :=
  if through = [] then D a b else (tsp (gmZeroed D a b) (a :: through ++ [b])).2

/-- The first node with the least key, `np.argmin`, gillet_miller_sweep.py 118. -/
def gmArgmin (key : ℕ → ℚ) : List ℕ → Option ℕ
  | [] => none
  | a :: t =>
    match gmArgmin key t with
    | none => some a
    | some b => if key a ≤ key b then some a else some b

/-- The variables of the loop that looks ahead, gillet_miller_sweep.py 170-177. -/
structure GmChain where
  D3 : List ℕ
  D4 : List ℕ
  D6 : List ℕ
  JJX : Bool
  JII : Bool
  pos : ℕ

/-- One iteration of it, gillet_miller_sweep.py 179-195. -/
def gmLook (g : GmData) (fwd : Bool) (routed : ℕ → Bool) (kii jjx : ℕ) (jii : Option ℕ) (c : GmChain) :
    Py GmChain :=
  let pos := sweepStep fwd c.pos (g.N - 2)
  match g.nodes[pos]? with
  | none => .error .keyError
  | some n =>
    if routed n then .ok { c with pos := pos }
    else
      let D3 := ODS.dictSet c.D3 n
      if n = jjx then
        .ok { D3 := D3, D4 := ODS.dictSet c.D4 kii, D6 := ODS.dictSet c.D6 kii, JJX := true, JII := c.JII, pos := pos }
      else if some n = jii then
        .ok { D3 := D3, D4 := ODS.dictSet c.D4 n, D6 := c.D6, JJX := c.JJX, JII := true, pos := pos }
      else
        .ok { D3 := D3, D4 := ODS.dictSet c.D4 n, D6 := ODS.dictSet c.D6 n, JJX := c.JJX, JII := c.JII, pos := pos }

/-- The loop of gillet_miller_sweep.py 178-195 with the given number of iterations. -/
def gmLooks (g : GmData) (fwd : Bool) (routed : ℕ → Bool) (kii jjx : ℕ) (jii : Option ℕ) :
    ℕ → GmChain → Py GmChain
  | 0, c => .ok c
  | k + 1, c =>
    match gmLook g fwd routed kii jjx jii c with
    | .error e => .error e
    | .ok c => gmLooks g fwd routed kii jjx jii k c

/-- `(L and D2-S_EPS<L) and (C and D2_demand-C_EPS<=C)`, gillet_miller_sweep.py 154 and 258. -/
def gmWithin (C L : Option ℚ) (cost dem : ℚ) : Bool :=
  (match L with
    | none => false
    | some l => l != 0 && decide (cost - S_EPS < l)) &&
  (match C with
    | none => false
    | some c => c != 0 && decide (dem - C_EPS ≤ c))

/-- What the callback returns: the route, the nodes added, the nodes to ignore, and whether the route is
complete. See gillet_miller_sweep.py 100, 138, 167, 235 and 299. -/
abbrev GmResult := SwRoute × List ℕ × List ℕ × Bool

/-- Steps 13 to 15, gillet_miller_sweep.py 238-301. -/
def gmTwo (tsp : TspSolver) (g : GmData) (rd : SwRoute) (node_J kii jjx : ℕ) (jii : Option ℕ) (c : GmChain)
    (last : ℕ) (D2_nodes : List ℕ) (D2_demand D3 : ℚ) : GmResult :=
  match jii with
  | none => (rd, [], [], true)
  | some jii =>
    if c.JII = false then (rd, [], [], true)
    else
      let D5_nodes := ODS.dictSet D2_nodes jii
      let D5 := tsp g.D D5_nodes
      let D5_demand := if truthy g.C then D2_demand + g.d jii else 0
      if gmWithin g.C g.L D5.2 D5_demand = false then (rd, [], [], true)
      else if rd.cost + D3 < D5.2 + gmPathCost tsp g.D 0 last c.D6 then (rd, [], [], true)
      else
        ({ route := D5.1, cost := D5.2, demand := D5_demand, node_set := D5_nodes }, [jjx, jii],
          kii :: (if jjx ≠ node_J ∧ jii ≠ node_J then [node_J] else []), false)

/-- Steps 9 to 12, gillet_miller_sweep.py 145-236. -/
def gmOne (tsp : TspSolver) (g : GmData) (fwd : Bool) (rd : SwRoute) (routed : ℕ → Bool) (prev_pos : ℕ)
    (node_J kii jjx : ℕ) : Py GmResult :=
  let jii := (g.NN_D jjx).find? fun n => !routed n && n != jjx
  let D2_nodes := ODS.dictSet (rd.node_set.erase kii) jjx
  let D2 := tsp g.D D2_nodes
  let D2_demand := if truthy g.C then rd.demand - g.d kii + g.d jjx else 0
  if gmWithin g.C g.L D2.2 D2_demand = false then .ok (rd, [], [], true)
  else
    match gmLooks g fwd routed kii jjx jii 5 ⟨[], [], [], false, false, prev_pos⟩ with
    | .error e => .error e
    | .ok c =>
      if c.JJX = false then .ok (rd, [], [], true)
      else
        match g.nodes[sweepStep fwd c.pos (g.N - 2)]? with
        | none => .error .keyError
        | some n =>
          let last := if routed n then 0 else n
          let D3 := gmPathCost tsp g.D 0 last c.D3
          let D4 := gmPathCost tsp g.D 0 last c.D4
          if ¬ (rd.cost + D3 < D2.2 + D4) then
            .ok ({ route := D2.1, cost := D2.2, demand := D2_demand, node_set := D2_nodes }, [jjx],
              kii :: (if jjx ≠ node_J then [node_J] else []), false)
          else .ok (gmTwo tsp g rd node_J kii jjx jii c last D2_nodes D2_demand D3)

/-- `_improvement_callback`, gillet_miller_sweep.py 84-301. -/
def gm_improvement (tsp : TspSolver) (g : GmData) (fwd : Bool) (rd : SwRoute) (routed : ℕ → Bool) (pos : ℕ) :
    Py GmResult :=
  match g.nodes[pos]? with
  | none => .error .keyError
  | some node_J =>
    if routed node_J then .ok (rd, [], [], true)
    else
      match gmArgmin g.key rd.node_set.tail with
      | none => .error .valueError
      | some kii =>
        let prev_pos := sweepStep (!fwd) pos (g.N - 2)
        match g.nodes[prev_pos]? with
        | none => .error .keyError
        | some prev =>
          match (g.NN_D prev).find? fun n => !routed n with
          | none => .ok (rd, [], [], false)
          | some jjx => gmOne tsp g fwd rd routed prev_pos node_J kii jjx

end Verif
