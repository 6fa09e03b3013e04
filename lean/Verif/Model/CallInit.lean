import Verif.Model.Algorithms
import Verif.Model.Parallel
import Verif.Model.Cli
import Verif.Model.SavingsVariants
import Verif.Model.SequentialSavings
import Verif.Model.MoleJameson
import Verif.Model.Cmt
import Verif.Model.Tyagi
import Verif.Model.SweepCallback
import Verif.Model.WrenHollidayInit
import Verif.Model.Rfcs
import Verif.Model.Lr3opt

/-! # Model of `call_init`, the third entry of the tuples that the modules of `verypy/classic_heuristics` give for their
heuristics, with the defaults of the functions it calls -/

namespace Verif

/-- What a call of a heuristic depends on: the instance, and what the other models leave open. `nodes` and `wh` are the
customers in the order of their angles, `key` and `ldp` the numbers computed from the coordinates, `pick` the choice
among equal keys of the heaps, `luck` what the random numbers are, `tsp`, `gen`, `popt` and `ropt` the routines for the
travelling salesman problem, `huge` the largest number. `stages` is the number of the stages of the main loop of Wren and
Holliday after which the user interrupts it. `solver` stands for the heuristics that call the integer programming solver,
matchingvrp.py, gapvrp.py and petalvrp.py, which have models of their own. See VeRyPy.py 160-198. -/
structure CallEnv where
  N : ℕ
  points : Option (List (ℚ × ℚ))
  D : ℕ → ℕ → ℚ
  d : ℕ → ℚ
  C : Option ℚ
  L : Option ℚ
  nodes : List ℕ
  key : Bool → ℕ → ℕ → ℚ
  wh : WhSweep
  ldp : ℚ
  pick : ℕ → List Ins → ℕ
  luck : ℕ → CmtLuck
  tsp : TspSolver
  gen : Router
  popt : Router
  ropt : Router
  huge : ℚ
  stages : ℕ
  solver : Algo → Bool → Bool → ℕ → Option RunOut

/-- The outcome of a call that returns a solution or raises; `none` is out of fuel. See VeRyPy.py 181-198. -/
def outSol : Py (Option (List ℕ)) → Option RunOut
  | .error e => some (.failed e)
  | .ok none => none
  | .ok (some sol) => some (.ret (some sol))

/-- The same for a call that may return `None`. See VeRyPy.py 181-198. -/
def outOpt : Py (Option (Option (List ℕ))) → Option RunOut
  | .error e => some (.failed e)
  | .ok none => none
  | .ok (some sol) => some (.ret sol)

/-- The same for a call whose model also tells what an interrupt sees. See VeRyPy.py 181-198. -/
def outSeen {α : Type} : Py (Option (Option (List ℕ) × α)) → Option RunOut
  | .error e => some (.failed e)
  | .ok none => none
  | .ok (some (sol, _)) => some (.ret sol)

/-- The same for the savings procedures that are run several times. See VeRyPy.py 181-198. -/
def outSav : Py (Option SavEnd) → Option RunOut
  | .error e => some (.failed e)
  | .ok none => none
  | .ok (some (.returned sol)) => some (.ret sol)
  | .ok (some (.interrupted sol)) => some (.interrupted sol)

/-- The same for Wren and Holliday. See VeRyPy.py 181-198. -/
def outWh : Py (Option WhEnd) → Option RunOut
  | .error e => some (.failed e)
  | .ok none => none
  | .ok (some (.returned sol)) => some (.ret sol)
  | .ok (some (.interrupted sol)) => some (.interrupted sol)
  | .ok (some .nothing) => some (.interrupted none)

/-- The same for the Lagrangean relaxation, which has not ended in the states `search` and `post`. The case that
`lrStart` does not model counts as out of fuel. See VeRyPy.py 181-198. -/
def outLr : Py (Option LrState) → Option RunOut
  | .error e => some (.failed e)
  | .ok (some (.done sol)) => some (.ret (some sol))
  | .ok (some (.forced sol)) => some (.ret sol)
  | .ok _ => none

/-- `call_init` of parallel_savings.py 191-192. -/
def callPs (e : CallEnv) (mk : Bool) : Option RunOut :=
  match parallel_savings_init e.N e.D e.d e.C e.L mk (clarke_wright_savings_function e.N e.D) with
  | .error x => some (.failed x)
  | .ok (sol, _) => some (.ret sol)

/-- `call_init` of sequential_savings.py 217-218. -/
def callSs (e : CallEnv) (mk : Bool) (fuel : ℕ) : Option RunOut :=
  match sequential_savings_init fuel e.N e.D e.d e.C e.L mk .closest (clarke_wright_savings e.D) with
  | .error x => some (.failed x)
  | .ok none => none
  | .ok (some (sol, _)) => some (.ret (some sol))

/-- `call_init` of gaskell_savings.py 123-125. -/
def callGpl (e : CallEnv) (single mk : Bool) : Option RunOut :=
  match gaskell_savings_init e.N e.D e.d e.C e.L mk (if single then .pi else .both) none with
  | .error x => some (.failed x)
  | .ok (.returned sol) => some (.ret sol)
  | .ok (.interrupted sol) => some (.interrupted sol)

/-- `call_init` of suppression_savings.py 163-164. -/
def callIms (e : CallEnv) (mk : Bool) : Option RunOut :=
  match suppression_savings_init e.N e.D e.d e.C e.L mk none none with
  | .error x => some (.failed x)
  | .ok (.returned sol) => some (.ret sol)
  | .ok (.interrupted sol) => some (.interrupted sol)

/-- The arguments with which `call_init` of cmt_2phase.py 587-588 calls `cmt_2phase_init`, lines 417-422. -/
def cmtDefaults (e : CallEnv) (mk : Bool) : CmtArgs :=
  { D := e.D, d := e.d, C := e.C, L := e.L, tsp := e.tsp e.D, minimize_K := mk, lam := 2, mu := 1, seed := .farthest,
    most := true, rep := .times 1 }

/-- The exception of the sweep without coordinates: `None[0]` or `[][0]`, `none` if there are some.
See sweep.py 437 and wren_holliday_sweep.py 521. -/
def noPoints : Option (List (ℚ × ℚ)) → Option PyErr
  | none => some .typeError
  | some [] => some .indexError
  | some _ => none

/-- `call_init` of sweep.py 534-538. -/
def callSwp (e : CallEnv) (single mk : Bool) (fuel : ℕ) : Option RunOut :=
  match noPoints e.points with
  | some x => some (.failed x)
  | none =>
    outSeen (sweep_init fuel e.N e.D e.d e.C e.L (sweptOrder e.D) e.nodes mk (if single then .cw else .both)
      (if single then .smallestAngle else .best))

/-- The arguments with which `call_init` of wren_holliday_sweep.py 760-762 calls `wren_holliday_init`, lines 477-479. -/
def whDefaults (e : CallEnv) (mk : Bool) : WhInput where
  N := e.N
  D := e.D
  d := e.d
  C := e.C
  L := e.L
  minimize_K := mk
  full_convergence := true
  sweep := e.wh

/-- `call_init` of wren_holliday_sweep.py 760-762. -/
def callWh (e : CallEnv) (single mk : Bool) (fuel : ℕ) : Option RunOut :=
  match noPoints e.points with
  | some x => some (.failed x)
  | none =>
    outWh (wren_holliday_init fuel (whDefaults e mk) e.ldp (if single then .position 1 else .bestOfFour) .both
      (.second e.stages))

/-- `call_init` of gillet_miller_sweep.py 338-347. -/
def callGm (e : CallEnv) (single mk : Bool) (fuel : ℕ) : Option RunOut :=
  outSeen (gillet_miller_init fuel e.N (e.points.getD []) e.D e.d e.C e.L e.tsp e.nodes e.key mk
    (if single then .ccw else .both) (if single then .node 1 else .best))

/-- `call_init` of tyagi_nearest_neighbor.py 355-358. -/
def callTy (e : CallEnv) (mk : Bool) (fuel : ℕ) : Option RunOut :=
  if mk then some (.failed .notImplemented)
  else outSeen (tyagi_init e.D e.d e.C e.L e.N false true .minPenalty (e.tsp e.D) fuel)

/-- `_init_with_tsp`, lr3opt.py 165-167, without the cost. -/
def lrInitTsp (tsp : Router) (N : ℕ) : List ℕ := (tsp (pyRange 0 N)).1 ++ [0]

/-- `call_init` of lr3opt.py 392-395. -/
def callLr (e : CallEnv) (mk : Bool) (fuel : ℕ) : Option RunOut :=
  if mk then some (.failed .notImplemented)
  else outLr (lr3opt_init { postoptimize := true, max_incs := none, huge := e.huge } e.D e.d e.N e.C e.L ⟨none, none⟩
    (lrInitTsp (e.tsp e.D) e.N) fuel)

/-- The call of a heuristic with the options `single` and `minimize_K`, VeRyPy.py 181-198. `none` is out of fuel. The
functions are those of verypy/__init__.py 94-183: parallel_savings.py 191, cawlip_savings.py 58, gaskell_savings.py 123,
sequential_savings.py 217, paessens_savings.py 149, suppression_savings.py 163, cheapest_insertion.py 423 and 434,
mole_jameson_insertion.py 295, cmt_2phase.py 587, nearest_neighbor.py 338 and 351, tyagi_nearest_neighbor.py 355,
sweep.py 534, wren_holliday_sweep.py 760, gillet_miller_sweep.py 338, rfcs.py 244, lr3opt.py 392. No interrupts except
that of Wren and Holliday. -/
def call_init (e : CallEnv) (a : Algo) (single mk : Bool) (fuel : ℕ) : Option RunOut :=
  match a with
  | .ps => callPs e mk
  | .ps2o => outSol (cawlip_savings_init fuel e.N e.D e.d e.C e.L mk)
  | .gpl => callGpl e single mk
  | .ss => callSs e mk fuel
  | .gps => outSav (paessens_savings_init fuel e.N e.D e.d e.C e.L mk .M4 true none)
  | .ims => callIms e mk
  | .si => outSol (call_si e.D e.d e.C e.L e.N mk (e.pick 0) fuel)
  | .pi => outSol (call_pi .auto e.D e.d e.C e.L e.N mk (e.pick 0) fuel)
  | .mj =>
    outSav (mole_jameson_insertion_init e.D e.d e.C e.L e.N mk (if single then .clarke_wright else .all) e.pick fuel none)
  | .cmt => outOpt (cmt_2phase_init (cmtDefaults e mk) e.N none e.luck fuel)
  | .sn => outOpt (call_sn e.D e.d e.C e.L e.N mk fuel)
  | .pn => outOpt (call_pn .auto e.D e.d e.C e.L e.N single mk fuel)
  | .ty => callTy e mk fuel
  | .swp => callSwp e single mk fuel
  | .wh => callWh e single mk fuel
  | .gm => callGm e single mk fuel
  | .rfcs => outSol (route_first_cluster_second_init fuel e.N e.d e.C e.L mk e.gen e.popt e.ropt)
  | .lr3o => callLr e mk fuel
  | .mbsa => e.solver .mbsa single mk fuel
  | .gap => e.solver .gap single mk fuel
  | .ptl => e.solver .ptl single mk fuel

end Verif
