import Verif.Model.Py

/-!
# The lookup of the algorithms by name

`verypy/__init__.py` and the selection of the algorithms in `VeRyPy.py`.
-/

namespace Verif

/-- The heuristics of the package, by their abbreviations. See verypy/__init__.py 90-183. -/
inductive Algo where
  | ps | ps2o | gpl | ss | gps | ims | si | mj | pi | mbsa | cmt | sn | pn | ty | swp | wh | gm | rfcs
  | gap | ptl | lr3o
  deriving DecidableEq, Repr

/-- The values of `algo_name_aliases`: an abbreviation, or one of the two names for several heuristics.
See verypy/__init__.py 5-68. -/
inductive AlgoSel where
  | one (a : Algo)
  | all
  | classical
  deriving DecidableEq, Repr

/-- The abbreviation of a heuristic, the first entry of the tuples that `get_algorithms` returns.
See verypy/__init__.py 94-183. -/
def Algo.abbrev : Algo → String
  | .ps => "ps" | .ps2o => "ps2o" | .gpl => "gpl" | .ss => "ss" | .gps => "gps" | .ims => "ims" | .si => "si"
  | .mj => "mj" | .pi => "pi" | .mbsa => "mbsa" | .cmt => "cmt" | .sn => "sn" | .pn => "pn" | .ty => "ty"
  | .swp => "swp" | .wh => "wh" | .gm => "gm" | .rfcs => "rfcs" | .gap => "gap" | .ptl => "ptl" | .lr3o => "lr3o"

/-- The name of a heuristic, the second entry of the tuples: `algo_name` in parallel_savings.py 189,
cawlip_savings.py 55, gaskell_savings.py 120, sequential_savings.py 215, paessens_savings.py 147,
suppression_savings.py 161, cheapest_insertion.py 420 and 430, mole_jameson_insertion.py 292, matchingvrp.py 367,
cmt_2phase.py 585, nearest_neighbor.py 335 and 348, tyagi_nearest_neighbor.py 353, sweep.py 532,
wren_holliday_sweep.py 758, gillet_miller_sweep.py 335, rfcs.py 242, gapvrp.py 950, petalvrp.py 996, lr3opt.py 390. -/
def Algo.name : Algo → String
  | .ps => "CW64-PS" | .ps2o => "RT79-CAWLIP" | .gpl => "Ga67-PS|pi+lamda" | .ss => "We64-SS"
  | .gps => "Pa88-PS|G2P" | .ims => "HP76-PS|IMS" | .si => "vB94-SI" | .pi => "vB94-PI" | .mj => "MJ76-INS"
  | .mbsa => "DV89-MM" | .cmt => "CMT79-2P" | .sn => "vB95-SNN" | .pn => "vB95-PNN" | .ty => "Ty68-NN"
  | .swp => "Sweep" | .wh => "WH72-SwLS" | .gm => "GM74-SwRI" | .rfcs => "Be83-RFCS" | .gap => "FJ81-GAP"
  | .ptl => "FR76-1PTL" | .lr3o => "SG84-LR3OPT"

/-- `algo_name_aliases`, verypy/__init__.py 5-68. -/
def algo_name_aliases : List (String × AlgoSel) :=
  [("ps", .one .ps), ("cw64-ps", .one .ps), ("cw", .one .ps), ("parallelsavings", .one .ps),
   ("clarkewright", .one .ps),
   ("gpl", .one .gpl), ("ga67-ps", .one .gpl), ("ga67-ps|pi", .one .gpl), ("ga67-ps|lambda", .one .gpl),
   ("gaskellpi", .one .gpl), ("gaskelllambda", .one .gpl),
   ("ss", .one .ss), ("we64-ss", .one .ss), ("sequentialsavings", .one .ss),
   ("gps", .one .gps), ("pa88-ps", .one .gps), ("generalizedsavings", .one .gps),
   ("generalizedparallelsavings", .one .gps), ("paessens", .one .gps),
   ("ims", .one .ims), ("hp76-ps", .one .ims), ("hp76-ps|ims", .one .ims), ("suppression", .one .ims),
   ("iterativemergesuppression", .one .ims), ("mergesuppressionsavings", .one .ims),
   ("ps2o", .one .ps2o), ("rt79-ps", .one .ps2o), ("cawlip", .one .ps2o), ("savingswith2opt", .one .ps2o),
   ("si", .one .si), ("ci", .one .si), ("cheapestinsertion", .one .si), ("sequentialinsertion", .one .si),
   ("mj", .one .mj), ("mj76-si", .one .si), ("molejameson", .one .mj), ("molejamesoninsertion", .one .mj),
   ("pi", .one .pi), ("parallelinsertion", .one .pi), ("parallelcheapestinsertion", .one .pi),
   ("mbsa", .one .mbsa), ("dv89-mbsa", .one .mbsa), ("matching", .one .mbsa), ("maximummatching", .one .mbsa),
   ("mm", .one .mbsa), ("desrochersverhoog", .one .mbsa),
   ("cmt", .one .cmt), ("cmt79-2p", .one .cmt), ("tp", .one .cmt), ("twophase", .one .cmt), ("cmt2p", .one .cmt),
   ("cmt2phase", .one .cmt), ("cmttwophase", .one .cmt),
   ("sn", .one .sn), ("nn", .one .sn), ("snn", .one .sn),
   ("pn", .one .pn), ("pnn", .one .pn),
   ("ty", .one .ty), ("ty68-snn", .one .ty), ("tyagi", .one .ty),
   ("swp", .one .swp), ("sweep", .one .swp),
   ("wh", .one .wh), ("wh72-swls", .one .wh), ("whs", .one .wh), ("whswp", .one .wh), ("wrenholliday", .one .wh),
   ("wrenhollidaysweep", .one .wh),
   ("gm", .one .gm), ("gm74-swri", .one .gm), ("gms", .one .gm), ("gmswp", .one .gm), ("gilletmiller", .one .gm),
   ("gilletmillersweep", .one .gm),
   ("rfcs", .one .rfcs), ("be83-rfcs", .one .rfcs), ("routefirstclustersecond", .one .rfcs),
   ("beasley", .one .rfcs), ("newtonthomas", .one .rfcs),
   ("gap", .one .gap), ("fj81-gap", .one .gap), ("fisherjaikumar", .one .gap),
   ("ptl", .one .ptl), ("fr76-ptl", .one .ptl), ("petal", .one .ptl), ("fosterryan", .one .ptl),
   ("lr3o", .one .lr3o), ("sg82-lr3opt", .one .lr3o), ("lr3opt", .one .lr3o),
   ("all", .all), ("classical", .classical), ("classic", .classical)]

/-- `str.lower`, verypy/__init__.py 85. Only the letters of ASCII are modelled. -/
def lowerName (s : String) : String := String.ofList (s.toList.map Char.toLower)

/-- The tests `algo_name in [...]` in the order of the code; the flags tell whether the heuristic is in the lists
with "all" and with "classical". See verypy/__init__.py 91-183. -/
def algoTests : List (Algo × Bool × Bool) :=
  [(.ps, true, true), (.ps2o, true, false), (.gpl, true, true), (.ss, true, true), (.gps, true, true),
   (.ims, true, true), (.si, true, false), (.mj, true, true), (.pi, true, false), (.mbsa, true, true),
   (.cmt, true, true), (.sn, true, false), (.pn, true, false), (.ty, true, true), (.swp, true, false),
   (.wh, true, true), (.gm, true, true), (.rfcs, true, true), (.gap, true, true), (.ptl, true, true),
   (.lr3o, true, true)]

/-- One test, for example `algo_name in ["ps", "all", "classical"]`, verypy/__init__.py 91. -/
def algoTest (sel : AlgoSel) (t : Algo × Bool × Bool) : Bool :=
  match sel with
  | .one a => decide (a = t.1)
  | .all => t.2.1
  | .classical => t.2.2

/-- The heuristics that look at `has_gurobi`, verypy/__init__.py 129, 168, 175. -/
def needsGurobi : Algo → Bool
  | .mbsa => true
  | .gap => true
  | .ptl => true
  | _ => false

/-- A message on standard error: an invalid name (lowered), or a heuristic that is not available.
See verypy/__init__.py 130, 169, 176, 186. -/
inductive AlgoMsg where
  | invalid (name : String)
  | unavailable (a : Algo)
  deriving DecidableEq, Repr

/-- The tests for one standard abbreviation: what is appended to `algos` and the messages, verypy/__init__.py 90-183.
The functions of the tuples are represented by the heuristic. The import of the modules is taken to succeed. -/
def algosFor (gurobi : Bool) (sel : AlgoSel) : List Algo × List AlgoMsg :=
  ((((algoTests.filter (algoTest sel)).map (·.1)).filter fun a => gurobi || !needsGurobi a),
    (((algoTests.filter (algoTest sel)).map (·.1)).filter fun a => !(gurobi || !needsGurobi a)).map .unavailable)

/-- The body of the loop over the names, verypy/__init__.py 84-186. -/
def algosOf (gurobi : Bool) (name : String) : List Algo × List AlgoMsg :=
  match algo_name_aliases.lookup (lowerName name) with
  | none => ([], [.invalid (lowerName name)])
  | some sel => algosFor gurobi sel

/-- `get_algorithms(names)` for a list of names, verypy/__init__.py 70-187; a single name is the list of it
(73-74). -/
def get_algorithms (gurobi : Bool) : List String → List Algo × List AlgoMsg
  | [] => ([], [])
  | n :: ns => ((algosOf gurobi n).1 ++ (get_algorithms gurobi ns).1, (algosOf gurobi n).2 ++ (get_algorithms gurobi ns).2)

/-- `[algo_name_aliases[algo_name] for algo_name in ... if ...]`, VeRyPy.py 108-110; the condition always
holds. -/
def forbiddenAlgos : List String → Py (List AlgoSel)
  | [] => .ok []
  | n :: ns =>
    match algo_name_aliases.lookup n with
    | none => .error .keyError
    | some sel =>
      match forbiddenAlgos ns with
      | .error e => .error e
      | .ok t => .ok (sel :: t)

/-- The algorithms to apply, VeRyPy.py 105-111. -/
def selectAlgos (gurobi : Bool) (active forbid : List String) : Py (List Algo) :=
  match forbid with
  | [] => .ok (get_algorithms gurobi active).1
  | _ =>
    match forbiddenAlgos forbid with
    | .error e => .error e
    | .ok fb => .ok ((get_algorithms gurobi active).1.filter fun a => !(fb.contains (.one a)))

end Verif
