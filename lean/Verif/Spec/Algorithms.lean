import Verif.Model.Algorithms

/-! # What a user expects of the names of the heuristics -/

namespace Verif.Spec

/-- The same name but for the case of the letters of ASCII. -/
def SameName (s t : String) : Prop := s.toList.map Char.toLower = t.toList.map Char.toLower

/-- All heuristics of the package. -/
def allAlgos : List Algo :=
  [.ps, .ps2o, .gpl, .ss, .gps, .ims, .si, .mj, .pi, .mbsa, .cmt, .sn, .pn, .ty, .swp, .wh, .gm, .rfcs, .gap, .ptl,
   .lr3o]

/-- The construction procedures that are not heuristics of their own in the literature. -/
def plainAlgos : List Algo := [.ps2o, .si, .pi, .sn, .pn, .swp]

/-- The heuristics that need the solver of integer programs. -/
def solverAlgos : List Algo := [.mbsa, .gap, .ptl]

/-- The heuristic can be run. -/
def Available (solver : Bool) (a : Algo) : Prop := solver = true ∨ a ∉ solverAlgos

/-- The names of a heuristic: its abbreviation, the initials of its authors with the year, the authors, and what it
does. -/
def namesOf : Algo → List String
  | .ps => ["ps", "cw64-ps", "cw", "clarkewright", "parallelsavings"]
  | .ps2o => ["ps2o", "rt79-ps", "cawlip", "savingswith2opt"]
  | .gpl => ["gpl", "ga67-ps", "ga67-ps|pi", "ga67-ps|lambda", "gaskellpi", "gaskelllambda"]
  | .ss => ["ss", "we64-ss", "sequentialsavings"]
  | .gps => ["gps", "pa88-ps", "paessens", "generalizedsavings", "generalizedparallelsavings"]
  | .ims => ["ims", "hp76-ps", "hp76-ps|ims", "suppression", "iterativemergesuppression", "mergesuppressionsavings"]
  | .si => ["si", "ci", "cheapestinsertion", "sequentialinsertion"]
  | .mj => ["mj", "mj76-si", "molejameson", "molejamesoninsertion"]
  | .pi => ["pi", "parallelinsertion", "parallelcheapestinsertion"]
  | .mbsa => ["mbsa", "dv89-mbsa", "mm", "matching", "maximummatching", "desrochersverhoog"]
  | .cmt => ["cmt", "cmt79-2p", "tp", "twophase", "cmt2p", "cmt2phase", "cmttwophase"]
  | .sn => ["sn", "nn", "snn"]
  | .pn => ["pn", "pnn"]
  | .ty => ["ty", "ty68-snn", "tyagi"]
  | .swp => ["swp", "sweep"]
  | .wh => ["wh", "wh72-swls", "whs", "whswp", "wrenholliday", "wrenhollidaysweep"]
  | .gm => ["gm", "gm74-swri", "gms", "gmswp", "gilletmiller", "gilletmillersweep"]
  | .rfcs => ["rfcs", "be83-rfcs", "beasley", "newtonthomas", "routefirstclustersecond"]
  | .gap => ["gap", "fj81-gap", "fisherjaikumar"]
  | .ptl => ["ptl", "fr76-ptl", "petal", "fosterryan"]
  | .lr3o => ["lr3o", "sg82-lr3opt", "lr3opt"]

/-- The names for several heuristics. -/
def groupNames : List String := ["all", "classical", "classic"]

/-- The name is one of a heuristic or of several. -/
def KnownName (s : String) : Prop := (∃ a, ∃ n ∈ namesOf a, SameName s n) ∨ ∃ n ∈ groupNames, SameName s n

end Verif.Spec
