import Verif.Spec.ProblemFile

/-! # Specification vocabulary of the additional constraints in a problem file -/

namespace Verif.Spec

/-- The text of a file with these lines. -/
def textOf (ls : List (List Char)) : List Char := ls.flatMap fun l => l ++ ['\n']

/-- A text for a number: a whole number, or one with a point that `float` reads. -/
def Value (float : List Char → Py ℚ) (w : List Char) (x : ℚ) : Prop :=
  (∃ z : ℤ, w = showInt z ∧ x = z) ∨ ('.' ∈ w ∧ (∀ c ∈ w, Plain c) ∧ float w = .ok x)

/-- What separates the name of a field from its value. -/
def Seps (sep : List Char) : Prop := ∀ c ∈ sep, c = ' ' ∨ c = ':' ∨ c = '\t'

/-- The names the additional constraints are recognized by. -/
def customNames : List (List Char) :=
  ["DISTANCE".toList, "SERVICE_TIME".toList, "VEHICLES".toList, "SVC_TIME_SECTION".toList]

/-- What a line can say. -/
inductive CField where
  | distance (x : ℚ) | service (x : ℚ) | vehicles (z : ℤ) | other

/-- The lines that say it. -/
def CField.Line (float : List Char → Py ℚ) : CField → List Char → Prop
  | .distance x, l => ∃ sep w, Seps sep ∧ Value float w x ∧ l = "DISTANCE".toList ++ sep ++ ' ' :: w
  | .service x, l => ∃ sep w, Seps sep ∧ Value float w x ∧ l = "SERVICE_TIME".toList ++ sep ++ ' ' :: w
  | .vehicles z, l => ∃ sep, Seps sep ∧ l = "VEHICLES".toList ++ sep ++ ' ' :: showInt z
  | .other, l => '\n' ∉ l ∧ ∀ name ∈ customNames, ¬ name <:+: l

/-- The limits that are stated last. -/
def lastDistance (fs : List CField) : Option ℚ := (fs.filterMap fun | .distance x => some x | _ => none).getLast?
def lastService (fs : List CField) : Option ℚ := (fs.filterMap fun | .service x => some x | _ => none).getLast?
def lastVehicles (fs : List CField) : Option ℤ := (fs.filterMap fun | .vehicles x => some x | _ => none).getLast?

/-- A line of the section of the service times: a node and its service time. -/
def ServiceLine (float : List Char → Py ℚ) (x : ℚ) (l : List Char) : Prop :=
  ∃ i w, Value float w x ∧ l = showNat i ++ ' ' :: w

end Verif.Spec
