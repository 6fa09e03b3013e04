import Mathlib.Algebra.Order.Field.Rat

/-!
# Python primitives

Small total models of the Python constructs the modelled code uses. They do not model a particular
file of `/repo`; they fix the meaning of Python built-ins (list indexing, slices, `for` loops with
`break`, `itertools.groupby`).
-/

namespace Verif

/-- Python exceptions that the modelled code can raise, as values. -/
inductive PyErr where
  | indexError
  | valueError
  | typeError
  | keyError
  | nameError
  | notImplemented
  | ioError
  | attributeError
  | gurobiError
  deriving DecidableEq, Repr

/-- A computation that returns a value or raises. -/
abbrev Py := Except PyErr

/-- `l[i]` for a non-negative index `i`. -/
def idx {α : Type} (l : List α) (i : ℕ) : Py α :=
  match l[i]? with
  | some a => .ok a
  | none => .error .indexError

/-- `l[-k]` for a positive `k`. -/
def idxNeg {α : Type} (l : List α) (k : ℕ) : Py α :=
  if k = 0 ∨ l.length < k then .error .indexError else idx l (l.length - k)

/-- `l[i] = v` for a non-negative index `i`. -/
def setIdx {α : Type} (l : List α) (i : ℕ) (v : α) : Py (List α) :=
  if i < l.length then .ok (l.set i v) else .error .indexError

/-- `l[a:b]` for non-negative `a`, `b`. -/
def slice {α : Type} (l : List α) (a b : ℕ) : List α := (l.take b).drop a

/-- `range(a,b)`. -/
def pyRange (a b : ℕ) : List ℕ := List.range' a (b - a)

/-- A `for` loop over a list with state `σ`; the body returns the new state and whether it executed
`break`. The result tells whether the loop was left by `break`. -/
def forBreak {α σ : Type} : List α → σ → (α → σ → Py (σ × Bool)) → Py (σ × Bool)
  | [], s, _ => .ok (s, false)
  | a :: t, s, f =>
    match f a s with
    | .error e => .error e
    | .ok (s', true) => .ok (s', true)
    | .ok (s', false) => forBreak t s' f

/-- `itertools.groupby(l, key)`: maximal runs of elements with equal keys. -/
def pyGroupby {α κ : Type} [DecidableEq κ] (key : α → κ) : List α → List (κ × List α)
  | [] => []
  | a :: t =>
    match pyGroupby key t with
    | [] => [(key a, [a])]
    | (k, g) :: rest => if key a = k then (k, a :: g) :: rest else (key a, [a]) :: (k, g) :: rest

/-- The tolerance `COST_EPSILON` = `1e-10` of `verypy/config.py` (config.py 13), imported as `S_EPS`. -/
def S_EPS : ℚ := 1 / 10000000000

/-- The tolerance `CAPACITY_EPSILON` = `1e-10` of `verypy/config.py` (config.py 14), imported as `C_EPS`. -/
def C_EPS : ℚ := 1 / 10000000000

/-- Truthiness of an optional number: `None` and `0` are false in Python, so `if C and ...` only
considers a limit that is set and non-zero. -/
def truthy (c : Option ℚ) : Bool :=
  match c with
  | none => false
  | some x => x != 0

/-- `C and x-eps>C`, the constraint violation test used all over the code, for example in
parallel_savings.py 133-149. -/
def exceeds (lim : Option ℚ) (eps x : ℚ) : Bool :=
  match lim with
  | none => false
  | some c => c != 0 && decide (x - eps > c)

end Verif
