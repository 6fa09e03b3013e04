import Verif.Model.Py

/-! # Model of `verypy/util.py`, class `OrderedDictSet` -/

namespace Verif.ODS

/-- The state of an `OrderedDictSet`, util.py 153-164: the insertion ordered dictionary is the list
of its keys, and `keylist` is the cached list of keys or `None`. -/
structure State where
  ods : List ℕ
  keylist : Option (List ℕ)
  deriving DecidableEq, Repr

/-- `d[element] = None` on an insertion ordered dict: an existing key keeps its place. See util.py 169. -/
def dictSet (keys : List ℕ) (e : ℕ) : List ℕ := if e ∈ keys then keys else keys ++ [e]

/-- `dict.fromkeys(collection, None)`. See util.py 156-164. -/
def dictFromKeys (c : List ℕ) : List ℕ := c.foldl dictSet []

/-- `__init__`, util.py 153-164. -/
def init (c : List ℕ) : State := { ods := dictFromKeys c, keylist := none }

/-- `remove`, util.py 165-167: `del` raises `KeyError` before the cache is dropped. -/
def remove (s : State) (e : ℕ) : Py State :=
  if e ∈ s.ods then .ok { ods := s.ods.erase e, keylist := none } else .error .keyError

/-- `add`, util.py 168-171. `if self.keylist:` is false for `None` and for the empty list. -/
def add (s : State) (e : ℕ) : State :=
  { ods := dictSet s.ods e
    keylist :=
      match s.keylist with
      | none => none
      | some [] => some []
      | some (k :: ks) => some (k :: ks ++ [e]) }

/-- `difference_update`, util.py 172-175. -/
def difference_update (s : State) (c : List ℕ) : State :=
  { ods := c.foldl (fun keys e => keys.erase e) s.ods, keylist := none }

/-- `__getitem__`, util.py 176-179: fills the cache, also when the lookup then raises. The index is
an integer as negative indices are used by the callers. -/
def getitem (s : State) (i : ℤ) : State × Py ℕ :=
  let kl := match s.keylist with
    | none => s.ods
    | some kl => kl
  ({ s with keylist := some kl },
   match i with
   | .ofNat n => idx kl n
   | .negSucc n => idxNeg kl (n + 1))

/-- `__iter__`, util.py 180-181, also used by `in` as there is no `__contains__`. -/
def iter (s : State) : List ℕ := s.ods

/-- `__len__`, util.py 182-183. -/
def len (s : State) : ℕ := s.ods.length

/-- An operation of a client. See util.py 153-183. -/
inductive Op where
  | add (e : ℕ)
  | remove (e : ℕ)
  | diff (c : List ℕ)
  | get (i : ℤ)
  | iter
  | len
  | mem (e : ℕ)
  deriving DecidableEq, Repr

/-- What a client observes of an operation. See util.py 153-183. -/
inductive Obs where
  | unit
  | keyError
  | item (r : Py ℕ)
  | list (l : List ℕ)
  | num (n : ℕ)
  | bool (b : Bool)

deriving instance DecidableEq for Obs

/-- One client call. See util.py 153-183. -/
def step (s : State) : Op → State × Obs
  | .add e => (add s e, .unit)
  | .remove e =>
    match remove s e with
    | .ok s' => (s', .unit)
    | .error _ => (s, .keyError)
  | .diff c => (difference_update s c, .unit)
  | .get i => ((getitem s i).1, .item (getitem s i).2)
  | .iter => (s, .list (iter s))
  | .len => (s, .num (len s))
  | .mem e => (s, .bool (decide (e ∈ iter s)))

/-- The observations of a history of calls. See util.py 153-183. -/
def run (s : State) : List Op → List Obs
  | [] => []
  | op :: ops => (step s op).2 :: run (step s op).1 ops

end Verif.ODS
