import Verif.Model.ProblemFile

/-! # Model of `natural_sort` of `verypy/util.py` and of the search of one path in `verypy/shared_cli.py`

Texts are lists of characters. -/

namespace Verif

/-- What the language knows of characters: `str.lower`, and for the characters besides `0` to `9` for which `str.isdigit` is true
whether `int` accepts them (`some (some v)`) or not (`some none`, such as the superscripts). Called in util.py 131 and
shared_cli.py 172-180. -/
structure CharTable where
  lower : List Char → List Char
  digit : Char → Option (Option ℕ)

/-- One of the characters `[0-9]` of the pattern in util.py 132. -/
def isDec (c : Char) : Bool := decide ('0' ≤ c ∧ c ≤ '9')

/-- `re.split('([0-9]+)', key)` from within a piece `cur`, which consists of digits if `num`. The pieces are in turn text and
digits, beginning and ending with a text that may be empty. See util.py 132. -/
def splitDigits (cur : List Char) (num : Bool) : List Char → List (List Char)
  | [] => if num then [cur, []] else [cur]
  | c :: s => if isDec c = num then splitDigits (cur ++ [c]) num s else cur :: splitDigits [c] (!num) s

/-- A part of the key for sorting: `int(text)` or `text.lower()`, util.py 131. -/
inductive Piece where
  | num (n : ℕ)
  | text (s : List Char)
  deriving DecidableEq, Repr

/-- The value of a character for `int`; the outer `none` tells that it is not a digit, the inner one that `int` does not accept
it. See util.py 131. -/
def digitOf (u : CharTable) (c : Char) : Option (Option ℕ) :=
  if isDec c then some (some (c.toNat - '0'.toNat)) else u.digit c

/-- `int(text)` for a text of digits, read from the left; a digit without a decimal value is a ValueError. See util.py 131. -/
def intOfDigits (u : CharTable) : ℕ → List Char → Py ℕ
  | n, [] => .ok n
  | n, c :: s =>
    match digitOf u c with
    | some (some v) => intOfDigits u (10 * n + v) s
    | _ => .error .valueError

/-- `convert(text)`: `text.isdigit()` is true for a text of at least one character, all of them digits. See util.py 131. -/
def convertPiece (u : CharTable) (s : List Char) : Py Piece :=
  if s ≠ [] ∧ ∀ c ∈ s, (digitOf u c).isSome then
    match intOfDigits u 0 s with
    | .ok n => .ok (.num n)
    | .error e => .error e
  else .ok (.text (u.lower s))

/-- The list comprehension over the pieces of a name. See util.py 132. -/
def convertPieces (u : CharTable) : List (List Char) → Py (List Piece)
  | [] => .ok []
  | s :: l =>
    match convertPiece u s with
    | .error e => .error e
    | .ok p =>
      match convertPieces u l with
      | .error e => .error e
      | .ok k => .ok (p :: k)

/-- `alphanum_key(key)`, util.py 132. -/
def alphanum_key (u : CharTable) (s : List Char) : Py (List Piece) := convertPieces u (splitDigits [] false s)

/-- `<` for the parts of keys: a number and a text cannot be compared. Texts are compared by the numbers of their characters.
See util.py 133. -/
def pieceLt : Piece → Piece → Py Bool
  | .num m, .num n => .ok (decide (m < n))
  | .text s, .text t => .ok (decide (s < t))
  | _, _ => .error .typeError

/-- `<` for keys: the first place where they differ decides, and the shorter one is smaller if there is none. See util.py 133. -/
def keyLt : List Piece → List Piece → Py Bool
  | _, [] => .ok false
  | [], _ :: _ => .ok true
  | a :: s, b :: t => if a = b then keyLt s t else pieceLt a b

/-- Insert a name with its key before the first one that is not smaller; a comparison may raise an exception. See util.py 133. -/
def insertKey (x : List Piece × List Char) : List (List Piece × List Char) → Py (List (List Piece × List Char))
  | [] => .ok [x]
  | y :: l =>
    match keyLt y.1 x.1 with
    | .error e => .error e
    | .ok false => .ok (x :: y :: l)
    | .ok true =>
      match insertKey x l with
      | .error e => .error e
      | .ok l' => .ok (y :: l')

/-- `sorted` for names with their keys. All stable sorts have the same result if no comparison raises an exception; which
comparisons are made is simplified. See util.py 133. -/
def sortKeys : List (List Piece × List Char) → Py (List (List Piece × List Char))
  | [] => .ok []
  | x :: l =>
    match sortKeys l with
    | .error e => .error e
    | .ok l' => insertKey x l'

/-- The keys of all names, taken before the comparisons begin. See util.py 133. -/
def withKeys (u : CharTable) : List (List Char) → Py (List (List Piece × List Char))
  | [] => .ok []
  | s :: l =>
    match alphanum_key u s with
    | .error e => .error e
    | .ok k =>
      match withKeys u l with
      | .error e => .error e
      | .ok r => .ok ((k, s) :: r)

/-- `natural_sort(l)`, util.py 125-133. -/
def natural_sort (u : CharTable) (l : List (List Char)) : Py (List (List Char)) :=
  match withKeys u l with
  | .error e => .error e
  | .ok r =>
    match sortKeys r with
    | .error e => .error e
    | .ok r' => .ok (r'.map (·.2))

/-- What the search sees of the files: which paths are folders or files, the names in a folder in any order, and the lines of a
file. Errors of reading are left out. See shared_cli.py 165-178. -/
structure FileSystem where
  isdir : List Char → Bool
  isfile : List Char → Bool
  entries : List Char → List (List Char)
  lines : List Char → List (List Char)

/-- `path.join`, for a folder that is not written with several slashes at the end. See shared_cli.py 166. -/
def joinPath (p n : List Char) : List Char := if ['/'] <:+ p then p ++ n else p ++ '/' :: n

/-- `glob(path.join(problem_path, "*.vrp"))` and so on: the names that end as asked and do not begin with a dot. The path of the
folder has none of the characters `*?[`, which `glob` would take for a pattern; the case matters, as it does on all systems but
one. See shared_cli.py 166, 168 and 170. -/
def globIn (fs : FileSystem) (p ext : List Char) : List (List Char) :=
  ((fs.entries p).filter fun n => decide (ext <:+ n) && !decide (['.'] <+: n)).map (joinPath p)

/-- The characters of the end of a path: `problem_path[-4:]`. See shared_cli.py 172-180. -/
def lastChars (k : ℕ) (s : List Char) : List Char := s.drop (s.length - k)

/-- The body of the loop over the paths: the files found, and whether there is a message instead. See shared_cli.py 164-184. -/
def searchPath (u : CharTable) (fs : FileSystem) (p : List Char) : Py (List (List Char) × Bool) :=
  if fs.isdir p then
    match natural_sort u (globIn fs p ".vrp".toList) with
    | .error e => .error e
    | .ok a =>
      match natural_sort u (globIn fs p ".tsp".toList) with
      | .error e => .error e
      | .ok b =>
        match natural_sort u (globIn fs p ".pickle".toList) with
        | .error e => .error e
        | .ok c => .ok (a ++ b ++ c, false)
  else if fs.isfile p && decide (u.lower (lastChars 4 p) = ".txt".toList) then
    .ok (((fs.lines p).map strip).filter fs.isfile, false)
  else if fs.isfile p && (decide (u.lower (lastChars 4 p) = ".vrp".toList) || decide (u.lower (lastChars 4 p) = ".tsp".toList) ||
      decide (u.lower (lastChars 7 p) = ".pickle".toList)) then .ok ([p], false)
  else .ok ([], true)

/-- The second loop of `get_a_problem_file_list`: the files to solve and the paths with a message. See shared_cli.py 164-185. -/
def searchPaths (u : CharTable) (fs : FileSystem) : List (List Char) → Py (List (List Char) × List (List Char))
  | [] => .ok ([], [])
  | p :: l =>
    match searchPath u fs p with
    | .error e => .error e
    | .ok (f, w) =>
      match searchPaths u fs l with
      | .error e => .error e
      | .ok (f', w') => .ok (f ++ f', if w then p :: w' else w')

end Verif
