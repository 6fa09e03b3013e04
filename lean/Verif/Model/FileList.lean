import Verif.Model.Py

/-! # Model of `get_a_problem_file_list` of `verypy/shared_cli.py` -/

namespace Verif

/-- The folders in a folder, as `os.walk` lists them: the name of the first, the folders in it, and the
others. Names are numbers. Symbolic links to folders, which `os.walk` does not follow, are left out.
See shared_cli.py 161. -/
inductive Folders where
  | nil
  | cons (name : ℕ) (sub rest : Folders)
  deriving DecidableEq, Repr

/-- The paths of the folders directly in the folder with the path `p`: `[path.join(root,d) for d in
dirs]`, shared_cli.py 162. A path is the list of its parts. -/
def level (p : List ℕ) : Folders → List (List ℕ × Folders)
  | .nil => []
  | .cons n s r => (p ++ [n], s) :: level p r

/-- What `os.walk` adds by going into the folders of the folder `p`. See shared_cli.py 161-162. -/
def belowDirs (p : List ℕ) : Folders → List (List ℕ × Folders)
  | .nil => []
  | .cons n s r => level (p ++ [n]) s ++ belowDirs (p ++ [n]) s ++ belowDirs p r

/-- What the loop over `os.walk(problem_path)` adds, shared_cli.py 161-162. -/
def walkDirs (p : List ℕ) (f : Folders) : List (List ℕ × Folders) := level p f ++ belowDirs p f

/-- The loop over `problem_paths` that grows while it is looped over, shared_cli.py 160-162. `rest` is
what is still to come. The answer `none` tells that the fuel did not suffice. A path that is not a
folder is given `Folders.nil`. -/
def growPaths : ℕ → List (List ℕ) → List (List ℕ × Folders) → Option (List (List ℕ))
  | _, done, [] => some done
  | 0, _, _ :: _ => none
  | fuel + 1, done, (p, f) :: rest => growPaths fuel (done ++ [p]) (rest ++ walkDirs p f)

/-- `get_a_problem_file_list(problem_paths, recursive)`, shared_cli.py 157-185. What is found for one
path (the sorted files in a folder, the lines of a list file, the file itself, or nothing) is given by
`search`. -/
def get_a_problem_file_list {α : Type} (fuel : ℕ) (search : List ℕ → List α)
    (paths : List (List ℕ × Folders)) (recursive : Bool) : Option (List α) :=
  if recursive then (growPaths fuel [] paths).map fun l => l.flatMap search
  else some ((paths.map (·.1)).flatMap search)

end Verif
