import Verif.Model.TspExternal
import Verif.Spec.Basic

/-! # Specification for C72: the files of the other programs -/

namespace Verif.Spec

/-- A number as it is written to the file: cut off to the accuracy if the matrix is one of floats. -/
def written (float : Bool) (acc : ℚ) (x : ℚ) : ℚ := if float then truncQ (x * acc) else x

/-- The distance between the `i`-th and the `j`-th node of a file, counted from one. The file has the upper triangle. -/
def fileDist (float : Bool) (acc : ℚ) (D : ℕ → ℕ → ℚ) (idxs : List ℕ) (i j : ℕ) : ℚ :=
  written float acc (D (idxs.getD (min i j - 1) 0) (idxs.getD (max i j - 1) 0))

/-- What is asked of the file that LKH writes for a problem with `n` nodes and distances `M`: a head, the tour, an end mark and anything
after it. The tour visits each node once and the length is that of the tour. -/
structure LkhAnswer (n : ℕ) (M : ℕ → ℕ → ℚ) (lines : List LkhLine) : Prop where
  form : ∃ head rest a ks, lines = head ++ .tours :: (a :: ks).map .node ++ .stop :: rest ∧
    (a :: ks).Perm (List.range' 1 n) ∧ .tours ∉ head ∧ .tours ∉ rest ∧ (∃ f, .length f ∈ head ++ rest) ∧
    ∀ f, .length f ∈ head ++ rest → f = cost M (a :: ks ++ [a])

end Verif.Spec
