import Verif.Model.CvrpIo

/-! # Specification of the explicit matrix formats of TSPLIB -/

namespace Verif.Spec

/-- The entries (row, column) of an `n×n` matrix in the order the format lists them. -/
def entries (n : ℕ) : EWFormat → List (ℕ × ℕ)
  | .fullMatrix => (List.range n).flatMap fun r => (List.range n).map fun c => (r, c)
  | .lowerRow => (List.range n).flatMap fun r => (List.range r).map fun c => (r, c)
  | .lowerDiagRow => (List.range n).flatMap fun r => (List.range (r + 1)).map fun c => (r, c)
  | .upperRow => (List.range n).flatMap fun r => (List.range' (r + 1) (n - (r + 1))).map fun c => (r, c)
  | .upperDiagRow => (List.range n).flatMap fun r => (List.range' r (n - r)).map fun c => (r, c)
  | .lowerCol => (List.range n).flatMap fun c => (List.range' (c + 1) (n - (c + 1))).map fun r => (r, c)
  | .other => []

/-- The format lists the diagonal. -/
def hasDiag : EWFormat → Bool
  | .fullMatrix => true
  | .lowerDiagRow => true
  | .upperDiagRow => true
  | _ => false

end Verif.Spec
