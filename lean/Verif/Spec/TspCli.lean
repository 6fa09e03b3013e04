import Verif.Model.TspCli
import Verif.Spec.Basic

/-! # Specification for C83: what the command line of the routines for tours is to print -/

namespace Verif.Spec

/-- A closed tour from the node 0 that visits each of the other `n - 1` nodes once. -/
def RoundTrip (n : ℕ) (sol : List ℕ) : Prop :=
  ∃ u, (0 :: u).Perm (List.range n) ∧ sol = 0 :: u ++ [0]

/-- The program prints the tour and its cost and runs to its end. -/
def PrintsTour (D : ℕ → ℕ → ℚ) (sol : List ℕ) (out : List TcEvent × TcEnd) : Prop :=
  out = ([.solved, .solution sol, .cost (Spec.cost D sol)], .normal)

end Verif.Spec
