import Verif.Model.Lr3opt

/-! # Model of the random initialization of `verypy/classic_heuristics/lr3opt.py` -/

namespace Verif

/-- `_init_with_random(D,d,C,L)`, lr3opt.py 159-163. `shuffled` is what `shuffle` makes of the customers. -/
def init_with_random (D : ℕ → ℕ → ℚ) (shuffled : List ℕ) : Py (List ℕ × ℚ) :=
  let random_sol := [0] ++ shuffled ++ [0]
  match recalculate_objective random_sol D with
  | .error e => .error e
  | .ok f => .ok (random_sol, f)

/-- `lr3opt_init` with the random initialization, lr3opt.py 221-385 with 159-163. -/
def lr3opt_random (o : LrOpts) (D : ℕ → ℕ → ℚ) (d : ℕ → ℚ) (N : ℕ) (C L : Option ℚ) (lam : Lambdas) (shuffled : List ℕ)
    (rounds : ℕ) : Py (Option LrState) :=
  match init_with_random D shuffled with
  | .error e => .error e
  | .ok (sol, _) => lr3opt_init o D d N C L lam sol rounds

end Verif
