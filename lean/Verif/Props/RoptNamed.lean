import Verif.Props.Ropt

/-! # C31: the two solvers that are offered by name -/

namespace Verif
open Spec

/-- C31. `solve_tsp_2opt` and `solve_tsp_3opt`, for every list of two nodes or more: a closed tour over the nodes, its true
cost, not more than that of the list, and no 2-opt move improves it. For `solve_tsp_3opt` no 3-opt move does, either. -/
theorem C31_named {D : ℕ → ℕ → ℚ} (hD : Symm D) (a : ℕ) (rest : List ℕ) (hr : rest ≠ []) (hl : rest.getLast? ≠ some a) :
    ∃ F, ∀ fuel, F ≤ fuel →
      (∃ r c, solve_tsp_2opt fuel D (a :: rest) = .ok (some (r, c)) ∧ r.Perm (a :: rest ++ [a]) ∧ r.head? = some a ∧
        r.getLast? = some a ∧ c = cost D r ∧ c ≤ cost D (a :: rest ++ [a]) ∧
        ∀ r', Nb2opt r r' → cost D r ≤ cost D r' + S_EPS) ∧
      ∃ r c, solve_tsp_3opt fuel D (a :: rest) = .ok (some (r, c)) ∧ r.Perm (a :: rest ++ [a]) ∧ r.head? = some a ∧
        r.getLast? = some a ∧ c = cost D r ∧ c ≤ cost D (a :: rest ++ [a]) ∧
        (∀ r', Nb2opt r r' → cost D r ≤ cost D r' + S_EPS) ∧ ∀ r', Nb3opt r r' → r' ≠ r → cost D r ≤ cost D r' + S_EPS := by
  obtain ⟨F2, h2⟩ := C31_ropt hD a rest hr hl true false
  obtain ⟨F3, h3⟩ := C31_ropt hD a rest hr hl false true
  refine ⟨max F2 F3, fun fuel hf => ⟨?_, ?_⟩⟩
  · obtain ⟨r, c, e, k1, k2, k3, k4, k5, k6, -⟩ := h2 fuel (le_trans (le_max_left _ _) hf)
    exact ⟨r, c, e, k1, k2, k3.trans (List.getLast?_concat (l := a :: rest)), k4, k5,
      fun r' hn => not_lt.1 (k6 (.inl rfl) r' hn)⟩
  · obtain ⟨r, c, e, k1, k2, k3, k4, k5, k6, k7⟩ := h3 fuel (le_trans (le_max_right _ _) hf)
    exact ⟨r, c, e, k1, k2, k3.trans (List.getLast?_concat (l := a :: rest)), k4, k5,
      fun r' hn => not_lt.1 (k6 (.inr rfl) r' hn), fun r' hn hne => not_lt.1 (k7 rfl r' hn hne)⟩

/-- A square whose corners are visited crosswise: both solvers find the way round. -/
example : (let D : ℕ → ℕ → ℚ := fun i j => if i = j then 0 else if i % 2 = j % 2 then 3 else 2
    solve_tsp_2opt 5 D [0, 2, 1, 3] = .ok (some ([0, 1, 2, 3, 0], 8)) ∧ solve_tsp_3opt 5 D [0, 2, 1, 3] = .ok (some ([0, 1, 2, 3, 0], 8)) ∧
      cost D [0, 2, 1, 3, 0] = 10) := by decide +kernel

end Verif
