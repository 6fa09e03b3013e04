import Verif.Lemmas.Ropt
import Verif.Props.IntraRoute

/-! # C31: the built-in TSP solver -/

namespace Verif

open Verif.Spec

/-- What the solver promises about its answer `(r, c)`, given the initial tour `r0`: the same nodes,
the same ends, the true cost, not worse than the start, and no better neighbour. -/
def RoptOk (D : ℕ → ℕ → ℚ) (do2opt do3opt : Bool) (r0 r : List ℕ) (c : ℚ) : Prop :=
  r.Perm r0 ∧ r.head? = r0.head? ∧ r.getLast? = r0.getLast? ∧ c = cost D r ∧ c ≤ cost D r0 ∧
    (do2opt = true ∨ do3opt = true → ∀ r', Nb2opt r r' → ¬ (cost D r' + S_EPS < cost D r)) ∧
    (do3opt = true → ∀ r', Nb3opt r r' → r' ≠ r → ¬ (cost D r' + S_EPS < cost D r))

theorem ropt_core {D : ℕ → ℕ → ℚ} (hD : Symm D) (r0 : List ℕ) (do2opt do3opt : Bool) :
    ∃ F, ∀ fuel, F ≤ fuel → ∃ r c,
      (roptPhase do2opt (fun r => do_2opt_move r D .FIRST_ACCEPT none) fuel
        (some (r0, cost D r0)) >>=
          roptPhase do3opt (fun r => do_3opt_move r D .FIRST_ACCEPT none) fuel)
        = .ok (some (r, c)) ∧ RoptOk D do2opt do3opt r0 r c := by
  obtain ⟨m, hm⟩ := cost_perm_bdd D r0
  let Inv : List ℕ → Prop := fun r =>
    r.Perm r0 ∧ r.head? = r0.head? ∧ r.getLast? = r0.getLast?
  have hm' : ∀ r, Inv r → m ≤ cost D r := fun r h => hm r h.1
  have h0 : Inv r0 := ⟨.refl _, rfl, rfl⟩
  have s2 : ∀ r, Inv r → ∃ o, do_2opt_move r D .FIRST_ACCEPT none = .ok o ∧
      ∀ r' δ, o = some (r', δ) → Inv r' ∧ cost D r' = cost D r + δ ∧ δ + S_EPS < 0 := by
    rintro r ⟨i1, i2, i3⟩
    obtain ⟨o, h1, h2⟩ := C12_two_opt hD r .FIRST_ACCEPT none
    refine ⟨o, h1, ?_⟩
    rintro r' δ rfl
    obtain ⟨g1, g2, g3⟩ := nb2opt_same h2.1
    exact ⟨⟨g1.trans i1, g2.trans i2, g3.trans i3⟩, h2.2.1, h2.2.2.1⟩
  have s3 : ∀ r, Inv r → ∃ o, do_3opt_move r D .FIRST_ACCEPT none = .ok o ∧
      ∀ r' δ, o = some (r', δ) → Inv r' ∧ cost D r' = cost D r + δ ∧ δ + S_EPS < 0 := by
    rintro r ⟨i1, i2, i3⟩
    obtain ⟨o, h1, h2⟩ := C13_three_opt hD r .FIRST_ACCEPT none
    refine ⟨o, h1, ?_⟩
    rintro r' δ rfl
    obtain ⟨g1, g2, g3⟩ := nb3opt_same h2.1
    exact ⟨⟨g1.trans i1, g2.trans i2, g3.trans i3⟩, h2.2.1, h2.2.2.1⟩
  obtain ⟨n, hn⟩ := exists_steps (cost D r0 - m)
  refine ⟨n + 1, fun fuel hf => ?_⟩
  -- the first phase
  obtain ⟨r1, e1, i1, c1, o1⟩ : ∃ r1,
      roptPhase do2opt (fun r => do_2opt_move r D .FIRST_ACCEPT none) fuel (some (r0, cost D r0))
        = .ok (some (r1, cost D r1)) ∧ Inv r1 ∧ cost D r1 ≤ cost D r0 ∧
      (do2opt = true → do_2opt_move r1 D .FIRST_ACCEPT none = .ok none) := by
    cases do2opt with
    | false => exact ⟨r0, by simp [roptPhase], h0, le_refl _, by simp⟩
    | true =>
      obtain ⟨r', g1, g2, g3, g4⟩ := descend_spec hm' s2 n r0 h0 hn fuel (by omega)
      exact ⟨r', by simpa [roptPhase] using g1, g2, g3, fun _ => g4⟩
  -- the second phase
  obtain ⟨r2, e2, i2, c2, o2⟩ : ∃ r2,
      roptPhase do3opt (fun r => do_3opt_move r D .FIRST_ACCEPT none) fuel (some (r1, cost D r1))
        = .ok (some (r2, cost D r2)) ∧ Inv r2 ∧ cost D r2 ≤ cost D r1 ∧
      (if do3opt = true then do_3opt_move r2 D .FIRST_ACCEPT none = .ok none else r2 = r1) := by
    cases do3opt with
    | false => exact ⟨r1, by simp [roptPhase], i1, le_refl _, by simp⟩
    | true =>
      obtain ⟨r', g1, g2, g3, g4⟩ := descend_spec hm' s3 n r1 i1 (by linarith) fuel (by omega)
      exact ⟨r', by simpa [roptPhase] using g1, g2, g3, by simpa using g4⟩
  refine ⟨r2, cost D r2, ?_, i2.1, i2.2.1, i2.2.2, rfl, c2.trans c1, ?_, ?_⟩
  · rw [e1]
    exact e2
  · intro hflag r' hr'
    have h2 : do_2opt_move r2 D .FIRST_ACCEPT none = .ok none := by
      by_cases h : do3opt = true
      · rw [if_pos h] at o2
        exact C13_two_opt_optimal hD o2
      · rw [if_neg h] at o2
        subst o2
        exact o1 (by tauto)
    obtain ⟨o, h3, h4⟩ := C12_two_opt hD r2 .FIRST_ACCEPT none
    rw [h2] at h3
    simp only [Except.ok.injEq] at h3
    subst h3
    have := h4 r' hr'
    simp only [Option.getD_none] at this
    intro hlt
    apply this
    linarith
  · intro h r' hr' hne
    rw [if_pos h] at o2
    obtain ⟨o, h3, h4⟩ := C13_three_opt hD r2 .FIRST_ACCEPT none
    rw [o2] at h3
    simp only [Except.ok.injEq] at h3
    subst h3
    have := h4 r' ⟨Or.inl hr', hne⟩
    simp only [Option.getD_none] at this
    intro hlt
    apply this
    linarith

/-- C31. For every non-empty list of nodes that does not already end where it starts, the solver
terminates with a closed tour over the nodes. `roptStart` is not used in the statement: the initial
tour is the list, closed. -/
theorem C31_ropt {D : ℕ → ℕ → ℚ} (hD : Symm D) (a : ℕ) (rest : List ℕ)
    (hr : rest ≠ []) (hl : rest.getLast? ≠ some a) (do2opt do3opt : Bool) :
    ∃ F, ∀ fuel, F ≤ fuel → ∃ r c,
      solve_tsp_ropt fuel D (a :: rest) none do2opt do3opt = .ok (some (r, c)) ∧
      RoptOk D do2opt do3opt (a :: rest ++ [a]) r c := by
  obtain ⟨F, h⟩ := ropt_core hD (a :: rest ++ [a]) do2opt do3opt
  refine ⟨F, fun fuel hf => ?_⟩
  obtain ⟨r, c, h1, h2⟩ := h fuel hf
  refine ⟨r, c, ?_, h2⟩
  rw [← h1]
  obtain ⟨m, x, rfl⟩ : ∃ m x, rest = m ++ [x] :=
    ⟨rest.dropLast, rest.getLast hr, (List.dropLast_append_getLast hr).symm⟩
  have hx : x ≠ a := by simpa using hl
  have e : idxNeg (a :: (m ++ [x])) 1 = .ok x := idxNeg_one_concat (a :: m) x
  have e0 : roptStart (a :: (m ++ [x])) none = .ok (a :: (m ++ [x]) ++ [a]) := by
    unfold roptStart
    rw [e]
    simp only [idx, List.getElem?_cons_zero]
    show (if x ≠ a then pure _ else pure _ : Py (List ℕ)) = _
    rw [if_pos hx]
    rfl
  unfold solve_tsp_ropt
  rw [e0, ← objf_eq_cost]
  rfl

/-- C31. The same for a list that already is closed (or has just one node). -/
theorem C31_ropt_closed {D : ℕ → ℕ → ℚ} (hD : Symm D) (a : ℕ) (rest : List ℕ)
    (hl : (a :: rest).getLast? = some a) (do2opt do3opt : Bool) :
    ∃ F, ∀ fuel, F ≤ fuel → ∃ r c,
      solve_tsp_ropt fuel D (a :: rest) none do2opt do3opt = .ok (some (r, c)) ∧
      RoptOk D do2opt do3opt (a :: rest) r c := by
  obtain ⟨F, h⟩ := ropt_core hD (a :: rest) do2opt do3opt
  refine ⟨F, fun fuel hf => ?_⟩
  obtain ⟨r, c, h1, h2⟩ := h fuel hf
  refine ⟨r, c, ?_, h2⟩
  rw [← h1]
  have e : idxNeg (a :: rest) 1 = .ok a := by
    have hne : a :: rest ≠ [] := by simp
    have := List.dropLast_append_getLast hne
    rw [List.getLast?_eq_getLast_of_ne_nil hne, Option.some.injEq] at hl
    rw [hl] at this
    rw [← this]
    exact idxNeg_one_concat _ a
  have e0 : roptStart (a :: rest) none = .ok (a :: rest) := by
    unfold roptStart
    rw [e]
    simp only [idx, List.getElem?_cons_zero]
    show (if a ≠ a then pure _ else pure _ : Py (List ℕ)) = _
    rw [if_neg (by simp)]
    rfl
  unfold solve_tsp_ropt
  rw [e0, ← objf_eq_cost]
  rfl

/-- C31. The same with a shuffle of all but the first node. (The initial tour has the cost of the
shuffled order, so the comparison with the start is left out.) -/
theorem C31_ropt_shuffle {D : ℕ → ℕ → ℚ} (hD : Symm D) (a : ℕ) (rest : List ℕ)
    (sh : List ℕ → List ℕ) (hsh : ∀ l, (sh l).Perm l) (do2opt do3opt : Bool) :
    ∃ F, ∀ fuel, F ≤ fuel → ∃ r c,
      solve_tsp_ropt fuel D (a :: rest) (some sh) do2opt do3opt = .ok (some (r, c)) ∧
      r.Perm (a :: rest ++ [a]) ∧ r.head? = some a ∧ r.getLast? = some a ∧ c = cost D r ∧
      RoptOk D do2opt do3opt (a :: sh rest ++ [a]) r c := by
  obtain ⟨F, h⟩ := ropt_core hD (a :: sh rest ++ [a]) do2opt do3opt
  refine ⟨F, fun fuel hf => ?_⟩
  obtain ⟨r, c, h1, h2⟩ := h fuel hf
  refine ⟨r, c, ?_, h2.1.trans (((hsh rest).cons a).append_right [a]), h2.2.1,
    h2.2.2.1.trans (List.getLast?_concat (l := a :: sh rest)), h2.2.2.2.1, h2⟩
  rw [← h1]
  unfold solve_tsp_ropt
  rw [← objf_eq_cost]
  rfl

/-- The solver on a real case: a tour is found and improved. -/
example : solve_tsp_ropt 9 exD [0, 2, 1, 4, 3] none true true
    = .ok (some ([0, 1, 2, 3, 4, 0], 5)) := by decide +kernel
example : ([2, 1, 4, 3] : List ℕ) ≠ [] ∧ ([2, 1, 4, 3] : List ℕ).getLast? ≠ some 0 := by decide
example : solve_tsp_3opt 9 exD3 [0, 1, 2, 3, 4, 5, 0]
    = .ok (some ([0, 3, 4, 1, 2, 5, 0], 3)) := by decide +kernel
example : solve_tsp_2opt 9 exD [0, 2, 1, 3, 4] = .ok (some ([0, 1, 2, 3, 4, 0], 5)) := by
  decide +kernel

/-- C31. An already closed list must not be given with shuffling: the closing node is shuffled among
the customers and visited in the middle of the tour. (A witness of what the theorem for the shuffle
permits: three visits of the first node.) -/
theorem C31_shuffle_closed : ∃ sh : List ℕ → List ℕ, (∀ l, (sh l).Perm l) ∧
    ∃ r c, solve_tsp_ropt 9 exD [0, 2, 4, 0] (some sh) false false = .ok (some (r, c)) ∧
      r.count 0 = 3 :=
  ⟨List.reverse, fun l => List.reverse_perm l, [0, 0, 4, 2, 0], 7, by decide +kernel, by decide⟩

end Verif
