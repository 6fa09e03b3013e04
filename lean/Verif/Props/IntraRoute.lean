import Verif.Lemmas.IntraRoute

/-! # Properties C12-C15: the intra-route operators

Each operator is compared with the neighbourhood of the route given in `Verif.Spec.Moves`: what is
found is a neighbour with its exact change of cost, below the bound; when nothing is found there is
nothing to find. `bd.getD 0` is the bound the caller gave, 0 without one. -/

namespace Verif
open Spec

/-! ## C12: 2-opt -/

/-- C12. 2-opt is sound, exact and complete, and best-accept finds the best reversal. -/
theorem C12_two_opt {D : ℕ → ℕ → ℚ} (hD : Symm D) (route : List ℕ) (st : LSOPT) (bd : Option ℚ) :
    ∃ r, do_2opt_move route D st bd = .ok r ∧
      MoveOk D Nb2opt (st == .BEST_ACCEPT) (bd.getD 0) route r := by
  refine ⟨_, do_2opt_eq route D st bd, ?_⟩
  rw [initDelta_eq]
  refine moveOk_of_scan (cands2_sound hD) ?_
  rintro r'' ⟨A, B, C, hA, hB, hC, rfl, rfl⟩
  exact cands2_complete hD hA hB hC

theorem nb2opt_same {r r' : List ℕ} (h : Nb2opt r r') :
    r'.Perm r ∧ r'.head? = r.head? ∧ r'.getLast? = r.getLast? := by
  obtain ⟨A, B, C, hA, hB, hC, rfl, rfl⟩ := h
  refine ⟨(List.Perm.append_left _ (List.reverse_perm B)).append_right _, ?_, ?_⟩
  · cases A with
    | nil => exact absurd rfl hA
    | cons => rfl
  · rw [getLast_append_ne hC, getLast_append_ne hC]

/-- C12. The result of 2-opt has the same nodes and the same ends. -/
theorem C12_same_nodes {D : ℕ → ℕ → ℚ} (hD : Symm D) {route r' : List ℕ} {st : LSOPT}
    {bd : Option ℚ} {delta : ℚ} (h : do_2opt_move route D st bd = .ok (some (r', delta))) :
    r'.Perm route ∧ r'.head? = route.head? ∧ r'.getLast? = route.getLast? := by
  obtain ⟨r, h1, h2⟩ := C12_two_opt hD route st bd
  rw [h] at h1
  simp only [Except.ok.injEq] at h1
  subst h1
  exact nb2opt_same h2.1

/-- A matrix with 1 between cyclically adjacent nodes and 3 between others. -/
def exD (i j : ℕ) : ℚ :=
  if i = j then 0 else if i + 1 = j ∨ j + 1 = i ∨ (i = 0 ∧ j = 4) ∨ (i = 4 ∧ j = 0) then 1 else 3

theorem exD_symm : Symm exD := by
  intro i j
  unfold exD
  by_cases h : i = j
  · subst h; rfl
  · rw [if_neg h, if_neg (Ne.symm h)]
    have : (i + 1 = j ∨ j + 1 = i ∨ i = 0 ∧ j = 4 ∨ i = 4 ∧ j = 0) ↔
        (j + 1 = i ∨ i + 1 = j ∨ j = 0 ∧ i = 4 ∨ j = 4 ∧ i = 0) := by tauto
    simp only [this]

example : do_2opt_move [0, 2, 1, 3, 4, 0] exD .FIRST_ACCEPT none
    = .ok (some ([0, 1, 2, 3, 4, 0], -4)) := by decide +kernel
example : do_2opt_move [0, 1, 2, 3, 4, 0] exD .BEST_ACCEPT none = .ok none := by decide +kernel
/-- The incumbent bound rejects what is not good enough. -/
example : do_2opt_move [0, 2, 1, 3, 4, 0] exD .BEST_ACCEPT (some (-4)) = .ok none := by
  decide +kernel

/-! ## C13: 3-opt -/

/-- C13. 3-opt is sound and exact, and complete for all the ways to reconnect three removed edges
and for the segment reversals (those that do not give back the route). -/
theorem C13_three_opt {D : ℕ → ℕ → ℚ} (hD : Symm D) (route : List ℕ) (st : LSOPT)
    (bd : Option ℚ) :
    ∃ r, do_3opt_move route D st bd = .ok r ∧
      MoveOkFor D Nb3opt (fun r r'' => (Nb3opt r r'' ∨ Nb2opt r r'') ∧ r'' ≠ r)
        (st == .BEST_ACCEPT) (bd.getD 0) route r := by
  refine ⟨_, do_3opt_eq route D st bd, ?_⟩
  rw [initDelta_eq]
  refine moveOk_of_scan (cands3_sound hD) ?_
  rintro r'' ⟨⟨A, B, C, E, hA, hB, hC, hE, rfl, M, rfl, hM⟩ | ⟨A, B, C, hA, hB, hC, rfl, rfl⟩, hne⟩
  · rcases hM with hM | hM | hM
    · exact cands3_complete hD hA hB hC hE (by tauto)
    · subst hM
      have h2 := cands3_2opt hD hA hB (C := C ++ E) (by simp [hC])
      rcases h2 with h2 | h2
      · simpa using h2
      · exfalso; apply hne; rw [h2]; simp
    · exact cands3_complete hD hA hB hC hE (by tauto)
  · rcases cands3_2opt hD hA hB hC with h2 | h2
    · exact h2
    · exfalso; apply hne; rw [h2]

theorem nb3opt_same {r r' : List ℕ} (h : Nb3opt r r') :
    r'.Perm r ∧ r'.head? = r.head? ∧ r'.getLast? = r.getLast? := by
  obtain ⟨A, B, C, E, hA, hB, hC, hE, rfl, M, rfl, hM⟩ := h
  have hM' : M.Perm (B ++ C) := by
    have b := List.reverse_perm B
    have c := List.reverse_perm C
    have s := List.perm_append_comm (l₁ := C) (l₂ := B)
    rcases hM with rfl | rfl | rfl | rfl | rfl | rfl | rfl
    · exact c.append_left _
    · exact b.append_right _
    · exact b.append c
    · exact s
    · exact (c.append_right _).trans s
    · exact (b.append_left _).trans s
    · exact (c.append b).trans s
  refine ⟨?_, ?_, ?_⟩
  · refine List.Perm.append_right _ ?_
    rw [List.append_assoc]
    exact hM'.append_left _
  · cases A with
    | nil => exact absurd rfl hA
    | cons => rfl
  · rw [getLast_append_ne hE, getLast_append_ne hE]

/-- C13. The result of 3-opt has the same nodes and the same ends. -/
theorem C13_same_nodes {D : ℕ → ℕ → ℚ} (hD : Symm D) {route r' : List ℕ} {st : LSOPT}
    {bd : Option ℚ} {delta : ℚ} (h : do_3opt_move route D st bd = .ok (some (r', delta))) :
    r'.Perm route ∧ r'.head? = route.head? ∧ r'.getLast? = route.getLast? := by
  obtain ⟨r, h1, h2⟩ := C13_three_opt hD route st bd
  rw [h] at h1
  simp only [Except.ok.injEq] at h1
  subst h1
  exact nb3opt_same h2.1

/-- C13. When 3-opt finds nothing then 2-opt finds nothing, whatever the strategies. -/
theorem C13_two_opt_optimal {D : ℕ → ℕ → ℚ} (hD : Symm D) {route : List ℕ} {st st' : LSOPT}
    (h : do_3opt_move route D st none = .ok none) :
    do_2opt_move route D st' none = .ok none := by
  have heps : (0 : ℚ) < S_EPS := by norm_num [S_EPS]
  obtain ⟨r, h1, h2⟩ := C13_three_opt hD route st none
  rw [h] at h1
  simp only [Except.ok.injEq] at h1
  subst h1
  obtain ⟨r, h3, h4⟩ := C12_two_opt hD route st' none
  rw [h3]
  rcases r with _ | ⟨r', delta⟩
  · rfl
  · obtain ⟨g1, g2, g3, -⟩ := h4
    simp only [Option.getD_none] at g3
    exfalso
    have hne : r' ≠ route := by rintro rfl; linarith
    refine h2 r' ⟨Or.inr g1, hne⟩ ?_
    simp only [Option.getD_none]
    linarith

/-- 3-opt finds a segment exchange that 2-opt does not. -/
def exD3 (i j : ℕ) : ℚ :=
  if i = j then 0
  else if (i, j) ∈ [(3, 4), (4, 3), (1, 2), (2, 1), (5, 0), (0, 5)] then 0
  else if (i, j) ∈ [(0, 3), (3, 0), (4, 1), (1, 4), (2, 5), (5, 2)] then 1
  else if (i, j) ∈ [(0, 1), (1, 0), (2, 3), (3, 2), (4, 5), (5, 4)] then 2 else 9

example : do_2opt_move [0, 1, 2, 3, 4, 5, 0] exD3 .BEST_ACCEPT none = .ok none ∧
    do_3opt_move [0, 1, 2, 3, 4, 5, 0] exD3 .BEST_ACCEPT none
      = .ok (some ([0, 3, 4, 1, 2, 5, 0], -3)) := by decide +kernel

/-! ## C14: relocate -/

/-- C14. Relocation is sound and exact for every route and every matrix, symmetric or not. -/
theorem C14_sound (D : ℕ → ℕ → ℚ) (route : List ℕ) (st : LSOPT) (bd : Option ℚ) :
    ∃ r, do_relocate_move route D st bd = .ok r ∧
      MoveOkFor D NbRelocate (fun _ _ => False) (st == .BEST_ACCEPT) (bd.getD 0) route r := by
  refine ⟨_, do_relocate_eq route D st bd, ?_⟩
  rw [initDelta_eq]
  exact moveOk_of_scan candsR_sound (fun _ h => h.elim)

/-- C14. If no customer repeats, relocation is also complete. -/
theorem C14_relocate (D : ℕ → ℕ → ℚ) {route : List ℕ} (hr : Circuit route) (st : LSOPT)
    (bd : Option ℚ) :
    ∃ r, do_relocate_move route D st bd = .ok r ∧
      MoveOk D NbRelocate (st == .BEST_ACCEPT) (bd.getD 0) route r := by
  refine ⟨_, do_relocate_eq route D st bd, ?_⟩
  rw [initDelta_eq]
  refine moveOk_of_scan candsR_sound ?_
  rintro r'' ⟨A, M, E, n, hA, hM, hE, ⟨rfl, rfl⟩ | ⟨rfl, rfl⟩⟩
  · exact candsR_fwd hA hM hE hr
  · exact candsR_bwd hA hM hE hr

theorem nbRelocate_same {r r' : List ℕ} (h : NbRelocate r r') :
    r'.Perm r ∧ r'.head? = r.head? ∧ r'.getLast? = r.getLast? := by
  obtain ⟨A, M, E, n, hA, hM, hE, ⟨rfl, rfl⟩ | ⟨rfl, rfl⟩⟩ := h
  all_goals
    refine ⟨?_, ?_, ?_⟩
    · refine List.Perm.append_right _ ?_
      rw [List.append_assoc, List.append_assoc]
      exact List.Perm.append_left _ List.perm_append_comm
    · cases A with
      | nil => exact absurd rfl hA
      | cons => rfl
    · rw [getLast_append_ne hE, getLast_append_ne hE]

/-- C14. The result of a relocation has the same nodes and the same ends. -/
theorem C14_same_nodes {D : ℕ → ℕ → ℚ} {route r' : List ℕ} {st : LSOPT}
    {bd : Option ℚ} {delta : ℚ} (h : do_relocate_move route D st bd = .ok (some (r', delta))) :
    r'.Perm route ∧ r'.head? = route.head? ∧ r'.getLast? = route.getLast? := by
  obtain ⟨r, h1, h2⟩ := C14_sound D route st bd
  rw [h] at h1
  simp only [Except.ok.injEq] at h1
  subst h1
  exact nbRelocate_same h2.1

example : Circuit [0, 2, 3, 1, 4, 0] := ⟨0, [2, 3, 1, 4], 0, rfl, by decide, by decide⟩
example : do_relocate_move [0, 2, 3, 1, 4, 0] exD .BEST_ACCEPT none
    = .ok (some ([0, 1, 2, 3, 4, 0], -6)) := by decide +kernel
example : do_relocate_move [0, 1, 2, 3, 4, 0] exD .FIRST_ACCEPT none = .ok none := by
  decide +kernel

/-! ## C15: exchange -/

/-- C15. If no customer repeats, the exchange of two customers is sound, exact and complete for every
matrix, symmetric or not. -/
theorem C15_exchange (D : ℕ → ℕ → ℚ) {route : List ℕ} (hr : Circuit route) (st : LSOPT)
    (bd : Option ℚ) :
    ∃ r, do_exchange_move route D st bd = .ok r ∧
      MoveOk D NbExchange (st == .BEST_ACCEPT) (bd.getD 0) route r := by
  refine ⟨_, do_exchange_eq route D st bd, ?_⟩
  rw [initDelta_eq]
  refine moveOk_of_scan (candsX_sound hr) ?_
  rintro r'' ⟨A, M, E, n, m, hA, hE, rfl, rfl⟩
  exact candsX_complete hA hE hr

theorem nbExchange_same {r r' : List ℕ} (h : NbExchange r r') :
    r'.Perm r ∧ r'.head? = r.head? ∧ r'.getLast? = r.getLast? := by
  obtain ⟨A, M, E, n, m, hA, hE, rfl, rfl⟩ := h
  refine ⟨?_, ?_, ?_⟩
  · refine List.Perm.append_right _ ?_
    simp only [List.append_assoc]
    refine List.Perm.append_left _ ?_
    have h1 : ([m] ++ (M ++ [n])).Perm ([m] ++ ([n] ++ M)) :=
      List.Perm.append_left _ List.perm_append_comm
    have h2 : ([n] ++ (M ++ [m])).Perm ([n] ++ ([m] ++ M)) :=
      List.Perm.append_left _ List.perm_append_comm
    exact h1.trans ((List.Perm.swap n m M).trans h2.symm)
  · cases A with
    | nil => exact absurd rfl hA
    | cons => rfl
  · rw [getLast_append_ne hE, getLast_append_ne hE]

/-- C15. The result of an exchange has the same nodes and the same ends. -/
theorem C15_same_nodes {D : ℕ → ℕ → ℚ} {route r' : List ℕ} (hr : Circuit route) {st : LSOPT}
    {bd : Option ℚ} {delta : ℚ} (h : do_exchange_move route D st bd = .ok (some (r', delta))) :
    r'.Perm route ∧ r'.head? = route.head? ∧ r'.getLast? = route.getLast? := by
  obtain ⟨r, h1, h2⟩ := C15_exchange D hr st bd
  rw [h] at h1
  simp only [Except.ok.injEq] at h1
  subst h1
  exact nbExchange_same h2.1

example : do_exchange_move [0, 3, 2, 1, 4, 0] exD .FIRST_ACCEPT none
    = .ok (some ([0, 1, 2, 3, 4, 0], -4)) := by decide +kernel
example : do_exchange_move [0, 1, 2, 3, 4, 0] exD .BEST_ACCEPT none = .ok none := by decide +kernel

/-- C15. With a repeated node the reported change is wrong: the adjacency test of the code compares
nodes, not positions. -/
theorem C15_needs_distinct : ∃ r' delta,
    do_exchange_move [0, 2, 3, 4, 3, 1, 0] exD3 .BEST_ACCEPT none = .ok (some (r', delta)) ∧
      cost exD3 r' ≠ cost exD3 [0, 2, 3, 4, 3, 1, 0] + delta :=
  ⟨[0, 3, 3, 4, 2, 1, 0], -17, by decide +kernel, by decide +kernel⟩

end Verif
