import Verif.Lemmas.Lr3opt

/-!
# Constraint checker and feasibility forcing of the Stewart-Golden heuristic (C32)
-/

namespace Verif

open Spec

/-- C32. A solution the fast checker accepts has only routes within the limits. -/
theorem C32_check_sound {sol : List ℕ} (hs : DepotEnds sol) {D : ℕ → ℕ → ℚ} {d : ℕ → ℚ}
    {C L : Option ℚ} (h : check_CL_constraints sol D d C L = true) : Feasible D d C L sol := by
  obtain ⟨h1, h2⟩ := hs
  cases sol with
  | nil => simp at h1
  | cons a t =>
    simp only [List.head?_cons, Option.some.injEq] at h1
    subst h1
    have key : ∀ t : List ℕ, (t = [] ∨ t.getLast? = some 0) →
        checkCLLoop D d C L t ⟨some 0, 0, 0⟩ = true → ∀ b ∈ blocks t, RouteOk D d C L b := by
      intro t
      induction t using zero_split_ind with
      | h0 g hg =>
        rintro (rfl | h) -
        · simp
        · obtain ⟨A, rfl⟩ := List.getLast?_eq_some_iff.1 h
          exact absurd rfl (hg 0 (by simp))
      | h1 g r hg ih =>
        intro he hc b hb
        obtain ⟨k1, k2, k3⟩ := checkCL_sound D d C L r g hg 0 0 0 0 0 (fun _ => rfl) (fun _ => rfl) hc
        rw [blocks_block_zero g r hg] at hb
        have hr : r = [] ∨ r.getLast? = some 0 := by
          by_cases h : r = []
          · exact Or.inl h
          · right
            rcases he with he | he
            · simp at he
            · rw [List.getLast?_append, List.getLast?_cons, List.getLast?_eq_some_getLast h] at he
              rw [List.getLast?_eq_some_getLast h]
              simpa using he
        by_cases hg0 : g = []
        · rw [if_pos hg0] at hb
          exact ih hr k3 b hb
        · rw [if_neg hg0, List.mem_cons] at hb
          rcases hb with rfl | hb
          · exact ⟨by simpa using k1 hg0, by simpa [wrap] using k2⟩
          · exact ih hr k3 b hb
    intro b hb
    rw [blocks_zero] at hb
    refine key t ?_ ?_ b hb
    · cases t with
      | nil => exact Or.inl rfl
      | cons x y => right; simpa [List.getLast?_cons_cons] using h2
    · simpa [check_CL_constraints, checkCLLoop] using h

/-- C32. A solution with only routes within the limits is accepted, if distances and demands are not
negative. -/
theorem C32_check_complete {sol : List ℕ} (hs : DepotEnds sol) {D : ℕ → ℕ → ℚ}
    (hD : ∀ i j, 0 ≤ D i j) (h00 : D 0 0 = 0) {d : ℕ → ℚ} (hd : ∀ n, 0 ≤ d n) {C L : Option ℚ}
    (hL : ∀ x, L = some x → 0 ≤ x) (h : Feasible D d C L sol) :
    check_CL_constraints sol D d C L = true := by
  obtain ⟨h1, h2⟩ := hs
  cases sol with
  | nil => simp at h1
  | cons a t =>
    simp only [List.head?_cons, Option.some.injEq] at h1
    subst h1
    have key : ∀ t : List ℕ, (t = [] ∨ t.getLast? = some 0) → (∀ b ∈ blocks t, RouteOk D d C L b) →
        checkCLLoop D d C L t ⟨some 0, 0, 0⟩ = true := by
      intro t
      induction t using zero_split_ind with
      | h0 g hg =>
        rintro (rfl | h) -
        · simp [checkCLLoop]
        · obtain ⟨A, rfl⟩ := List.getLast?_eq_some_iff.1 h
          exact absurd rfl (hg 0 (by simp))
      | h1 g r hg ih =>
        intro he hb
        rw [blocks_block_zero g r hg] at hb
        have hr : r = [] ∨ r.getLast? = some 0 := by
          by_cases h : r = []
          · exact Or.inl h
          · right
            rcases he with he | he
            · simp at he
            · rw [List.getLast?_append, List.getLast?_cons, List.getLast?_eq_some_getLast h] at he
              rw [List.getLast?_eq_some_getLast h]
              simpa using he
        refine checkCL_complete hD hd C L r g hg 0 0 0 0 0 (fun _ => rfl) (fun _ => rfl) ?_ ?_ ?_
        · intro hg0
          rw [if_neg hg0] at hb
          simpa using (hb g (by simp)).1
        · by_cases hg0 : g = []
          · subst hg0
            intro x hx _
            have := hL x hx
            have : (0 : ℚ) ≤ S_EPS := by unfold S_EPS; norm_num
            simp only [List.nil_append, cost_cons_cons, cost_single, h00]
            linarith
          · rw [if_neg hg0] at hb
            simpa [wrap] using (hb g (by simp)).2
        · refine ih hr fun b hb' => hb b ?_
          by_cases hg0 : g = []
          · rw [if_pos hg0]; exact hb'
          · rw [if_neg hg0]; simp [hb']
    have := key t (by
      cases t with
      | nil => exact Or.inl rfl
      | cons x y => right; simpa [List.getLast?_cons_cons] using h2)
      (by intro b hb; exact h b (by rw [blocks_zero]; exact hb))
    simpa [check_CL_constraints, checkCLLoop] using this

/-- C32. Forcing a solution feasible keeps the order of all the customers and only adds depot visits:
the routes of the result are consecutive parts of the given routes. No depot visit is superfluous: no
part could have served the first customer of the next part within the limits. The result respects the
limits if each customer alone does. -/
theorem C32_force {sol : List ℕ} (hs : DepotEnds sol) (hc : customers sol ≠ []) (D : ℕ → ℕ → ℚ)
    (d : ℕ → ℚ) (C L : Option ℚ) :
    ∃ sol', force_feasible sol D d C L = some sol' ∧ DepotEnds sol' ∧ squeeze sol' = sol' ∧
      customers sol' = customers sol ∧
      ((∀ n ∈ customers sol, RouteOk D d C L [n]) → Feasible D d C L sol') ∧
      ∃ pss : List (List (List ℕ)), blocks sol' = pss.flatten ∧
        List.Forall₂ (fun b ps => ps.flatten = b ∧ (∀ p ∈ ps, p ≠ []) ∧
          ps.IsChain fun p q => ∀ n, q.head? = some n → ¬ RouteOk D d C L (p ++ [n]))
          (blocks sol) pss := by
  have hbl := mem_blocks sol
  obtain ⟨pss, h1, h2⟩ := ffRoutes_spec (D := D) (d := d) (C := C) (L := L)
    (S := ∀ n ∈ customers sol, RouteOk D d C L [n]) (blocks sol) [] (by
      intro b hb
      refine ⟨(hbl b hb).1, fun x hx => ⟨(hbl b hb).2 x hx, fun hS => hS x ?_⟩⟩
      rw [← blocks_flatten]
      exact List.mem_flatten.2 ⟨b, hb, hx⟩)
  have hfl : pss.flatten.flatten = customers sol := by
    rw [← blocks_flatten]
    clear h1 hbl
    generalize blocks sol = B at h2 ⊢
    induction h2 with
    | nil => rfl
    | cons h _ ih =>
      rw [List.flatten_cons, List.flatten_append, ih, h.1, List.flatten_cons]
  have hp : ∀ p ∈ pss.flatten, p ≠ [] ∧ ((∀ n ∈ customers sol, RouteOk D d C L [n]) →
      RouteOk D d C L p) := by
    clear h1 hfl hbl
    generalize blocks sol = B at h2
    induction h2 with
    | nil => simp
    | cons h _ ih =>
      intro p hp
      rw [List.flatten_cons, List.mem_append] at hp
      rcases hp with hp | hp
      · exact ⟨h.2.ne p hp, fun hS => h.2.ok hS p hp⟩
      · exact ih p hp
  have hpz : ∀ p ∈ pss.flatten, p ≠ [] ∧ ∀ x ∈ p, x ≠ 0 := by
    intro p hp'
    refine ⟨(hp p hp').1, fun x hx => ?_⟩
    have : x ∈ customers sol := by rw [← hfl]; exact List.mem_flatten.2 ⟨p, hp', hx⟩
    simpa using (List.mem_filter.1 this).2
  have hb := blocks_tour_of_routes _ hpz
  refine ⟨tour pss.flatten, ?_, depotEnds_tour _, squeeze_tour hpz, ?_, ?_, pss, hb, ?_⟩
  · unfold force_feasible
    rw [sol2routes_depotEnds sol hs, h1, List.nil_append, routes2sol, if_neg]
    · have := routes2sol_fold_wrap pss.flatten []
      simpa [tour] using this
    · intro e
      have : pss.flatten = [] := List.map_eq_nil_iff.1 e
      rw [this] at hfl
      exact hc hfl.symm
  · rw [← blocks_flatten, hb, hfl]
  · intro hS b hb'
    rw [hb] at hb'
    exact (hp b hb').2 hS
  · exact h2.imp fun b ps h => ⟨h.1, h.2.ne, h.2.needed⟩

/-- C32. With the triangle inequality and no negative demands, a solution that respects the limits is
not changed by forcing, except that empty routes are removed. -/
theorem C32_force_keeps {sol : List ℕ} (hs : DepotEnds sol) (hc : customers sol ≠ []) {D : ℕ → ℕ → ℚ}
    (hT : Triangle D) {d : ℕ → ℚ} (hd : ∀ n, 0 ≤ d n) {C L : Option ℚ} (hf : Feasible D d C L sol) :
    force_feasible sol D d C L = some (squeeze sol) := by
  obtain ⟨sol', h1, h2, h3, -, -, pss, h6, h7⟩ := C32_force hs hc D d C L
  have : pss.flatten = blocks sol := by
    have hne := fun b hb => (mem_blocks sol b hb).1
    have hf' : ∀ b ∈ blocks sol, RouteOk D d C L b := hf
    clear h6 hf
    generalize blocks sol = B at h7 hne hf' ⊢
    induction h7 with
    | nil => rfl
    | @cons b ps bs pss h _ ih =>
      rw [List.flatten_cons, ih (fun b hb => hne b (by simp [hb])) (fun b hb => hf' b (by simp [hb]))]
      have hb := hne b (by simp)
      obtain ⟨e, hpne, hch⟩ := h
      rcases ps with _ | ⟨p, _ | ⟨q, t⟩⟩
      · exact absurd e.symm hb
      · simp at e; simp [e]
      · exfalso
        rw [List.isChain_cons_cons] at hch
        have hok := hf' b (by simp)
        -- the first element after the first part
        cases q with
        | nil => exact hpne [] (by simp) rfl
        | cons n q =>
          refine hch.1 n rfl ?_
          have eb : b = p ++ n :: (q ++ t.flatten) := by rw [← e]; simp
          constructor
          · intro x hx h0
            have := hok.1 x hx h0
            rw [eb] at this
            have h5 := demand_nonneg hd (q ++ t.flatten)
            simp only [demand_append, demand_cons, demand_nil] at this h5 ⊢
            linarith
          · intro x hx h0
            have := hok.2 x hx h0
            rw [eb] at this
            have e1 : wrap (p ++ n :: (q ++ t.flatten)) = (0 :: p) ++ n :: ((q ++ t.flatten) ++ [0]) := by
              simp [wrap]
            have e2 : wrap (p ++ [n]) = (0 :: p) ++ n :: [0] := by simp [wrap]
            rw [e1, cost_append_cons] at this
            rw [e2, cost_append_cons]
            have := path_ge hT n 0 (q ++ t.flatten)
            simp only [cost_cons_cons, cost_single]
            linarith
  rw [h1, ← h3, squeeze_depotEnds h2, squeeze_depotEnds hs, h6, this]

/-! ## Cases -/

/-- Distances on a line: node `n` is at position `n`. -/
def exLr (i j : ℕ) : ℚ := |(i : ℚ) - j|

/-- A giant tour over four customers of demand 1 with capacity 2 is cut to two routes; the checker
rejects the first and accepts the second. -/
example : force_feasible [0, 3, 1, 4, 2, 0] exLr (fun n => if n = 0 then 0 else 1) (some 2) none =
      some [0, 3, 1, 0, 4, 2, 0] ∧
    check_CL_constraints [0, 3, 1, 4, 2, 0] exLr (fun n => if n = 0 then 0 else 1) (some 2) none =
      false ∧
    check_CL_constraints [0, 3, 1, 0, 4, 2, 0] exLr (fun n => if n = 0 then 0 else 1) (some 2)
      (some 8) = true := by decide +kernel

/-- The limit on the route cost is used as well. -/
example : force_feasible [0, 3, 1, 4, 2, 0, 0] exLr (fun _ => 1) none (some 8) =
    some [0, 3, 1, 0, 4, 2, 0] := by decide +kernel

/-- An empty solution gives `None`. -/
example : force_feasible [0, 0] exLr (fun _ => 1) none (some 8) = none := by decide +kernel

example : Triangle exLr ∧ DepotEnds [0, 3, 1, 0, 4, 2, 0] ∧ customers [0, 3, 1, 0, 4, 2, 0] ≠ [] :=
  ⟨fun i j k => abs_sub_le _ _ _, by decide, by decide⟩

end Verif
