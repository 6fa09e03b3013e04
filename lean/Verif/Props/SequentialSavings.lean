import Verif.Props.ParallelSavings

/-!
# Sequential savings (C27) and its interruption (C26)
-/

namespace Verif

open Spec

/-- The seed rule offers each customer. -/
def OffersAll (N : ℕ) (D : ℕ → ℕ → ℚ) (mode : SeedMode) : Prop :=
  ∃ seeds, seedCustomers N D mode = .ok seeds ∧ ∀ n, 1 ≤ n → n < N → n ∈ seeds

theorem ss_run {N : ℕ} {D : ℕ → ℕ → ℚ} (hD : Symm D) (d : ℕ → ℚ) (C L : Option ℚ)
    (minimize_K : Bool) {mode : SeedMode} (hm : OffersAll N D mode) (cb : List ℕ → ℕ → List Saving)
    {M : Prop} (hM : M → Triangle D ∧ (∀ n, 0 ≤ d n) ∧ GoodCb D cb) :
    ∃ (F : ℕ) (bs : List (List ℕ)) (s : SSState), (∀ fuel, F ≤ fuel →
        sequential_savings_init fuel N D d C L minimize_K mode cb =
          .ok (some (tour bs, s.seen.map fun x => (x.1, ssInterrupted x.2)))) ∧
      Solves N D d C L (tour bs) ∧ blocks (tour bs) = bs ∧
      (minimize_K = false → cost D (tour bs) ≤ cost D (trivialSol N)) ∧
      (∀ x ∈ s.seen, SeenOk N D d C L x) ∧ (M → Grown D d C L minimize_K bs) ∧ ∀ b ∈ bs, b ≠ [] := by
  obtain ⟨seeds, h1, h2⟩ := hm
  have hrange : ∀ x ∈ List.range' 1 (N - 1), 1 ≤ x ∧ x < N := by
    intro x hx
    rw [List.mem_range'_1] at hx
    omega
  have hinit : SSInv0 N D d C L []
      { solution := [0], emerging := none, unrouted := pyRange 1 N, savings := [], route_d := 0,
        route_l := 0, seeds := seeds, seen := [(113, [0], none, pyRange 1 N)] } := by
    refine ⟨rfl, rfl, rfl, by simp, by simp [pyRange], by simp, ?_, ?_⟩
    · intro x hx
      simp only [List.mem_singleton] at hx
      subst hx
      have hv := viewOk (N := N) (D := D) (d := d) (C := C) (L := L) (bs := []) (em := [])
        (un := pyRange 1 N) (by simp [pyRange]) (fun _ => ⟨by simp, by simp⟩)
      refine ⟨_, ?_, hv.1, fun _ => hv.2, fun h => absurd h (by simp [ssBadLines])⟩
      exact interrupted_none (bs := []) fun x hx => by
        have := hrange x hx
        omega
    · intro n hn
      exact h2 n (hrange n hn).1 (hrange n hn).2
  obtain ⟨F, s, bs, g1, g2, g3, g4, g5⟩ := ssOuter_spec hD minimize_K cb hM _ [] _ (le_refl _) hinit
    (fun _ => ⟨List.Pairwise.nil, by simp⟩)
  have hb : ∀ b ∈ bs, b ≠ [] ∧ ∀ x ∈ b, x ≠ 0 := fun b hb => ⟨g2.bne b hb, fun x hx =>
    perm_range_ne g2.nodes x (List.mem_append_left _ (List.mem_flatten.2 ⟨b, hb, hx⟩))⟩
  have hbl := blocks_tour_of_routes bs hb
  refine ⟨F, bs, s, ?_, ⟨depotEnds_tour _, ?_, squeeze_tour hb, ?_⟩, hbl, ?_, g2.seenOk, g5, g2.bne⟩
  · intro fuel hf
    simp only [sequential_savings_init, h1, g1 fuel fuel hf hf, g2.sol]
  · unfold Covers
    rw [← blocks_flatten, hbl]
    simpa [g3] using g2.nodes
  · intro hv b hb
    rw [hbl] at hb
    exact g2.feas hv b hb
  · intro hm
    have := g4 hm
    rw [trivialSol, cost_tour_sum, cost_tour_sum]
    simpa [costU, costU', pyRange, Function.comp_def] using this

/-- C27. Whatever savings the callback hands out and whatever the seed rule, as long as it offers each
customer, the procedure ends and returns a solution of the instance: each customer exactly once, within
C and L if each customer alone is. Unless it minimizes the number of routes, the solution is not
costlier than serving each customer separately. -/
theorem C27_solves {N : ℕ} {D : ℕ → ℕ → ℚ} (hD : Symm D) (d : ℕ → ℚ) (C L : Option ℚ)
    (minimize_K : Bool) {mode : SeedMode} (hm : OffersAll N D mode) (cb : List ℕ → ℕ → List Saving) :
    ∃ F sol seen, (∀ fuel, F ≤ fuel →
        sequential_savings_init fuel N D d C L minimize_K mode cb = .ok (some (sol, seen))) ∧
      Solves N D d C L sol ∧ (minimize_K = false → cost D sol ≤ cost D (trivialSol N)) := by
  obtain ⟨F, bs, s, h1, h2, -, h4, -⟩ := ss_run hD d C L minimize_K hm cb (M := False) False.elim
  exact ⟨F, _, _, h1, h2, h4⟩

/-- C27. The built-in seed rules offer each customer; the "savings" rule needs two customers. -/
theorem C27_seeds (N : ℕ) (D : ℕ → ℕ → ℚ) :
    OffersAll N D .farthest ∧ OffersAll N D .closest ∧ OffersAll N D .first ∧ OffersAll N D .last ∧
    (3 ≤ N → OffersAll N D .savings) ∧
    (N = 2 → seedCustomers N D .savings = .error .valueError) := by
  refine ⟨⟨_, rfl, ?_⟩, ⟨_, rfl, ?_⟩, ⟨_, rfl, ?_⟩, ⟨_, rfl, ?_⟩, ?_, ?_⟩
  · intro n h1 h2
    rw [mem_pySort, mem_pyRange]; exact ⟨h1, h2⟩
  · intro n h1 h2
    rw [mem_pySort, mem_pyRange]; exact ⟨h1, h2⟩
  · intro n h1 h2
    rw [mem_pyRange]; exact ⟨h1, h2⟩
  · intro n h1 h2
    rw [List.mem_reverse, mem_pyRange]; exact ⟨by omega, h2⟩
  · intro hN
    have key : ∀ n, 1 ≤ n → n < N → n ∈ (pySort savingLe ((pyRange 1 N).flatMap
        (clarke_wright_savings D (pyRange 1 N)))).map fun sv => sv.2.2.2 := by
      intro n h1 h2
      obtain ⟨i, hi1, hi2, hi3⟩ : ∃ i, 1 ≤ i ∧ i < N ∧ i ≠ n := by
        by_cases h : n = 1
        · exact ⟨2, by omega, by omega, by omega⟩
        · exact ⟨1, by omega, by omega, by omega⟩
      refine List.mem_map.2 ⟨(D i 0 + D 0 n - D i n, -D i n, i, n), ?_, rfl⟩
      rw [mem_pySort, List.mem_flatMap]
      refine ⟨i, mem_pyRange.2 ⟨hi1, hi2⟩, ?_⟩
      unfold clarke_wright_savings
      rw [mem_pySort, List.mem_map]
      exact ⟨n, List.mem_filter.2 ⟨mem_pyRange.2 ⟨h1, h2⟩, by simpa using hi3⟩, rfl⟩
    refine ⟨_, ?_, key⟩
    unfold seedCustomers
    simp only
    rw [if_neg]
    intro h
    have := key 1 (le_refl _) (by omega)
    rw [h] at this
    simp at this
  · rintro rfl
    have : (pyRange 1 2).flatMap (clarke_wright_savings D (pyRange 1 2)) = [] := by
      simp [pyRange, clarke_wright_savings, pySort]
    simp [seedCustomers, this, pySort]

/-- The Clarke and Wright callback hands out the savings of all the customers, sorted. -/
theorem goodCb_clarke_wright (D : ℕ → ℕ → ℚ) : GoodCb D (clarke_wright_savings D) := by
  refine ⟨?_, ?_, ?_⟩
  · intro un i sv hsv
    unfold clarke_wright_savings at hsv
    rw [mem_pySort, List.mem_map] at hsv
    obtain ⟨j, -, rfl⟩ := hsv
    rfl
  · intro un i
    exact pySort_pairwise savingLe_trans savingLe_total _
  · intro un i j hj hij
    refine ⟨(D i 0 + D 0 j - D i j, -D i j, i, j), ?_, rfl, rfl⟩
    unfold clarke_wright_savings
    rw [mem_pySort, List.mem_map]
    exact ⟨j, List.mem_filter.2 ⟨hj, by simpa using hij.symm⟩, rfl⟩

/-- C27. With the triangle inequality and the Clarke and Wright savings, each route is grown as far as
possible: no customer of a later route can be added to either end of an earlier route within the
limits without making the solution costlier than serving that customer separately (or at all, if the
number of routes is minimized). -/
theorem C27_maximal {N : ℕ} {D : ℕ → ℕ → ℚ} (hD : Symm D) (hT : Triangle D) {d : ℕ → ℚ}
    (hd : ∀ n, 0 ≤ d n) (C L : Option ℚ) (minimize_K : Bool) {mode : SeedMode}
    (hm : OffersAll N D mode) :
    ∃ F sol seen, (∀ fuel, F ≤ fuel → sequential_savings_init fuel N D d C L minimize_K mode
        (clarke_wright_savings D) = .ok (some (sol, seen))) ∧
      Solves N D d C L sol ∧
      (blocks sol).Pairwise fun b b' => ∀ c ∈ b', CannotJoin D d C L minimize_K b [c] := by
  obtain ⟨F, bs, s, h1, h2, h3, -, -, h6, h7⟩ := ss_run hD d C L minimize_K hm (clarke_wright_savings D)
    (M := True) (fun _ => ⟨hT, hd, goodCb_clarke_wright D⟩)
  refine ⟨F, _, _, h1, h2, ?_⟩
  rw [h3]
  refine (h6 trivial).imp_of_mem ?_
  intro b b' hb _ hg c hc x y tx ty hok
  have hy : y = [c] := by rcases ty with rfl | rfl <;> simp
  subst hy
  have hx : x ≠ [] := by
    have := h7 b hb
    rcases tx with rfl | rfl <;> simpa
  obtain ⟨e, he⟩ : ∃ e, x.getLast? = some e := ⟨_, List.getLast?_eq_some_getLast hx⟩
  have hend : IsEnd e b := (isEnd_turn tx).1 (Or.inr he)
  have hcost : cost D (wrap (x ++ [c])) = cost D (wrap b) + (D 0 c + D e c - D 0 e) := by
    rw [attach_cost hD (i := e) (j := c) (rt := x) (Or.inr ⟨he, rfl⟩), cost_wrap_turn hD tx]
  have hdem : demand d (x ++ [c]) = demand d b + d c := by
    rw [demand_append', demand_turn d tx]
    simp [demand]
  have e1 : cost D (wrap [c]) = D 0 c + D c 0 := by simp [wrap, cost]
  rcases hg e c hend hc with h | ⟨h, hneg⟩
  · exact absurd ⟨by rw [← hdem]; exact hok.1, by rw [← hcost]; exact hok.2⟩ h
  · refine ⟨h, ?_⟩
    unfold cw at hneg
    rw [hD e 0] at hneg
    rw [hcost, e1, hD c 0]
    linarith

/-! ## C26 -/

/-- C26. An interrupt that arrives anywhere but after the lines 123, 177, 179 and 198 hands out a
solution that serves each customer exactly once, within C and L if each customer alone is. This is what
is true of the full claim, see `C26_sequential_false`. -/
theorem C26_sequential_partial {N : ℕ} {D : ℕ → ℕ → ℚ} (hD : Symm D) (d : ℕ → ℚ) (C L : Option ℚ)
    (minimize_K : Bool) {mode : SeedMode} (hm : OffersAll N D mode) (cb : List ℕ → ℕ → List Saving) :
    ∃ F sol seen, (∀ fuel, F ≤ fuel →
        sequential_savings_init fuel N D d C L minimize_K mode cb = .ok (some (sol, seen))) ∧
      ∀ x ∈ seen, x.1 ∉ [123, 177, 179, 198] →
        DepotEnds x.2 ∧ Covers N x.2 ∧ (Serviceable N D d C L → Feasible D d C L x.2) := by
  obtain ⟨F, bs, s, h1, -, -, -, h5, -⟩ := ss_run hD d C L minimize_K hm cb (M := False) False.elim
  refine ⟨F, _, _, h1, ?_⟩
  intro x hx hne
  obtain ⟨y, hy, rfl⟩ := List.mem_map.1 hx
  obtain ⟨xs, g1, g2, g3, -⟩ := h5 y hy
  have hv := g3 hne
  simp only [g1]
  refine ⟨depotEnds_tour _, ?_, ?_⟩
  · unfold Covers
    rw [customers_tour]
    have : xs.flatMap customers = xs.flatten := by
      rw [← List.flatMap_id']
      refine List.flatMap_congr fun b hb => ?_
      exact List.filter_eq_self.2 fun a ha => by simpa using g2 b hb a ha
    rw [this]
    exact hv.perm
  · intro hs b hb
    rw [blocks_tour, List.mem_flatMap] at hb
    obtain ⟨c, hc, hb⟩ := hb
    rw [blocks_zerofree c (g2 c hc)] at hb
    by_cases hc0 : c = []
    · simp [hc0] at hb
    · rw [if_neg hc0, List.mem_singleton] at hb
      subst hb
      exact hv.feas hs b hc hc0

/-- C26. An interrupt directly after one of the lines 123, 177, 179 and 198 hands out a solution that
serves some customer twice, whatever the instance. -/
theorem C26_sequential_window {N : ℕ} {D : ℕ → ℕ → ℚ} (hD : Symm D) (d : ℕ → ℚ) (C L : Option ℚ)
    (minimize_K : Bool) {mode : SeedMode} (hm : OffersAll N D mode) (cb : List ℕ → ℕ → List Saving) :
    ∃ F sol seen, (∀ fuel, F ≤ fuel →
        sequential_savings_init fuel N D d C L minimize_K mode cb = .ok (some (sol, seen))) ∧
      ∀ x ∈ seen, x.1 ∈ [123, 177, 179, 198] → ¬ (customers x.2).Nodup := by
  obtain ⟨F, bs, s, h1, -, -, -, h5, -⟩ := ss_run hD d C L minimize_K hm cb (M := False) False.elim
  refine ⟨F, _, _, h1, ?_⟩
  intro x hx hne
  obtain ⟨y, hy, rfl⟩ := List.mem_map.1 hx
  obtain ⟨xs, g1, g2, -, g4⟩ := h5 y hy
  simp only [g1]
  rw [customers_tour]
  have : xs.flatMap customers = xs.flatten := by
    rw [← List.flatMap_id']
    refine List.flatMap_congr fun b hb => ?_
    exact List.filter_eq_self.2 fun a ha => by simpa using g2 b hb a ha
  rw [this]
  exact g4 hne

/-- C26. The full claim is false: interrupted right after the first seed is chosen, the procedure hands
out a solution that serves the seed twice. -/
theorem C26_sequential_false :
    ∃ sol seen, sequential_savings_init 20 3 exTri (fun _ => 1) none none false .farthest
      (clarke_wright_savings exTri) = .ok (some (sol, seen)) ∧
      (123, [0, 2, 0, 1, 0, 2, 0]) ∈ seen ∧ ¬ Covers 3 [0, 2, 0, 1, 0, 2, 0] := by
  refine ⟨[0, 1, 2, 0], [(113, [0, 1, 0, 2, 0]), (123, [0, 2, 0, 1, 0, 2, 0]), (124, [0, 2, 0, 1, 0]),
    (177, [0, 1, 2, 0, 1, 0]), (180, [0, 1, 2, 0]), (197, [0, 1, 2, 0, 0]),
    (198, [0, 1, 2, 0, 1, 2, 0, 0]), (199, [0, 1, 2, 0])], by decide +kernel, by decide, ?_⟩
  intro h
  have := h.length_eq
  simp [customers] at this

/-! ## Cases -/

example : (sequential_savings_init 20 4 exTri (fun n => if n = 0 then 0 else 1) (some 2) (some 100)
    false .closest (clarke_wright_savings exTri)).map (Option.map (·.1)) =
    .ok (some [0, 3, 1, 0, 2, 0]) := by decide +kernel

/-- A callable that does not offer each customer: `IndexError`. -/
example : (sequential_savings_init 20 4 exTri (fun _ => 1) (some 1) none false (.callable [1, 2])
    (clarke_wright_savings exTri)).map (Option.map (·.1)) = .error .indexError := by decide +kernel

/-- The hypotheses of the theorems are met by the instance of the examples. -/
example : Symm exTri ∧ OffersAll 4 exTri .savings :=
  ⟨exTri_symm, (C27_seeds 4 exTri).2.2.2.2.1 (by omega)⟩

end Verif
