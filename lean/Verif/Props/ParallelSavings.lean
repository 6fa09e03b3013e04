import Verif.Lemmas.SequentialSavings

/-!
# Parallel savings (C25) and its interruption (C26)
-/

namespace Verif

open Spec

/-- The callback hands out arcs between customers of the instance. -/
def ValidSavings (N : ℕ) (savings : List Saving) : Prop :=
  ∀ sv ∈ savings, (1 ≤ sv.2.2.1 ∧ sv.2.2.1 < N) ∧ (1 ≤ sv.2.2.2 ∧ sv.2.2.2 < N)

/-- The callback hands out each arc, larger savings first. -/
structure FullSavings (N : ℕ) (D : ℕ → ℕ → ℚ) (savings : List Saving) : Prop where
  all : ∀ i j, 1 ≤ i → i < j → j < N → ∃ sv ∈ savings, sv.2.2.1 = i ∧ sv.2.2.2 = j
  sorted : savings.Pairwise fun a b =>
    D b.2.2.1 0 + D 0 b.2.2.2 - D b.2.2.1 b.2.2.2 ≤ D a.2.2.1 0 + D 0 a.2.2.2 - D a.2.2.1 a.2.2.2

theorem routes_solve {N : ℕ} (hN : 2 ≤ N) {D : ℕ → ℕ → ℚ} {d : ℕ → ℚ} {C L : Option ℚ}
    {routes : Routes} (hn : nodesM routes = allCust N) (hne : ∀ k : ℕ, routes[k]? ≠ some (some []))
    (hf : Serviceable N D d C L → RoutesOk D d C L routes) :
    routesSol routes = some (tour (liveRoutes routes)) ∧ Solves N D d C L (tour (liveRoutes routes)) ∧
      blocks (tour (liveRoutes routes)) = liveRoutes routes := by
  have hb : ∀ rt ∈ liveRoutes routes, rt ≠ [] ∧ ∀ x ∈ rt, x ≠ 0 := by
    intro rt hrt
    obtain ⟨k, hk⟩ := mem_liveRoutes.1 hrt
    refine ⟨by rintro rfl; exact hne k hk, fun x hx => ?_⟩
    have := mem_nodesM.2 ⟨k, rt, hk, hx⟩
    rw [hn, mem_allCust] at this
    omega
  have hr : routes ≠ [] := by
    rintro rfl
    have : (1 : ℕ) ∈ allCust N := mem_allCust.2 ⟨le_refl _, by omega⟩
    rw [← hn] at this
    simp [nodesM] at this
  have hbl := blocks_tour_of_routes (liveRoutes routes) hb
  refine ⟨routesSol_eq hr hb, ⟨depotEnds_tour _, ?_, squeeze_tour hb, ?_⟩, hbl⟩
  · unfold Covers
    rw [← blocks_flatten, hbl, ← Multiset.coe_eq_coe, ← live_flatten, hn]
    rfl
  · intro hv b hb
    rw [hbl] at hb
    obtain ⟨k, hk⟩ := mem_liveRoutes.1 hb
    exact hf hv k b hk

/-- C25. Whatever arcs the callback hands out, in any order, the procedure returns a solution of the
instance: each customer exactly once, within C and L if each customer alone is. Unless it minimizes the
number of routes, the solution is not costlier than serving each customer separately. -/
theorem C25_solves {N : ℕ} (hN : 2 ≤ N) {D : ℕ → ℕ → ℚ} (hD : Symm D) (d : ℕ → ℚ) (C L : Option ℚ)
    (minimize_K : Bool) {savings : List Saving} (hsv : ValidSavings N savings) :
    ∃ sol seen, parallel_savings_init N D d C L minimize_K savings = .ok (some sol, seen) ∧
      Solves N D d C L sol ∧ (minimize_K = false → cost D sol ≤ cost D (trivialSol N)) := by
  obtain ⟨s, br, h1, h2, h3, -⟩ := psLoop_spec hD minimize_K savings hsv (psInit_inv N (by omega) D d C L)
  obtain ⟨k1, k2, k3⟩ := routes_solve hN h2.nodes h2.ne h2.feas
  refine ⟨_, _, by simp only [parallel_savings_init, h1, k1]; rfl, k2, fun hm => ?_⟩
  have h3 := h3 hm
  rw [cost_tour_sum, ← live_cost]
  refine le_trans h3 (le_of_eq ?_)
  rw [live_cost, trivialSol, cost_tour_sum]
  congr 2
  simp only [psInit, liveRoutes, pyRange]
  induction List.range' 1 (N - 1) with
  | nil => rfl
  | cons a t ih => simp

/-- If no merge over an arc is possible any more, no two routes can be joined. -/
theorem cannotJoin_of_blocked {N : ℕ} {D : ℕ → ℕ → ℚ} (hD : Symm D) {d : ℕ → ℚ} {C L : Option ℚ} {mk : Bool}
    {s : PSState} (h2 : PSInv N D d C L s)
    (hb : ∀ i j, 1 ≤ i → i < j → j < N → Blocked D d C L i j s.routes ∨ (mk = false ∧ cw D i j < 0))
    {b c : List ℕ} (hb' : b ∈ liveRoutes s.routes) (hc' : c ∈ liveRoutes s.routes) (hbc : b ≠ c) :
    CannotJoin D d C L mk b c := by
  intro b' c' tb tc hok
  obtain ⟨k, hk⟩ := mem_liveRoutes.1 hb'
  obtain ⟨m, hm⟩ := mem_liveRoutes.1 hc'
  have hkm : k ≠ m := by rintro rfl; rw [hk] at hm; simp at hm; exact hbc hm
  have nb : b' ≠ [] := by
    have : b ≠ [] := by rintro rfl; exact h2.ne k hk
    rcases tb with rfl | rfl <;> simpa
  have nc : c' ≠ [] := by
    have : c ≠ [] := by rintro rfl; exact h2.ne m hm
    rcases tc with rfl | rfl <;> simpa
  obtain ⟨i, hi⟩ : ∃ i, b'.getLast? = some i := ⟨_, List.getLast?_eq_some_getLast nb⟩
  obtain ⟨j, hj⟩ : ∃ j, c'.head? = some j := ⟨_, List.head?_eq_some_head nc⟩
  have ei : IsEnd i b := (isEnd_turn tb).1 (Or.inr hi)
  have ej : IsEnd j c := (isEnd_turn tc).1 (Or.inl hj)
  have mi : i ∈ allCust N := by rw [← h2.nodes]; exact mem_nodesM.2 ⟨k, b, hk, isEnd_mem ei⟩
  have mj : j ∈ allCust N := by rw [← h2.nodes]; exact mem_nodesM.2 ⟨m, c, hm, isEnd_mem ej⟩
  rw [mem_allCust] at mi mj
  have nd : (nodesM s.routes).Nodup := by rw [h2.nodes]; exact allCust_nodup N
  have hij : i ≠ j := by
    rintro rfl
    exact hkm (nodesM_unique nd hk hm (isEnd_mem ei) (isEnd_mem ej))
  have hc1 : cost D (wrap (b' ++ c')) = cost D (wrap b) + cost D (wrap c) - cw D i j := by
    rw [cost_wrap_merge D hi hj, cost_wrap_turn hD tb, cost_wrap_turn hD tc]; unfold cw; ring
  have hd1 : demand d (b' ++ c') = demand d b + demand d c := by
    rw [demand_append', demand_turn d tb, demand_turn d tc]
  -- the pair is blocked in one of the two orders
  have nblk : ¬ Blocked D d C L i j s.routes := by
    intro hB
    refine hB k m b c hkm hk hm ei ej ⟨by rw [← hd1]; exact hok.1, ?_⟩
    have := hok.2
    rw [hc1] at this
    intro x hx h0
    have := this x hx h0
    unfold cw at this
    rw [hD i 0] at this
    linarith
  have nblk' : ¬ Blocked D d C L j i s.routes := by
    intro hB
    refine hB m k c b hkm.symm hm hk ej ei ⟨by rw [add_comm, ← hd1]; exact hok.1, ?_⟩
    have := hok.2
    rw [hc1] at this
    intro x hx h0
    have := this x hx h0
    unfold cw at this
    rw [hD i 0] at this
    rw [hD j i]
    linarith
  have hcw : cw D j i = cw D i j := by unfold cw; rw [hD j 0, hD j i, hD i 0]; ring
  have fin : mk = false ∧ cw D i j < 0 := by
    rcases Nat.lt_or_gt_of_ne hij with hlt | hlt
    · exact (hb i j mi.1 hlt mj.2).resolve_left nblk
    · rw [← hcw]
      exact (hb j i mj.1 hlt mi.2).resolve_left nblk'
  refine ⟨fin.1, ?_⟩
  rw [hc1]
  linarith [fin.2]

/-- C25. With the triangle inequality and when all the arcs are handed out, larger savings first, the
solution is merged as far as possible: no two of its routes can be joined, in any direction, to a route
within the limits without making the solution costlier (or at all, if the number of routes is
minimized). -/
theorem C25_maximal {N : ℕ} (hN : 2 ≤ N) {D : ℕ → ℕ → ℚ} (hD : Symm D) (hT : Triangle D) {d : ℕ → ℚ}
    (hd : ∀ n, 0 ≤ d n) (C L : Option ℚ) (minimize_K : Bool) {savings : List Saving}
    (hsv : ValidSavings N savings) (hall : FullSavings N D savings) :
    ∃ sol seen, parallel_savings_init N D d C L minimize_K savings = .ok (some sol, seen) ∧
      Solves N D d C L sol ∧
      ∀ b ∈ blocks sol, ∀ c ∈ blocks sol, b ≠ c → CannotJoin D d C L minimize_K b c := by
  obtain ⟨s, br, h1, h2, -, h4⟩ := psLoop_spec hD minimize_K savings hsv (psInit_inv N (by omega) D d C L)
  obtain ⟨-, h5, h6⟩ := h4 hT hd
  have h5 := h5 hall.sorted
  obtain ⟨k1, k2, k3⟩ := routes_solve hN h2.nodes h2.ne h2.feas
  refine ⟨_, _, by simp only [parallel_savings_init, h1, k1]; rfl, k2, ?_⟩
  intro b hb c hc hbc
  rw [k3] at hb hc
  refine cannotJoin_of_blocked hD h2 (fun i j hi hij hj => ?_) hb hc hbc
  obtain ⟨sv, hs, rfl, rfl⟩ := hall.all i j hi hij hj
  exact h5 sv hs

/-- With arcs that all have a saving the order of the savings does not matter for when the loop ends. -/
theorem psLoop_nonneg {D : ℕ → ℕ → ℚ} {C L : Option ℚ} (mk : Bool) : ∀ (savings : List Saving) (s : PSState),
    (∀ sv ∈ savings, 0 ≤ cw D sv.2.2.1 sv.2.2.2) →
    forBreak savings s (psStep D C L mk) = forBreak savings s (psStep D C L true)
  | [], _, _ => rfl
  | sv :: t, s, h => by
    have e : psStep D C L mk sv s = psStep D C L true sv s := by
      have h0 := h sv (by simp)
      unfold psStep
      simp only
      rw [if_neg (fun hc => absurd hc.2 (not_lt.2 h0)), if_neg (fun hc => absurd hc.1 (by simp))]
    have ih := fun s' => psLoop_nonneg (C := C) (L := L) mk t s' fun x hx => h x (by simp [hx])
    simp only [forBreak, e, ih]

/-- C25. With the triangle inequality, if all the arcs are handed out, in any order, no two routes of the
solution can be joined, in any direction, to a route within the limits. -/
theorem C25_any_order {N : ℕ} (hN : 2 ≤ N) {D : ℕ → ℕ → ℚ} (hD : Symm D) (hT : Triangle D) {d : ℕ → ℚ}
    (hd : ∀ n, 0 ≤ d n) (C L : Option ℚ) (minimize_K : Bool) {savings : List Saving}
    (hsv : ValidSavings N savings)
    (hall : ∀ i j, 1 ≤ i → i < j → j < N → ∃ sv ∈ savings, sv.2.2.1 = i ∧ sv.2.2.2 = j) :
    ∃ sol seen, parallel_savings_init N D d C L minimize_K savings = .ok (some sol, seen) ∧
      Solves N D d C L sol ∧
      ∀ b ∈ blocks sol, ∀ c ∈ blocks sol, b ≠ c → ∀ b' c', Turned b b' → Turned c c' →
        ¬ RouteOk D d C L (b' ++ c') := by
  obtain ⟨s, br, h1, h2, -, h4⟩ := psLoop_spec hD true savings hsv (psInit_inv N (by omega) D d C L)
  obtain ⟨-, -, h6⟩ := h4 hT hd
  obtain ⟨k1, k2, k3⟩ := routes_solve hN h2.nodes h2.ne h2.feas
  have h1' := h1
  rw [← psLoop_nonneg minimize_K savings _ (fun sv _ => by
    have := hT sv.2.2.1 0 sv.2.2.2
    unfold cw
    linarith)] at h1'
  refine ⟨_, _, by simp only [parallel_savings_init, h1', k1]; rfl, k2, ?_⟩
  intro b hb c hc hbc b' c' tb tc hok
  rw [k3] at hb hc
  have := cannotJoin_of_blocked (mk := true) hD h2 (fun i j hi hij hj => by
    obtain ⟨sv, hs, rfl, rfl⟩ := hall i j hi hij hj
    exact Or.inl (h6 rfl sv hs)) hb hc hbc b' c' tb tc hok
  exact absurd this.1 (by simp)

theorem mem_clarke_wright {N : ℕ} {D : ℕ → ℕ → ℚ} {sv : Saving} :
    sv ∈ clarke_wright_savings_function N D ↔ ∃ i j, 1 ≤ i ∧ i < j ∧ j < N ∧
      sv = (D i 0 + D 0 j - D i j, -D i j, i, j) := by
  unfold clarke_wright_savings_function
  rw [mem_pySort, List.mem_flatMap]
  simp only [List.mem_map, mem_pyRange]
  constructor
  · rintro ⟨i, hi, j, hj, rfl⟩
    exact ⟨i, j, hi.1, by omega, hj.2, rfl⟩
  · rintro ⟨i, j, h1, h2, h3, rfl⟩
    exact ⟨i, ⟨h1, by omega⟩, j, ⟨by omega, h3⟩, rfl⟩

/-- C25. The Clarke and Wright callback hands out all the arcs, larger savings first, so both of the
theorems apply to it. -/
theorem C25_clarke_wright (N : ℕ) (D : ℕ → ℕ → ℚ) :
    ValidSavings N (clarke_wright_savings_function N D) ∧
    FullSavings N D (clarke_wright_savings_function N D) := by
  refine ⟨?_, ?_, ?_⟩
  · intro sv hsv
    obtain ⟨i, j, h1, h2, h3, rfl⟩ := mem_clarke_wright.1 hsv
    exact ⟨⟨h1, lt_trans h2 h3⟩, ⟨le_of_lt (lt_of_le_of_lt h1 h2), h3⟩⟩
  · intro i j h1 h2 h3
    exact ⟨_, mem_clarke_wright.2 ⟨i, j, h1, h2, h3, rfl⟩, rfl, rfl⟩
  · have hp : (clarke_wright_savings_function N D).Pairwise (fun a b => savingLe b a = true) :=
      pySort_pairwise (fun a b c h1 h2 => savingLe_trans c b a h2 h1)
        (fun a b => savingLe_total b a) _
    refine List.Pairwise.imp_of_mem ?_ hp
    intro a b ha hb hab
    obtain ⟨i, j, h1, h2, h3, rfl⟩ := mem_clarke_wright.1 ha
    obtain ⟨i', j', h1', h2', h3', rfl⟩ := mem_clarke_wright.1 hb
    simp only [savingLe, Bool.or_eq_true, Bool.and_eq_true, decide_eq_true_eq] at hab
    simp only
    rcases hab with h | h
    · exact le_of_lt h
    · exact le_of_eq h.1

/-! ## C26 -/

/-- C26. An interrupt that arrives anywhere but between lines 172 and 173 hands out a solution of the
instance. This is what is true of the full claim, see `C26_parallel_false`. -/
theorem C26_parallel_partial {N : ℕ} (hN : 2 ≤ N) {D : ℕ → ℕ → ℚ} (hD : Symm D) (d : ℕ → ℚ)
    (C L : Option ℚ) (minimize_K : Bool) {savings : List Saving} (hsv : ValidSavings N savings) :
    ∃ sol seen, parallel_savings_init N D d C L minimize_K savings = .ok (some sol, seen) ∧
      ∀ x ∈ seen, x.1 ≠ 172 → ∃ isol, x.2 = some isol ∧ Solves N D d C L isol := by
  obtain ⟨s, br, h1, h2, -, -⟩ := psLoop_spec hD minimize_K savings hsv (psInit_inv N (by omega) D d C L)
  obtain ⟨k1, k2, k3⟩ := routes_solve hN h2.nodes h2.ne h2.feas
  refine ⟨_, _, by simp only [parallel_savings_init, h1, k1]; rfl, ?_⟩
  intro x hx hne
  obtain ⟨y, hy, rfl⟩ := List.mem_map.1 hx
  obtain ⟨g1, g2⟩ := h2.seenOk y hy hne
  obtain ⟨k1, k2, -⟩ := routes_solve hN g1 (fun k hk => (h2.seenAll y hy k _ hk).1 rfl) g2
  exact ⟨_, k1, k2⟩

/-- C26. An interrupt between lines 172 and 173 hands out a solution that serves some customer twice,
whatever the instance. -/
theorem C26_parallel_window {N : ℕ} (hN : 2 ≤ N) {D : ℕ → ℕ → ℚ} (hD : Symm D) (d : ℕ → ℚ)
    (C L : Option ℚ) (minimize_K : Bool) {savings : List Saving} (hsv : ValidSavings N savings) :
    ∃ sol seen, parallel_savings_init N D d C L minimize_K savings = .ok (some sol, seen) ∧
      ∀ x ∈ seen, x.1 = 172 → ∃ isol, x.2 = some isol ∧ ¬ (customers isol).Nodup := by
  obtain ⟨s, br, h1, h2, -, -⟩ := psLoop_spec hD minimize_K savings hsv (psInit_inv N (by omega) D d C L)
  obtain ⟨k1, k2, k3⟩ := routes_solve hN h2.nodes h2.ne h2.feas
  refine ⟨_, _, by simp only [parallel_savings_init, h1, k1]; rfl, ?_⟩
  intro x hx he
  obtain ⟨y, hy, rfl⟩ := List.mem_map.1 hx
  have hall := h2.seenAll y hy
  have hb : ∀ rt ∈ liveRoutes y.2, rt ≠ [] ∧ ∀ x ∈ rt, x ≠ 0 := by
    intro rt hrt
    obtain ⟨k, hk⟩ := mem_liveRoutes.1 hrt
    refine ⟨(hall k rt hk).1, fun x hx => ?_⟩
    have := (hall k rt hk).2 x hx
    rw [mem_allCust] at this
    omega
  have hbad := h2.seenBad y hy he
  refine ⟨_, routesSol_eq ?_ hb, ?_⟩
  · intro e
    rw [e] at hbad
    simp [nodesM] at hbad
  · rw [← blocks_flatten, blocks_tour_of_routes _ hb, ← Multiset.coe_nodup, ← live_flatten]
    exact hbad

/-- Distances between three points: the depot between two customers, both at distance 2, and 1 from
each other. -/
def exTri (i j : ℕ) : ℚ := if i = j then 0 else if i = 0 ∨ j = 0 then 2 else 1

theorem exTri_symm : Symm exTri := by
  intro i j
  unfold exTri
  by_cases h : i = j
  · rw [if_pos h, if_pos h.symm]
  · rw [if_neg h, if_neg (Ne.symm h)]
    simp only [or_comm]

/-- C26. The full claim is false: interrupted between lines 172 and 173, the procedure hands out a
solution that serves customer 2 twice. -/
theorem C26_parallel_false :
    ∃ sol seen, parallel_savings_init 3 exTri (fun _ => 1) none none false
      (clarke_wright_savings_function 3 exTri) = .ok (some sol, seen) ∧
      (172, some [0, 1, 2, 0, 2, 0]) ∈ seen ∧ ¬ Covers 3 [0, 1, 2, 0, 2, 0] := by
  refine ⟨[0, 1, 2, 0], [(94, some [0, 1, 0, 2, 0]), (158, some [0, 1, 0, 2, 0]),
    (160, some [0, 1, 0, 2, 0]), (172, some [0, 1, 2, 0, 2, 0]), (173, some [0, 1, 2, 0])],
    by decide +kernel, by decide, ?_⟩
  intro h
  have := h.length_eq
  simp [customers] at this

/-! ## Cases -/

/-- Hypotheses of the theorems are met by a real instance, and limits do matter: with capacity 2 the
three customers go to two routes. -/
example : ValidSavings 4 (clarke_wright_savings_function 4 exTri) ∧
    FullSavings 4 exTri (clarke_wright_savings_function 4 exTri) := C25_clarke_wright 4 exTri

example : Triangle exTri := by
  intro i j k
  unfold exTri
  split_ifs <;> first | (exfalso; omega) | norm_num

example : (parallel_savings_init 4 exTri (fun n => if n = 0 then 0 else 1) (some 2) (some 100) false
    (clarke_wright_savings_function 4 exTri)).map (·.1) = .ok (some [0, 1, 0, 2, 3, 0]) := by
  decide +kernel
example : (parallel_savings_init 4 exTri (fun n => if n = 0 then 0 else 1) (some 3) none true
    (clarke_wright_savings_function 4 exTri)).map (·.1) = .ok (some [0, 1, 3, 2, 0]) := by
  decide +kernel
/-- `N = 1` returns `None`. -/
example : (parallel_savings_init 1 exTri (fun _ => 1) none none false []).map (·.1) = .ok none := by
  decide +kernel

end Verif
