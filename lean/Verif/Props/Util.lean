import Verif.Lemmas.Util

/-! # Properties C01-C04: solution encodings and comparison (`util.py`) -/

namespace Verif
open Spec

/-! ## C01: giant tour / route list conversions -/

/-- C01. Converting a giant tour that visits at least one customer to routes and back gives the
tour with repeated depot visits removed. -/
theorem C01_roundtrip (sol : List ℕ) (h : DepotEnds sol) (hc : ∃ n ∈ sol, n ≠ 0) :
    routes2sol (sol2routes sol) = some (squeeze sol) := by
  rw [sol2routes_depotEnds sol h, squeeze_depotEnds h, routes2sol]
  have hne : blocks sol ≠ [] := by
    intro hb; obtain ⟨n, hn, h0⟩ := hc; exact h0 ((blocks_eq_nil_iff sol).1 hb n hn)
  rw [if_neg (by simpa using hne)]
  have := routes2sol_fold_wrap (blocks sol) []
  simp only [tour, List.nil_append] at this
  rw [this]

example : DepotEnds [0, 1, 2, 0, 0, 3, 0] ∧ (∃ n ∈ [0, 1, 2, 0, 0, 3, 0], n ≠ 0) ∧
    routes2sol (sol2routes [0, 1, 2, 0, 0, 3, 0]) = some [0, 1, 2, 0, 3, 0] := by decide

/-- C01. The round trip is the identity on tours without an empty route. -/
theorem C01_roundtrip_id (sol : List ℕ) (h : DepotEnds sol) (hc : ∃ n ∈ sol, n ≠ 0)
    (hadj : sol.IsChain (fun a b => ¬(a = 0 ∧ b = 0))) :
    routes2sol (sol2routes sol) = some sol := by
  rw [C01_roundtrip sol h hc, squeeze_of_no_adjacent hadj]

example : DepotEnds [0, 1, 2, 0, 3, 0] ∧
    List.IsChain (fun a b => ¬(a = 0 ∧ b = 0)) [0, 1, 2, 0, 3, 0] := by
  constructor
  · decide
  · simp

/-- C01. On a tour where no customer is visited twice in a row the round trip is what
`without_empty_routes` returns. -/
theorem C01_roundtrip_without_empty (sol : List ℕ) (h : DepotEnds sol) (hc : ∃ n ∈ sol, n ≠ 0)
    (hadj : sol.IsChain (fun a b => a = b → a = 0)) :
    routes2sol (sol2routes sol) = some (without_empty_routes sol) := by
  rw [C01_roundtrip sol h hc, without_empty_routes_eq_squeeze hadj]

/-- C01. A tour without customers has no routes, and its conversion back is `None`. -/
theorem C01_roundtrip_none (sol : List ℕ) (h : DepotEnds sol) :
    routes2sol (sol2routes sol) = none ↔ ∀ n ∈ sol, n = 0 := by
  rw [sol2routes_depotEnds sol h, routes2sol, ← blocks_eq_nil_iff]
  constructor
  · intro hh; by_contra hne; rw [if_neg (by simpa using hne)] at hh; simp at hh
  · intro hh; simp [hh]

/-- C01. `sol2routes` returns exactly the maximal runs of customers, with the depot at both ends,
in the order of the tour. -/
theorem C01_sol2routes (sol : List ℕ) (h : DepotEnds sol) :
    sol2routes sol = (blocks sol).map wrap ∧
    (sol2routes sol).flatMap customers = customers sol := by
  refine ⟨sol2routes_depotEnds sol h, ?_⟩
  rw [sol2routes_depotEnds sol h, ← blocks_flatten sol]
  have hm := mem_blocks sol
  generalize blocks sol = bs at *
  induction bs with
  | nil => rfl
  | cons b t ih =>
    rw [List.map_cons, List.flatMap_cons, ih (fun c hc => hm c (List.mem_cons_of_mem _ hc))]
    simp [customers_zerofree b (hm b (by simp)).2]

/-- C01. Other direction: any non-empty list of routes, with or without the depots at the ends and
even with depots in the middle, makes a tour with the same runs of customers in the same order. -/
theorem C01_routes2sol (routes : List (List ℕ)) (hne : routes ≠ []) :
    ∃ sol, routes2sol routes = some sol ∧ DepotEnds sol ∧
      sol2routes sol = (routes.flatMap blocks).map wrap ∧
      customers sol = routes.flatMap customers := by
  obtain ⟨h1, h2⟩ := routes2sol_fold routes [0] ⟨rfl, rfl⟩
  refine ⟨routes.foldl routes2sol_step [0], by simp [routes2sol, hne], h2, ?_, ?_⟩
  · rw [sol2routes_depotEnds _ h2, h1]; rfl
  · rw [← blocks_flatten, h1]
    simp only [blocks_zero, blocks_nil, List.nil_append]
    clear h1 h2 hne
    induction routes with
    | nil => rfl
    | cons r t ih => simp [blocks_flatten, ih]

example : routes2sol [[0, 1, 2, 0], [3, 4], [], [0, 5]] = some [0, 1, 2, 0, 3, 4, 0, 5, 0] ∧
    sol2routes [0, 1, 2, 0, 3, 4, 0, 5, 0] = [[0, 1, 2, 0], [0, 3, 4, 0], [0, 5, 0]] := by decide

/-- C01. A list of non-empty routes without depots survives the round trip through a tour. -/
theorem C01_routes_roundtrip (bs : List (List ℕ)) (hne : bs ≠ [])
    (h : ∀ b ∈ bs, b ≠ [] ∧ ∀ x ∈ b, x ≠ 0) :
    ∃ sol, routes2sol (bs.map wrap) = some sol ∧ routes2sol bs = some sol ∧
      sol2routes sol = bs.map wrap := by
  have e1 : routes2sol (bs.map wrap) = some (tour bs) := by
    rw [routes2sol, if_neg (by simpa using hne)]
    have := routes2sol_fold_wrap bs []
    simp only [tour, List.nil_append] at this
    rw [this]
  refine ⟨tour bs, e1, ?_, ?_⟩
  · rw [routes2sol, if_neg hne]
    have key : ∀ (cs as : List (List ℕ)), (∀ b ∈ cs, b ≠ [] ∧ ∀ x ∈ b, x ≠ 0) →
        cs.foldl routes2sol_step (tour as) = tour (as ++ cs) := by
      intro cs
      induction cs with
      | nil => intro as _; simp
      | cons b t ih =>
        intro as hb
        have hb' := hb b (by simp)
        have : routes2sol_step (tour as) b = tour (as ++ [b]) := by
          obtain ⟨x, xs, rfl⟩ := List.exists_cons_of_ne_nil hb'.1
          have hx := hb'.2 x (by simp)
          rw [tour_concat]
          simp only [routes2sol_step, if_neg hx]
          have hlast : (tour as ++ x :: xs).getLast? ≠ some 0 := by
            rw [List.getLast?_append]
            intro hl
            have : (x :: xs).getLast? = some 0 := by
              cases hq : (x :: xs).getLast? with
              | none => simp at hq
              | some v => rw [hq] at hl; simpa using hl
            exact hb'.2 0 (List.mem_of_getLast? this) rfl
          rw [if_pos hlast]
        rw [List.foldl_cons, this, ih _ (fun c hc => hb c (List.mem_cons_of_mem _ hc))]
        simp
    have := key bs [] h
    simp only [tour, List.nil_append] at this
    rw [this]
  · rw [sol2routes_depotEnds _ (depotEnds_tour bs), blocks_tour_of_routes bs h]

example : ∀ b ∈ [[1, 2], [3]], b ≠ [] ∧ ∀ x ∈ b, x ≠ 0 := by decide

/-! ## C02: the cost is the sum of the route costs -/

/-- C02. The objective of a giant tour is the sum of the objectives of its routes. -/
theorem C02_objf_sum (D : ℕ → ℕ → ℚ) (h00 : D 0 0 = 0) (sol : List ℕ) (h : DepotEnds sol) :
    objf sol D = ((sol2routes sol).map (fun r => objf r D)).sum ∧
    objf sol D = cost D sol := by
  refine ⟨?_, objf_eq_cost sol D⟩
  rw [objf_eq_cost, sol2routes_depotEnds sol h, List.map_map]
  simp only [Function.comp_def, objf_eq_cost]
  rcases depotEnds_cases h with rfl | ⟨m, rfl⟩
  · rfl
  · rw [blocks_wrap]; exact cost_wrap_eq_sum h00 m

/-- C02. The objective of a tour built of routes is the sum of the objectives of the routes. -/
theorem C02_routes_sum (D : ℕ → ℕ → ℚ) (bs : List (List ℕ)) (hne : bs ≠ []) :
    ∃ sol, routes2sol (bs.map wrap) = some sol ∧
      objf sol D = ((bs.map wrap).map (fun r => objf r D)).sum := by
  refine ⟨tour bs, ?_, ?_⟩
  · rw [routes2sol, if_neg (by simpa using hne)]
    have := routes2sol_fold_wrap bs []
    simp only [tour, List.nil_append] at this
    rw [this]
  · simp only [objf_eq_cost, List.map_map, Function.comp_def]
    clear hne
    induction bs with
    | nil => rfl
    | cons b t ih =>
      obtain ⟨u, hu⟩ := tour_eq_cons t
      rw [List.map_cons, List.sum_cons, ← ih, tour, hu]
      have : 0 :: (b ++ 0 :: u) = (0 :: b) ++ 0 :: u := rfl
      rw [this, cost_append_cons]; rfl

/-- C02. The order of the routes does not matter for the objective. -/
theorem C02_order (D : ℕ → ℕ → ℚ) (bs cs : List (List ℕ))
    (h : bs.Perm cs) (s t : List ℕ) (hs : routes2sol (bs.map wrap) = some s)
    (ht : routes2sol (cs.map wrap) = some t) : objf s D = objf t D := by
  have hb : bs ≠ [] := by rintro rfl; simp [routes2sol] at hs
  have hc : cs ≠ [] := by rintro rfl; simp [routes2sol] at ht
  obtain ⟨s', hs', e1⟩ := C02_routes_sum D bs hb
  obtain ⟨t', ht', e2⟩ := C02_routes_sum D cs hc
  rw [hs] at hs'; rw [ht] at ht'
  cases hs'; cases ht'
  rw [e1, e2]
  exact ((h.map wrap).map _).sum_eq

/-- C02. With symmetric distances the direction of a route does not matter. -/
theorem C02_direction (D : ℕ → ℕ → ℚ) (hsym : Symm D) (b : List ℕ) :
    objf (wrap b.reverse) D = objf (wrap b) D := by
  rw [objf_eq_cost, objf_eq_cost, ← cost_reverse hsym (wrap b)]
  simp [wrap]

example : DepotEnds [0, 2, 1, 0, 0, 3, 0] ∧
    objf [0, 2, 1, 0, 0, 3, 0] (fun i j => if i = j then 0 else i + j) = 2 + 3 + 1 + 0 + 3 + 3 := by
  decide +kernel

/-- C02. Without `D 0 0 = 0` the statement fails: an empty route costs something. -/
theorem C02_needs_zero_diagonal : ∃ (D : ℕ → ℕ → ℚ) (sol : List ℕ), DepotEnds sol ∧
    objf sol D ≠ ((sol2routes sol).map (fun r => objf r D)).sum :=
  ⟨fun _ _ => 1, [0, 1, 0, 0, 2, 0], by decide, by decide +kernel⟩

/-! ## C03: removing empty routes -/

/-- C03. Removing the empty routes keeps the customers in order, the routes and the cost, leaves no
empty route and is idempotent. -/
theorem C03_without_empty_routes (D : ℕ → ℕ → ℚ) (h00 : D 0 0 = 0) (sol : List ℕ)
    (hadj : sol.IsChain (fun a b => a = b → a = 0)) :
    customers (without_empty_routes sol) = customers sol ∧
    blocks (without_empty_routes sol) = blocks sol ∧
    objf (without_empty_routes sol) D = objf sol D ∧
    (without_empty_routes sol).IsChain (fun a b => ¬(a = 0 ∧ b = 0)) ∧
    without_empty_routes (without_empty_routes sol) = without_empty_routes sol := by
  refine ⟨?_, ?_, ?_, ?_, ?_⟩
  · rw [without_empty_routes_eq_squeeze hadj, customers_squeeze]
  · rw [without_empty_routes_eq_squeeze hadj, blocks_squeeze]
  · rw [without_empty_routes_eq_squeeze hadj, objf_eq_cost, objf_eq_cost, cost_squeeze h00]
  · rw [without_empty_routes_destutter]
    refine (List.isChain_destutter (· ≠ ·) sol).imp ?_
    rintro a b hab ⟨rfl, rfl⟩; exact hab rfl
  · rw [without_empty_routes_destutter (without_empty_routes sol), without_empty_routes_destutter,
      List.destutter_idem]

example : List.IsChain (fun a b => a = b → a = 0) [0, 0, 1, 2, 0, 0, 0, 3, 0, 0] ∧
    without_empty_routes [0, 0, 1, 2, 0, 0, 0, 3, 0, 0] = [0, 1, 2, 0, 3, 0] := by
  constructor
  · simp
  · decide

/-- C03. The result is the same list with depots deleted, for every input whatsoever. -/
theorem C03_sublist (sol : List ℕ) :
    (without_empty_routes sol).Sublist sol ∧ (without_empty_routes sol).IsChain (· ≠ ·) := by
  rw [without_empty_routes_destutter]
  exact ⟨List.destutter_sublist _ _, List.isChain_destutter _ _⟩

/-! ## C04: comparison of solutions -/

/-- The order in which the comparison ranks solutions, smaller is better: the pair of the number of
routes and the cost, lexicographically, or just the cost. -/
def Spec.Better (minimize_K : Bool) (a b : ℚ × ℚ) : Prop :=
  if minimize_K then a.2 < b.2 ∨ (a.2 = b.2 ∧ a.1 < b.1) else a.1 < b.1

/-- C04. The comparison decides the lexicographic order when both are complete. -/
theorem C04_decides (m : Bool) (f K f' K' : ℚ) :
    is_better_sol (some f) (some K) (some f') (some K') m = true ↔ Better m (f', K') (f, K) := by
  cases m <;> simp [is_better_sol, Better]

/-- C04. A missing candidate never wins and a candidate always beats a missing incumbent. -/
theorem C04_missing (m : Bool) (bf bK : Option ℚ) (f K : ℚ) :
    (∀ sf, is_better_sol bf bK sf none m = false) ∧ (∀ sK, is_better_sol bf bK none sK m = false) ∧
    (bf = none ∨ bK = none → is_better_sol bf bK (some f) (some K) m = true) := by
  refine ⟨?_, ?_, ?_⟩
  · intro sf; cases sf <;> rfl
  · intro sK; rfl
  · rintro (rfl | rfl)
    · rfl
    · cases bf <;> rfl

theorem better_irrefl (m : Bool) (a : ℚ × ℚ) : ¬ Better m a a := by
  cases m <;> simp [Better]

theorem better_trans (m : Bool) {a b c : ℚ × ℚ} (h1 : Better m a b) (h2 : Better m b c) :
    Better m a c := by
  cases m
  · simp [Better] at *; exact lt_trans h1 h2
  · simp [Better] at *
    rcases h1 with h1 | ⟨h1, h1'⟩ <;> rcases h2 with h2 | ⟨h2, h2'⟩
    · left; linarith
    · left; linarith
    · left; linarith
    · right; exact ⟨by linarith, by linarith⟩

theorem better_connected (m : Bool) {a b : ℚ × ℚ} (h1 : ¬ Better m a b) (h2 : ¬ Better m b a) :
    if m then a = b else a.1 = b.1 := by
  cases m
  · simp [Better] at *; exact le_antisymm h2 h1
  · simp [Better] at *
    have e : a.2 = b.2 := le_antisymm h2.1 h1.1
    exact Prod.ext (le_antisymm (h2.2 e.symm) (h1.2 e)) e

/-- C04. The comparison is a strict order: irreflexive, transitive and total up to equal rank. -/
theorem C04_strict_order (m : Bool) :
    (∀ f K : ℚ, is_better_sol (some f) (some K) (some f) (some K) m = false) ∧
    (∀ f K f' K' f'' K'' : ℚ, is_better_sol (some f) (some K) (some f') (some K') m = true →
      is_better_sol (some f') (some K') (some f'') (some K'') m = true →
      is_better_sol (some f) (some K) (some f'') (some K'') m = true) ∧
    (∀ f K f' K' : ℚ, is_better_sol (some f) (some K) (some f') (some K') m = true →
      is_better_sol (some f') (some K') (some f) (some K) m = false) ∧
    (∀ f K f' K' : ℚ, is_better_sol (some f) (some K) (some f') (some K') m = false →
      is_better_sol (some f') (some K') (some f) (some K) m = false →
      f = f' ∧ (m = true → K = K')) := by
  refine ⟨?_, ?_, ?_, ?_⟩
  · intro f K
    by_contra h
    exact better_irrefl m _ ((C04_decides m f K f K).1 (by simpa using h))
  · intro f K f' K' f'' K'' h1 h2
    rw [C04_decides] at *
    exact better_trans m h2 h1
  · intro f K f' K' h1
    rw [C04_decides] at h1
    by_contra h
    have h2 := (C04_decides m f' K' f K).1 (by simpa using h)
    exact better_irrefl m _ (better_trans m h1 h2)
  · intro f K f' K' h1 h2
    have h1' : ¬ Better m (f', K') (f, K) := fun h => by rw [← C04_decides] at h; simp [h] at h1
    have h2' : ¬ Better m (f, K) (f', K') := fun h => by rw [← C04_decides] at h; simp [h] at h2
    have := better_connected m h1' h2'
    cases m
    · simp at this; exact ⟨this.symm, by simp⟩
    · simp at this; exact ⟨this.1.symm, fun _ => this.2.symm⟩

/-- The best-of loop that all the wrapper algorithms share (`if is_better_sol(best_f, best_K, sol_f,
sol_K, minimize_K): best_sol, best_f, best_K = sol, sol_f, sol_K`), for example
`verypy/shared_cli.py` 139-146 and `classic_heuristics/gaskell_savings.py`. -/
def bestOf {α : Type} (f K : α → ℚ) (m : Bool) (cands : List α) : Option α :=
  (cands.foldl (fun (st : Option α × Option ℚ × Option ℚ) s =>
    if is_better_sol st.2.1 st.2.2 (some (f s)) (some (K s)) m then (some s, some (f s), some (K s))
    else st) (none, none, none)).1

/-- C04. The best-of loop returns the first of the candidates that no candidate beats. -/
theorem C04_bestOf {α : Type} (f K : α → ℚ) (m : Bool) (cands : List α) (hne : cands ≠ []) :
    ∃ l s r, cands = l ++ s :: r ∧ bestOf f K m cands = some s ∧
      (∀ x ∈ l, Better m (f s, K s) (f x, K x)) ∧
      (∀ x ∈ r, ¬ Better m (f x, K x) (f s, K s)) := by
  have key : ∀ (cs l r : List α) (s : α),
      (∀ x ∈ l, Better m (f s, K s) (f x, K x)) →
      (∀ x ∈ r, ¬ Better m (f x, K x) (f s, K s)) →
      ∃ l' s' r', l ++ s :: r ++ cs = l' ++ s' :: r' ∧
        cs.foldl (fun (st : Option α × Option ℚ × Option ℚ) s =>
          if is_better_sol st.2.1 st.2.2 (some (f s)) (some (K s)) m
          then (some s, some (f s), some (K s)) else st) (some s, some (f s), some (K s)) =
          (some s', some (f s'), some (K s')) ∧
        (∀ x ∈ l', Better m (f s', K s') (f x, K x)) ∧
        (∀ x ∈ r', ¬ Better m (f x, K x) (f s', K s')) := by
    intro cs
    induction cs with
    | nil => intro l r s h1 h2; exact ⟨l, s, r, by simp, rfl, h1, h2⟩
    | cons c cs ih =>
      intro l r s h1 h2
      rw [List.foldl_cons]
      by_cases hb : is_better_sol (some (f s)) (some (K s)) (some (f c)) (some (K c)) m = true
      · simp only [hb, if_true]
        have hb' := (C04_decides m _ _ _ _).1 hb
        obtain ⟨l', s', r', e, h⟩ := ih (l ++ s :: r) [] c (by
          intro x hx
          simp at hx
          rcases hx with hx | rfl | hx
          · exact better_trans m hb' (h1 x hx)
          · exact hb'
          · by_contra hn
            have h2x := h2 x hx
            by_cases hcx : Better m (f x, K x) (f c, K c)
            · exact h2x (better_trans m hcx hb')
            · have := better_connected m hn hcx
              cases m
              · simp at this; simp [Better] at h2x hb'; rw [this] at hb'; linarith
              · simp at this; rw [← this.1, ← this.2] at h2x; exact h2x hb') (by simp)
        exact ⟨l', s', r', by rw [← e]; simp, h⟩
      · simp only [if_neg hb]
        obtain ⟨l', s', r', e, h⟩ := ih l (r ++ [c]) s h1 (by
          intro x hx
          simp at hx
          rcases hx with hx | rfl
          · exact h2 x hx
          · rw [← C04_decides]; exact hb)
        exact ⟨l', s', r', by rw [← e]; simp, h⟩
  cases cands with
  | nil => exact absurd rfl hne
  | cons c cs =>
    obtain ⟨l, s, r, e, h, h1, h2⟩ := key cs [] [] c (by simp) (by simp)
    refine ⟨l, s, r, by simpa using e, ?_, h1, h2⟩
    unfold bestOf
    rw [List.foldl_cons]
    have : is_better_sol none none (some (f c)) (some (K c)) m = true := rfl
    simp only [this, if_true]
    rw [h]

example : bestOf (fun p : ℚ × ℚ => p.1) (fun p => p.2) true [(5, 3), (7, 2), (6, 2), (6, 2), (1, 4)]
    = some (6, 2) := by decide +kernel

end Verif
