import Verif.Lemmas.CvrpOps

/-! # Properties C08-C11: normalization, validation, objective, service time (`cvrp_ops.py`) -/

namespace Verif
open Spec

/-! ## C08 -/

/-- Two lists of routes are the same up to the order of the routes and the direction of each. -/
def Spec.SameRoutes (as bs : List (List ℕ)) : Prop :=
  ∃ cs : List (List ℕ), cs.Perm as ∧ List.Forall₂ (fun c b => c = b ∨ c = b.reverse) cs bs

/-- C08. Normalization always succeeds on a non-empty tour. The result has the same routes up to
order and direction, is a tour without empty routes, has every route oriented with the smaller end
first, has the routes in increasing order and normalizing it again changes nothing. -/
theorem C08_normalize (sol : List ℕ) (hne : sol ≠ []) :
    ∃ n, normalize_solution sol = .ok n ∧ DepotEnds n ∧ SameRoutes (blocks sol) (blocks n) ∧
      n = tour (blocks n) ∧
      (∀ b ∈ blocks n, ∀ x y, b.head? = some x → b.getLast? = some y → x ≤ y) ∧
      (blocks n).Pairwise (· ≤ ·) ∧
      normalize_solution n = .ok n := by
  refine ⟨_, normalize_solution_eq hne, depotEnds_tour _, ?_, ?_, ?_, ?_, ?_⟩
  · rw [blocks_normalized]
    obtain ⟨cs, h1, h2⟩ := exists_perm_of_perm_map (lexSort_perm ((blocks sol).map orientP))
    refine ⟨cs, h1, ?_⟩
    rw [h2]
    clear h1 h2
    induction cs with
    | nil => exact List.Forall₂.nil
    | cons c t ih =>
      refine List.Forall₂.cons ?_ ih
      rcases orientP_cases c with h | h
      · left; exact h.symm
      · right; rw [h, List.reverse_reverse]
  · rw [blocks_normalized]
  · rw [blocks_normalized]
    intro b hb x y hx hy
    have := (lexSort_perm _).mem_iff.1 hb
    simp only [List.mem_map] at this
    obtain ⟨r, hr, rfl⟩ := this
    have h2 := orientP_idem r
    by_contra hlt
    rw [orientP, hx, hy] at h2
    simp only [Option.getD_some] at h2
    rw [if_pos (by omega)] at h2
    have h3 : (orientP r).reverse.head? = (orientP r).head? := by rw [h2]
    rw [List.head?_reverse, hx, hy] at h3
    simp at h3; omega
  · rw [blocks_normalized]
    exact (lexSort_sorted _).imp (fun h => (lexLe_iff _ _).1 h)
  · rw [normalize_solution_eq (tour_ne_nil _), blocks_normalized]
    congr 2
    have : (lexSort ((blocks sol).map orientP)).map orientP = lexSort ((blocks sol).map orientP) := by
      rw [List.map_congr_left (g := id), List.map_id]
      intro r hr
      have := (lexSort_perm _).mem_iff.1 hr
      simp only [List.mem_map] at this
      obtain ⟨r', _, rfl⟩ := this
      simp [orientP_idem]
    rw [this, lexSort_of_sorted (lexSort_sorted _)]

example : normalize_solution [0, 5, 4, 0, 0, 3, 1, 2, 0] = .ok [0, 2, 1, 3, 0, 4, 5, 0] := by decide

/-- C08. The customers and, for symmetric distances, the cost are unchanged. -/
theorem C08_normalize_cost (sol : List ℕ) (h : DepotEnds sol) (D : ℕ → ℕ → ℚ) (h00 : D 0 0 = 0)
    (hD : Symm D) :
    ∃ n, normalize_solution sol = .ok n ∧ (customers n).Perm (customers sol) ∧
      cost D n = cost D sol := by
  have hne : sol ≠ [] := by rintro rfl; simp [DepotEnds] at h
  refine ⟨_, normalize_solution_eq hne, ?_, ?_⟩
  · rw [← blocks_flatten, ← blocks_flatten, blocks_normalized]
    refine (lexSort_perm _).flatten.trans ?_
    generalize blocks sol = bs
    induction bs with
    | nil => exact List.Perm.refl _
    | cons b t ih =>
      simp only [List.map_cons, List.flatten_cons]
      refine List.Perm.append ?_ ih
      rcases orientP_cases b with e | e <;> rw [e]
      exact List.reverse_perm b
  · have key : ∀ s, DepotEnds s → cost D s = ((blocks s).map (fun b => cost D (wrap b))).sum := by
      intro s hs
      rcases depotEnds_cases hs with rfl | ⟨m, rfl⟩
      · rfl
      · rw [blocks_wrap]; exact cost_wrap_eq_sum h00 m
    rw [key _ (depotEnds_tour _), key _ h, blocks_normalized]
    rw [((lexSort_perm _).map _).sum_eq, List.map_map]
    congr 1
    apply List.map_congr_left
    intro b _
    simp only [Function.comp_apply]
    rcases orientP_cases b with e | e <;> rw [e]
    rw [← cost_reverse hD]; simp [wrap]

/-- C08. Normalization is canonical: for a solution that visits no customer twice on a route, the
results are equal exactly when the solutions have the same routes up to order and direction (and
whatever the number of repeated depot visits). -/
theorem C08_canonical (s t : List ℕ) (hs : s ≠ []) (ht : t ≠ [])
    (hnt : ∀ b ∈ blocks t, b.Nodup) :
    normalize_solution s = normalize_solution t ↔ SameRoutes (blocks s) (blocks t) := by
  constructor
  · intro h
    rw [normalize_solution_eq hs, normalize_solution_eq ht] at h
    have h' : lexSort ((blocks s).map orientP) = lexSort ((blocks t).map orientP) := by
      rw [← blocks_normalized s, ← blocks_normalized t]
      simp at h; rw [h]
    have hp : ((blocks t).map orientP).Perm ((blocks s).map orientP) :=
      (lexSort_perm _).symm.trans (h' ▸ lexSort_perm _)
    obtain ⟨cs, h1, h2⟩ := exists_perm_of_perm_map hp
    refine ⟨cs, h1, ?_⟩
    generalize blocks t = bt at h2
    clear h1 hp h h' hnt
    induction cs generalizing bt with
    | nil =>
      have : bt = [] := by simpa using h2
      subst this; exact List.Forall₂.nil
    | cons c cs ih =>
      cases bt with
      | nil => simp at h2
      | cons b bt =>
        simp only [List.map_cons, List.cons.injEq] at h2
        refine List.Forall₂.cons ?_ (ih bt h2.2)
        have e := h2.1
        rcases orientP_cases c with h3 | h3 <;> rcases orientP_cases b with h4 | h4 <;>
          rw [h3, h4] at e
        · left; exact e.symm
        · right; exact e.symm
        · right; rw [← List.reverse_reverse c, ← e]
        · left
          have := congrArg List.reverse e
          simpa using this.symm
  · rintro ⟨cs, h1, h2⟩
    rw [normalize_solution_eq hs, normalize_solution_eq ht]
    congr 2
    have e : cs.map orientP = (blocks t).map orientP := by
      have hn := hnt
      generalize blocks t = bt at h2 hn
      clear h1
      induction h2 with
      | nil => rfl
      | cons h _ ih =>
        simp only [List.map_cons]
        rw [ih (fun b hb => hn b (List.mem_cons_of_mem _ hb))]
        rcases h with rfl | rfl
        · rfl
        · rw [orientP_reverse (hn _ (by simp))]
    rw [← e]
    exact lexSort_eq_of_perm (h1.symm.map _)

example : SameRoutes (blocks [0, 1, 2, 0, 0, 3, 4, 5, 0]) (blocks [0, 5, 4, 3, 0, 1, 2, 0]) := by
  refine ⟨[[3, 4, 5], [1, 2]], ?_, ?_⟩
  · have : blocks [0, 1, 2, 0, 0, 3, 4, 5, 0] = [[1, 2], [3, 4, 5]] := by decide
    rw [this]; exact List.Perm.swap _ _ _
  · have : blocks [0, 5, 4, 3, 0, 1, 2, 0] = [[5, 4, 3], [1, 2]] := by decide
    rw [this]
    exact .cons (Or.inr rfl) (.cons (Or.inl rfl) .nil)

/-- C08. The hypothesis on repeated customers is needed. -/
theorem C08_canonical_needs_nodup : ∃ s t : List ℕ, SameRoutes (blocks s) (blocks t) ∧
    normalize_solution s ≠ normalize_solution t := by
  refine ⟨[0, 1, 2, 3, 1, 0], [0, 1, 3, 2, 1, 0], ?_, by decide⟩
  have e1 : blocks [0, 1, 2, 3, 1, 0] = [[1, 2, 3, 1]] := by decide
  have e2 : blocks [0, 1, 3, 2, 1, 0] = [[1, 3, 2, 1]] := by decide
  rw [e1, e2]
  exact ⟨[[1, 2, 3, 1]], List.Perm.refl _, .cons (Or.inr rfl) .nil⟩

/-- C08. A list of routes, each with at least one customer and with or without the depots, is
normalized to the same tour as its giant tour; a route without customers raises an `IndexError`. -/
theorem C08_routes (bs : List (List ℕ)) (hne : bs ≠ []) (h : ∀ b ∈ bs, ∀ x ∈ b, x ≠ 0) :
    normalize_routes (bs.map wrap) = normalize_routes bs ∧
    ((∀ b ∈ bs, b ≠ []) → normalize_routes bs = normalize_solution (tour bs)) ∧
    ([] ∈ bs → normalize_routes bs = .error .indexError) := by
  have e1 : bs.map list_trim = bs := by
    rw [List.map_congr_left (g := id), List.map_id]
    intro b hb; exact list_trim_zerofree (h b hb)
  have e2 : (bs.map wrap).map list_trim = bs := by
    rw [List.map_map, List.map_congr_left (g := id), List.map_id]
    intro b hb; exact list_trim_wrap (h b hb)
  obtain ⟨b0, bt, rfl⟩ := List.exists_cons_of_ne_nil hne
  refine ⟨?_, ?_, ?_⟩
  · unfold normalize_routes
    rw [e1, e2]; rfl
  · intro hne'
    unfold normalize_routes
    rw [e1, normalize_tail_eq hne']
    rw [normalize_solution_eq (tour_ne_nil _), blocks_tour_of_routes _ (fun b hb => ⟨hne' b hb, h b hb⟩)]
    rfl
  · intro hmem
    unfold normalize_routes
    rw [e1]
    simp only [idx_zero_cons, bind, Except.bind, normalize_tail]
    have : orientAll (b0 :: bt) = .error .indexError := by
      generalize b0 :: bt = rs at hmem
      induction rs with
      | nil => simp at hmem
      | cons r t ih =>
        by_cases hr : r = []
        · subst hr; rfl
        · have ht : [] ∈ t := by
            rcases List.mem_cons.1 hmem with h' | h'
            · exact absurd h'.symm hr
            · exact h'
          simp only [orientAll, orient_eq hr, ih ht, bind, Except.bind]
    rw [this]

/-! ## C09 -/

/-- C09. The validator is exact on every solution that visits the depot, also on one that starts in
the middle of a route (`a` is the part before the first depot visit, it continues the last route):
it never fails, and its three verdicts are true exactly if every customer is visited exactly once,
every route respects the capacity, and every route respects the cost limit. -/
theorem C09_exact (N : ℕ) (D : ℕ → ℕ → ℚ) (h00 : D 0 0 = 0) (d : ℕ → ℚ) (hd0 : d 0 = 0)
    (C L : Option ℚ) (hC : ∀ c, C = some c → 0 ≤ c) (hL : ∀ l, L = some l → 0 ≤ l)
    (a b : List ℕ) (ha : ∀ n ∈ a, n ≠ 0) (hN : ∀ n ∈ a ++ 0 :: b, n < N) :
    ∃ cov cap len, validate_solution_feasibility N (a ++ 0 :: b) D (some d) C L =
        .ok (cov, cap, len) ∧
      (cov = true ↔ Covers N (a ++ 0 :: b)) ∧
      (cap = true ↔ ∀ r ∈ blocks (b ++ a), Within C C_EPS (demand d r)) ∧
      (len = true ↔ ∀ r ∈ blocks (b ++ a), Within L S_EPS (cost D (wrap r))) := by
  have hN0 : 0 < N := hN 0 (by simp)
  obtain ⟨z, hz⟩ : ∃ z, (0 :: b).getLast? = some z := ⟨_, List.getLast?_eq_some_getLast (by simp)⟩
  have hz' : idxNeg (a ++ 0 :: b) 1 = .ok z := by
    obtain ⟨m, hm⟩ : ∃ m, 0 :: b = m ++ [z] := by
      rcases List.eq_nil_or_concat (0 :: b) with h' | ⟨m, x, h'⟩
      · simp at h'
      · rw [h'] at hz; simp at hz; subst hz; exact ⟨m, by simpa using h'⟩
    rw [hm, ← List.append_assoc]
    exact idxNeg_one_concat _ _
  obtain ⟨s1, e1, c1, t1, l1⟩ := validateLoop1_eq N D d C L a b
    (fun n hn => ⟨ha n hn, hN n (by simp [hn])⟩) hN0 [] true 0 0 z
  rw [coverOf_nil] at e1
  obtain ⟨s2, e2, c2, cap2, cap2', len2, len2'⟩ := validateLoop2_eq N D d C L b
    (fun n hn => hN n (by simp [hn])) ([] ++ a ++ [0]) (true && coverFlag [] (a ++ [0])) true true 0 0
    s1.prev_node
  rw [← c1] at e2
  refine ⟨if s2.cov.1.sum ≠ N then false else s2.cov.2,
    if exceeds C C_EPS (s2.c + s1.tail_c) then false else s2.capacity_ok,
    if exceeds L S_EPS (s2.l + s1.tail_l) then false else s2.cost_ok, ?_, ?_, ?_, ?_⟩
  · simp only [validate_solution_feasibility, hz', e1, e2, bind, Except.bind, pure, Except.pure]
  · rw [c2]
    have hsol : [] ++ a ++ [0] ++ b = a ++ 0 :: b := by simp
    rw [hsol, ← covers_iff N (a ++ 0 :: b) (by simp) hN]
    have hf : (true && coverFlag [] (a ++ [0]) && coverFlag ([] ++ a ++ [0]) b) =
        coverFlag [] (a ++ 0 :: b) := by
      have : a ++ 0 :: b = (a ++ [0]) ++ b := by simp
      rw [this, coverFlag_append [] (a ++ [0]) b]; simp
    rw [hf]
    have := coverFlag_iff [] (a ++ 0 :: b) (by simp)
    rw [List.nil_append] at this
    rw [← this]
    by_cases hsum : (coverOf N (a ++ 0 :: b)).sum = N <;> simp [hsum]
  · have spec := capLoop_spec d C hC b a [] ha (by simp) true
    simp only [demand_nil, List.nil_append, true_and] at spec
    cases hC' : truthy C
    · rw [cap2' hC', exceeds_truthy hC']
      simp only [Bool.false_eq_true, if_false, true_iff]
      intro r _
      rw [← exceeds_iff, exceeds_truthy hC']
    · have e := cap2 hC'
      rw [← spec, ← e, t1 hC', hd0]
      simp only [zero_add, add_zero]
      by_cases hx : exceeds C C_EPS (s2.c + demand d a) = true <;> simp [hx]
  · cases hL' : truthy L
    · rw [len2' hL', exceeds_truthy hL']
      simp only [Bool.false_eq_true, if_false, true_iff]
      intro r _
      rw [← exceeds_iff, exceeds_truthy hL']
    · have spec := lenLoop_spec D h00 L hL b a [] ha (by simp) true 0 z rfl (by simpa using hz)
      simp only [cost_single, List.nil_append, true_and] at spec
      have e := len2 hL'
      rw [(l1 hL').2] at e
      rw [← spec, ← e, (l1 hL').1]
      simp only [zero_add]
      by_cases hx : exceeds L S_EPS (s2.l + cost D (z :: (a ++ [0]))) = true <;> simp [hx]

/-- C09 for solutions that start at the depot, in terms of the routes of the solution. -/
theorem C09_exact_tour (N : ℕ) (D : ℕ → ℕ → ℚ) (h00 : D 0 0 = 0) (d : ℕ → ℚ) (hd0 : d 0 = 0)
    (C L : Option ℚ) (hC : ∀ c, C = some c → 0 ≤ c) (hL : ∀ l, L = some l → 0 ≤ l)
    (sol : List ℕ) (hs : sol.head? = some 0) (hN : ∀ n ∈ sol, n < N) :
    ∃ cov cap len, validate_solution_feasibility N sol D (some d) C L = .ok (cov, cap, len) ∧
      (cov = true ↔ Covers N sol) ∧
      (cap = true ↔ ∀ r ∈ blocks sol, Within C C_EPS (demand d r)) ∧
      (len = true ↔ ∀ r ∈ blocks sol, Within L S_EPS (cost D (wrap r))) ∧
      ((cov && cap && len) = true ↔ Covers N sol ∧ Feasible D d C L sol) := by
  obtain ⟨b, rfl⟩ : ∃ b, sol = 0 :: b := by
    cases sol with
    | nil => simp at hs
    | cons x t => simp at hs; subst hs; exact ⟨t, rfl⟩
  obtain ⟨cov, cap, len, e, h1, h2, h3⟩ := C09_exact N D h00 d hd0 C L hC hL [] b (by simp)
    (by simpa using hN)
  simp only [List.nil_append, List.append_nil] at e h1 h2 h3
  refine ⟨cov, cap, len, e, h1, by rw [blocks_zero]; exact h2, by rw [blocks_zero]; exact h3, ?_⟩
  rw [Bool.and_eq_true, Bool.and_eq_true, h1, h2, h3]
  unfold Feasible RouteOk
  rw [blocks_zero]
  constructor
  · rintro ⟨⟨x, y⟩, z⟩; exact ⟨x, fun r hr => ⟨y r hr, z r hr⟩⟩
  · rintro ⟨x, y⟩; exact ⟨⟨x, fun r hr => (y r hr).1⟩, fun r hr => (y r hr).2⟩

example : validate_solution_feasibility 5 [3, 0, 1, 4, 0, 2] (fun i j => if i = j then 0 else i + j)
    (some fun i => i) (some 5) (some 10) = .ok (true, true, true) := by decide +kernel
example : validate_solution_feasibility 5 [0, 3, 2, 0, 1, 4, 0] (fun i j => if i = j then 0 else i + j)
    (some fun i => i) (some 5) (some 9) = .ok (true, true, false) := by decide +kernel

/-- C09. A node outside of the problem is reported as an `IndexError`. -/
theorem C09_out_of_range (N : ℕ) (D : ℕ → ℕ → ℚ) (d : ℕ → ℚ) (C L : Option ℚ)
    (sol : List ℕ) (h : ∃ n ∈ sol, N ≤ n) :
    validate_solution_feasibility N sol D (some d) C L = .error .indexError := by
  have visit_bad : ∀ (cov : List ℕ) (ok : Bool) (n : ℕ), cov.length = N → N ≤ n →
      coverVisit n (cov, ok) = .error .indexError := by
    intro cov ok n h1 h2
    have : idx cov n = .error .indexError := by
      rw [idx, List.getElem?_eq_none (by omega)]
    simp [coverVisit, this, bind, Except.bind]
  have visit_len : ∀ (cov : List ℕ) (ok : Bool) (n : ℕ) (r : List ℕ × Bool), cov.length = N →
      coverVisit n (cov, ok) = .ok r → r.1.length = N := by
    intro cov ok n r h1 h2
    simp only [coverVisit, bind, Except.bind] at h2
    split at h2
    · simp at h2
    · split at h2
      · split at h2 <;> (simp [pure, Except.pure] at h2; subst h2; exact h1)
      · rename_i h3
        simp only [setIdx] at h2
        split at h2
        · simp at h2
        · rename_i h4
          split at h4
          · simp [pure, Except.pure] at h2 h4
            rw [← h2, ← h4]; simpa using h1
          · simp at h4
  have visit_err : ∀ (cov : List ℕ) (ok : Bool) (n : ℕ) (e : PyErr),
      coverVisit n (cov, ok) = .error e → e = .indexError := by
    intro cov ok n e h2
    simp only [coverVisit, bind, Except.bind] at h2
    split at h2
    · rename_i h3
      rw [idx] at h3
      split at h3 <;> simp at h3
      simp at h2; rw [← h2, ← h3]
    · split at h2
      · split at h2 <;> simp [pure, Except.pure] at h2
      · simp only [setIdx] at h2
        split at h2
        · rename_i h4
          split at h4 <;> simp at h4
          simp at h2; rw [← h2, ← h4]
        · simp [pure, Except.pure] at h2
  -- the second loop
  have loop2 : ∀ (b : List ℕ) (s : VState2), s.cov.1.length = N → (∃ n ∈ b, N ≤ n) →
      validateLoop2 D (some d) C L b s = .error .indexError := by
    intro b
    induction b with
    | nil => rintro s _ ⟨n, hn, _⟩; simp at hn
    | cons x t ih =>
      intro s hs hb
      rw [validateLoop2]
      cases hv : coverVisit x s.cov with
      | error e => rw [visit_err _ _ _ _ hv]; rfl
      | ok r =>
        have hr := visit_len _ _ _ _ hs hv
        have ht : ∃ n ∈ t, N ≤ n := by
          obtain ⟨n, hn, hle⟩ := hb
          rcases List.mem_cons.1 hn with rfl | hn
          · rw [visit_bad _ _ _ hs hle] at hv; simp at hv
          · exact ⟨n, hn, hle⟩
        simp only [bind, Except.bind]
        by_cases hC : truthy C = true <;> by_cases h0 : x = 0 <;>
          by_cases hx : exceeds C C_EPS s.c = true <;>
          simp only [hC, h0, hx, demandOf, if_true, if_false, pure, Except.pure, ne_eq,
            not_true_eq_false, not_false_eq_true] <;>
          (refine ih _ ?_ ht; by_cases hL : truthy L = true <;> simp only [hL, if_true, if_false] <;>
            first | exact hr | (split <;> exact hr))
  -- the first loop
  have loop1 : ∀ (a : List ℕ) (s : VState1), s.cov.1.length = N →
      validateLoop1 D (some d) C L a s = .error .indexError ∨
      ∃ s' r, validateLoop1 D (some d) C L a s = .ok (s', r) ∧ s'.cov.1.length = N ∧
        (match r with
          | none => ∀ n ∈ a, n < N
          | some r => (∃ n ∈ a, N ≤ n) → ∃ n ∈ r, N ≤ n) := by
    intro a
    induction a with
    | nil => intro s hs; right; exact ⟨s, none, rfl, hs, by simp⟩
    | cons x t ih =>
      intro s hs
      rw [validateLoop1]
      cases hv : coverVisit x s.cov with
      | error e => left; rw [visit_err _ _ _ _ hv]; rfl
      | ok r =>
        have hr := visit_len _ _ _ _ hs hv
        have hxN : x < N := by
          by_contra hle
          rw [visit_bad _ _ _ hs (by omega)] at hv; simp at hv
        simp only [bind, Except.bind]
        by_cases h0 : x = 0
        · right
          by_cases hC : truthy C = true <;> by_cases hL : truthy L = true <;>
            simp only [hC, hL, h0, demandOf, if_true, if_false, pure, Except.pure] <;>
            refine ⟨_, _, rfl, hr, ?_⟩ <;>
            (rintro ⟨n, hn, hle⟩
             rcases List.mem_cons.1 hn with rfl | hn
             · omega
             · exact ⟨n, hn, hle⟩)
        · have fin : ∀ s'' : VState1, s''.cov = r →
              validateLoop1 D (some d) C L t s'' = .error .indexError ∨
              ∃ s' r, validateLoop1 D (some d) C L t s'' = .ok (s', r) ∧ s'.cov.1.length = N ∧
                (match r with
                  | none => ∀ n ∈ x :: t, n < N
                  | some r => (∃ n ∈ x :: t, N ≤ n) → ∃ n ∈ r, N ≤ n) := by
            intro s'' hs''
            rcases ih s'' (by rw [hs'']; exact hr) with h | ⟨s', r', e1, e2, e3⟩
            · left; exact h
            · right
              refine ⟨s', r', e1, e2, ?_⟩
              cases r' with
              | none =>
                simp only at e3 ⊢
                intro n hn
                rcases List.mem_cons.1 hn with rfl | hn
                · exact hxN
                · exact e3 n hn
              | some r' =>
                simp only at e3 ⊢
                rintro ⟨n, hn, hle⟩
                rcases List.mem_cons.1 hn with rfl | hn
                · omega
                · exact e3 ⟨n, hn, hle⟩
          by_cases hC : truthy C = true <;> by_cases hL : truthy L = true <;>
            simp only [hC, hL, h0, demandOf, if_true, if_false, pure, Except.pure] <;>
            exact fin _ rfl
  obtain ⟨n, hn, hle⟩ := h
  have hz : ∃ z, idxNeg sol 1 = .ok z := by
    rcases List.eq_nil_or_concat sol with rfl | ⟨m, x, rfl⟩
    · simp at hn
    · exact ⟨x, by simpa using idxNeg_one_concat m x⟩
  obtain ⟨z, hz⟩ := hz
  simp only [validate_solution_feasibility, hz, bind, Except.bind]
  rcases loop1 sol ⟨(List.replicate N 0, true), 0, 0, z⟩ (by simp) with h | ⟨s', r, e1, e2, e3⟩
  · rw [h]
  · rw [e1]
    cases r with
    | none => exact absurd (e3 n hn) (by omega)
    | some r =>
      simp only at e3 ⊢
      rw [loop2 r _ e2 (e3 ⟨n, hn, hle⟩)]

/-- C09. A solution that never visits the depot is rejected. -/
theorem C09_no_depot (N : ℕ) (D : ℕ → ℕ → ℚ) (d : ℕ → ℚ) (C L : Option ℚ) (sol : List ℕ)
    (hne : sol ≠ []) (h : ∀ n ∈ sol, n ≠ 0 ∧ n < N) :
    ∃ cap len, validate_solution_feasibility N sol D (some d) C L = .ok (false, cap, len) := by
  obtain ⟨z, hz⟩ : ∃ z, idxNeg sol 1 = .ok z := by
    rcases List.eq_nil_or_concat sol with h' | ⟨m, x, rfl⟩
    · exact absurd h' hne
    · exact ⟨x, by simpa using idxNeg_one_concat m x⟩
  obtain ⟨s1, e1, c1⟩ := validateLoop1_none N D d C L sol h [] true 0 0 z
  rw [coverOf_nil] at e1
  obtain ⟨s2, e2, c2, -⟩ := validateLoop2_eq N D d C L sol
    (fun n hn => (h n hn).2) ([] ++ sol) (true && coverFlag [] sol) true true 0 0 s1.prev_node
  rw [← c1] at e2
  have hf : s2.cov.2 = false := by
    rw [c2]
    obtain ⟨x, t, rfl⟩ := List.exists_cons_of_ne_nil hne
    have := (h x (by simp)).1
    simp [coverFlag, this]
  simp only [validate_solution_feasibility, hz, e1, e2, bind, Except.bind, pure, Except.pure, hf,
    ite_self]
  exact ⟨_, _, rfl⟩

/-! ## C10 -/

/-- The route with the missing depot visits added. -/
def Spec.closeRoute (r : List ℕ) : List ℕ :=
  (if r.head? = some 0 then [] else [0]) ++ r ++ (if r.getLast? = some 0 then [] else [0])

/-- C10. On a giant tour the recalculated objective is the cost of the tour closed to its start. -/
theorem C10_tour (D : ℕ → ℕ → ℚ) (a : ℕ) (t : List ℕ) :
    recalculate_objective (a :: t) D = .ok (cost D (a :: t ++ [a])) := by
  obtain ⟨m, z, hm⟩ : ∃ m z, a :: t = m ++ [z] := by
    rcases List.eq_nil_or_concat (a :: t) with h' | ⟨m, x, h'⟩
    · simp at h'
    · exact ⟨m, x, by simpa using h'⟩
  have hp : pairSum D (a :: t) = cost D (a :: t) := objf_eq_cost (a :: t) D
  have h2 : idxNeg (a :: t) 1 = .ok z := by rw [hm]; exact idxNeg_one_concat m z
  simp only [recalculate_objective, idx_zero_cons, h2, bind, Except.bind, pure, Except.pure, hp]
  congr 1
  rw [hm]
  have : m ++ [z] ++ [a] = m ++ [z, a] := by simp
  rw [this, cost_concat]

/-- C10. On a solution with depot at both ends the recalculated objective is the objective. -/
theorem C10_depot_ends (D : ℕ → ℕ → ℚ) (h00 : D 0 0 = 0) (sol : List ℕ) (h : DepotEnds sol) :
    recalculate_objective sol D = .ok (objf sol D) := by
  obtain ⟨b, rfl⟩ : ∃ b, sol = 0 :: b := by
    have hs := h.1
    cases sol with
    | nil => simp at hs
    | cons x t => simp at hs; subst hs; exact ⟨t, rfl⟩
  rw [C10_tour, objf_eq_cost]
  obtain ⟨m, hm⟩ := getLast_zero_split h.2
  rw [hm]
  have : m ++ [0] ++ [0] = m ++ [0, 0] := by simp
  rw [this, cost_concat, h00]; simp

/-- C10. It does not matter where on the tour the list starts. -/
theorem C10_rotation (D : ℕ → ℕ → ℚ) (a b : List ℕ) (ha : a ≠ []) (hb : b ≠ []) :
    recalculate_objective (a ++ b) D = recalculate_objective (b ++ a) D := by
  obtain ⟨x, s, rfl⟩ := List.exists_cons_of_ne_nil ha
  obtain ⟨y, t, rfl⟩ := List.exists_cons_of_ne_nil hb
  have e1 : x :: s ++ y :: t = x :: (s ++ y :: t) := rfl
  have e2 : y :: t ++ x :: s = y :: (t ++ x :: s) := rfl
  rw [e1, e2, C10_tour, C10_tour]
  have e3 : x :: (s ++ y :: t) ++ [x] = (x :: s) ++ y :: (t ++ [x]) := by simp
  have e4 : y :: (t ++ x :: s) ++ [y] = (y :: t) ++ x :: (s ++ [y]) := by simp
  rw [e3, e4, cost_append_cons, cost_append_cons D (y :: t)]
  congr 1
  simp only [List.cons_append]; ring

/-- C10. On a list of (non-empty) routes the result is the sum of the costs of the routes with the
missing depot visits added, and an empty route raises. -/
theorem C10_routes (D : ℕ → ℕ → ℚ) (rs : List (List ℕ)) (hne : rs ≠ []) :
    ((∀ r ∈ rs, r ≠ []) →
      recalculate_objective_routes rs D = .ok (rs.map (fun r => cost D (closeRoute r))).sum) ∧
    ([] ∈ rs → recalculate_objective_routes rs D = .error .indexError) := by
  have step : ∀ (r : List ℕ) (t : List (List ℕ)) (f : ℚ), r ≠ [] →
      recalcLoop D (r :: t) f = recalcLoop D t (f + cost D (closeRoute r)) := by
    intro r t f hr
    obtain ⟨a, s, rfl⟩ := List.exists_cons_of_ne_nil hr
    obtain ⟨m, z, hm⟩ : ∃ m z, a :: s = m ++ [z] := by
      rcases List.eq_nil_or_concat (a :: s) with h' | ⟨m, x, h'⟩
      · simp at h'
      · exact ⟨m, x, by simpa using h'⟩
    have h2 : idxNeg (a :: s) 1 = .ok z := by rw [hm]; exact idxNeg_one_concat m z
    have hp : pairSum D (a :: s) = cost D (a :: s) := objf_eq_cost (a :: s) D
    rw [recalcLoop]
    simp only [idx_zero_cons, h2, bind, Except.bind, hp]
    congr 1
    have hl : (a :: s).getLast? = some z := by rw [hm]; simp
    unfold closeRoute
    rw [hl]
    simp only [List.head?_cons, Option.some.injEq]
    have hz : ∀ l : List ℕ, cost D (l ++ (a :: s) ++ [0]) = cost D (l ++ (a :: s)) + D z 0 := by
      intro l
      rw [hm]
      have e1 : l ++ (m ++ [z]) ++ [0] = (l ++ m) ++ [z, 0] := by simp
      have e2 : l ++ (m ++ [z]) = (l ++ m) ++ [z] := by simp
      rw [e1, e2, cost_concat]
    by_cases ha : a = 0 <;> by_cases hz0 : z = 0
    · simp [ha, hz0]
    · simp only [ha, hz0, if_true, if_false, ne_eq, not_true_eq_false, not_false_eq_true]
      have := hz []
      simp only [List.nil_append] at this ⊢
      rw [ha] at this
      rw [this]; ring
    · simp only [ha, hz0, if_true, if_false, ne_eq, not_true_eq_false, not_false_eq_true,
        List.append_nil]
      simp; ring
    · simp only [ha, hz0, if_false, ne_eq, not_false_eq_true, if_true]
      rw [hz [0]]; simp; ring
  obtain ⟨r0, rt, rfl⟩ := List.exists_cons_of_ne_nil hne
  constructor
  · intro h
    simp only [recalculate_objective_routes, idx_zero_cons, bind, Except.bind]
    have key : ∀ (rs : List (List ℕ)) (f : ℚ), (∀ r ∈ rs, r ≠ []) →
        recalcLoop D rs f = .ok (f + (rs.map (fun r => cost D (closeRoute r))).sum) := by
      intro rs
      induction rs with
      | nil => intro f _; simp [recalcLoop, pure, Except.pure]
      | cons r t ih =>
        intro f hr
        rw [step r t f (hr r (by simp)), ih _ (fun x hx => hr x (List.mem_cons_of_mem _ hx))]
        simp; ring
    rw [key _ _ h]; simp
  · intro h
    simp only [recalculate_objective_routes, idx_zero_cons, bind, Except.bind]
    have key : ∀ (rs : List (List ℕ)) (f : ℚ), [] ∈ rs → recalcLoop D rs f = .error .indexError := by
      intro rs
      induction rs with
      | nil => intro f h; simp at h
      | cons r t ih =>
        intro f hr
        by_cases he : r = []
        · subst he; rfl
        · rw [step r t f he]
          rcases List.mem_cons.1 hr with h' | h'
          · exact absurd h'.symm he
          · exact ih _ h'
    exact key _ _ h

/-- C10. Both encodings of a solution get the same value. -/
theorem C10_encodings_agree (D : ℕ → ℕ → ℚ) (h00 : D 0 0 = 0) (bs : List (List ℕ)) (hne : bs ≠ [])
    (h : ∀ b ∈ bs, b ≠ [] ∧ ∀ x ∈ b, x ≠ 0) :
    recalculate_objective_routes bs D = recalculate_objective (tour bs) D ∧
    recalculate_objective_routes (bs.map wrap) D = recalculate_objective (tour bs) D := by
  have hsum : recalculate_objective (tour bs) D = .ok ((bs.map (fun b => cost D (wrap b))).sum) := by
    rw [C10_depot_ends D h00 _ (depotEnds_tour bs), objf_eq_cost]
    congr 1
    rcases depotEnds_cases (depotEnds_tour bs) with h' | ⟨m, hm⟩
    · obtain ⟨b, t, rfl⟩ := List.exists_cons_of_ne_nil hne
      have := tour_ne_nil t
      simp [tour, this] at h'
    · rw [hm, cost_wrap_eq_sum h00, ← blocks_wrap, ← hm, blocks_tour_of_routes bs h]
  have hclose : ∀ b ∈ bs, closeRoute b = wrap b ∧ closeRoute (wrap b) = wrap b := by
    intro b hb
    obtain ⟨h1, h2⟩ := h b hb
    constructor
    · unfold closeRoute
      have hh : b.head? ≠ some 0 := fun e => h2 0 (List.mem_of_head? e) rfl
      have hl : b.getLast? ≠ some 0 := fun e => h2 0 (List.mem_of_getLast? e) rfl
      rw [if_neg hh, if_neg hl]; rfl
    · unfold closeRoute
      rw [if_pos (depotEnds_wrap b).1, if_pos (depotEnds_wrap b).2]; simp
  constructor
  · rw [hsum, (C10_routes D bs hne).1 (fun b hb => (h b hb).1)]
    congr 2
    apply List.map_congr_left
    intro b hb; rw [(hclose b hb).1]
  · rw [hsum, (C10_routes D (bs.map wrap) (by simpa using hne)).1 (by
      intro r hr; simp at hr; obtain ⟨b, _, rfl⟩ := hr; simp [wrap])]
    rw [List.map_map]
    congr 2
    apply List.map_congr_left
    intro b hb; simp [(hclose b hb).2]

example : recalculate_objective_routes [[1, 2], [0, 3]] (fun i j => if i = j then 0 else i + j) =
    .ok 12 := by decide +kernel

/-! ## C11 -/

/-- What `D2D_c` adds to a leg between two different nodes, in terms of the charged time and of the
charge of a depot leg. -/
theorem d2d_cost (ty : DType) (D : ℕ → ℕ → ℚ) (st tst half : ℚ) (hst : st ≠ 0)
    (ht : tst = castTo ty st)
    (hh : half = if tst ≠ st ∨ tst / 2 ≠ st / 2 then tst / 2 else truncQ (tst / 2)) :
    ∃ Dc, D2D_c ty D st = .ok Dc ∧ Dc 0 0 = 0 ∧ ∀ b : List ℕ, b ≠ [] →
      (∀ x ∈ b, x ≠ 0) → (wrap b).IsChain (· ≠ ·) →
      cost Dc (wrap b) = cost D (wrap b) + b.length * tst - (tst - 2 * half) := by
  subst ht
  refine ⟨_, by rw [D2D_c, if_neg hst], by simp, ?_⟩
  intro b hne h0 hch
  simp only
  rw [← hh]
  set Dc : ℕ → ℕ → ℚ := fun i j =>
      if i = j then 0
      else
        if j = 0 then
          (if i = 0 then (if i ≠ 0 ∧ j ≠ 0 then D i j + castTo ty st else D i j) + half
            else if i ≠ 0 ∧ j ≠ 0 then D i j + castTo ty st else D i j) + half
        else if i = 0 then (if i ≠ 0 ∧ j ≠ 0 then D i j + castTo ty st else D i j) + half
        else if i ≠ 0 ∧ j ≠ 0 then D i j + castTo ty st else D i j with hDc
  obtain ⟨a, t, rfl⟩ := List.exists_cons_of_ne_nil hne
  have ha := h0 a (by simp)
  have hin : ∀ (t : List ℕ) (a : ℕ), a ≠ 0 → (∀ x ∈ t, x ≠ 0) → (a :: t).IsChain (· ≠ ·) →
      cost Dc (a :: (t ++ [0])) = cost D (a :: (t ++ [0])) + t.length * castTo ty st + half := by
    intro t
    induction t with
    | nil => intro a ha _ _; simp [hDc, ha]
    | cons c t ih =>
      intro a ha h0 hch
      have hc := h0 c (by simp)
      rw [List.isChain_cons_cons] at hch
      rw [List.cons_append, cost_cons_cons, ih c hc (fun x hx => h0 x (List.mem_cons_of_mem _ hx)) hch.2]
      have : Dc a c = D a c + castTo ty st := by simp [hDc, ha, hc, hch.1]
      rw [this]; simp; ring
  have hch' : (a :: t).IsChain (· ≠ ·) := by
    have : wrap (a :: t) = 0 :: ((a :: t) ++ [0]) := rfl
    rw [this, List.isChain_cons] at hch
    exact (List.isChain_append.1 hch.2).1
  have e : wrap (a :: t) = 0 :: a :: (t ++ [0]) := by simp [wrap]
  rw [e, cost_cons_cons, hin t a ha (fun x hx => h0 x (List.mem_cons_of_mem _ hx)) hch', cost_cons_cons]
  have : Dc 0 a = D 0 a + half := by simp [hDc, ha, Ne.symm ha]
  rw [this]; simp; ring

/-- C11. Exactly what is charged: `k` customers on a route cost `k` times the truncated service time
`tst`, minus what the rounding of its half loses on the two depot legs. -/
theorem C11_charge (ty : DType) (D : ℕ → ℕ → ℚ) (st : ℚ) (hst : st ≠ 0) :
    ∃ Dc tst loss, D2D_c ty D st = .ok Dc ∧ tst = castTo ty st ∧
      loss = (if tst ≠ st then 0 else tst - 2 * truncQ (tst / 2)) ∧
      ∀ b : List ℕ, b ≠ [] → (∀ x ∈ b, x ≠ 0) → (wrap b).IsChain (· ≠ ·) →
        cost Dc (wrap b) = cost D (wrap b) + b.length * tst - loss := by
  obtain ⟨Dc, e1, _, e2⟩ := d2d_cost ty D st _ _ hst rfl rfl
  refine ⟨Dc, castTo ty st, _, e1, rfl, rfl, ?_⟩
  intro b h1 h2 h3
  rw [e2 b h1 h2 h3]
  by_cases h : castTo ty st = st
  · simp [h]
  · simp only [h, ne_eq, not_false_eq_true, true_or, if_true]; ring

/-- C11 (partial). For an even integer service time every solution's cost grows by exactly the
service time for every customer visit, whatever the type of the matrix. The full statement is false,
see below. -/
theorem C11_service_time_partial (ty : DType) (D : ℕ → ℕ → ℚ) (h00 : D 0 0 = 0) (m : ℤ)
    (hm : m ≠ 0) (sol : List ℕ) (h : DepotEnds sol)
    (hch : sol.IsChain (fun a b => a = b → a = 0)) :
    ∃ Dc, D2D_c ty D (2 * m) = .ok Dc ∧
      cost Dc sol = cost D sol + (customers sol).length * (2 * m) := by
  have hst : (2 * m : ℚ) ≠ 0 := by
    have : (m : ℚ) ≠ 0 := by exact_mod_cast hm
    simpa using this
  have htr : ∀ k : ℤ, truncQ (k : ℚ) = k := by
    intro k; unfold truncQ; split <;> simp
  have hcast : castTo ty (2 * m : ℚ) = 2 * m := by
    cases ty
    · have := htr (2 * m); push_cast at this; exact this
    · rfl
  have hhalf : (m : ℚ) = if castTo ty (2 * m : ℚ) ≠ 2 * m ∨ castTo ty (2 * m : ℚ) / 2 ≠ (2 * m : ℚ) / 2
      then castTo ty (2 * m : ℚ) / 2 else truncQ (castTo ty (2 * m : ℚ) / 2) := by
    rw [hcast]
    have : (2 * m : ℚ) / 2 = m := by ring
    simp [this, htr]
  obtain ⟨Dc, e1, e0, e2⟩ := d2d_cost ty D (2 * m) (2 * m) m hst hcast.symm (by
    rw [hcast] at hhalf; exact hhalf)
  refine ⟨Dc, e1, ?_⟩
  have key : ∀ (E : ℕ → ℕ → ℚ), E 0 0 = 0 → cost E sol = ((blocks sol).map (fun b => cost E (wrap b))).sum := by
    intro E hE
    rcases depotEnds_cases h with rfl | ⟨m, rfl⟩
    · rfl
    · rw [blocks_wrap]; exact cost_wrap_eq_sum hE m
  rw [key Dc e0, key D h00, ← blocks_flatten]
  have hb := mem_blocks sol
  have hbc : ∀ b ∈ blocks sol, (wrap b).IsChain (· ≠ ·) := by
    clear key e1 e2 hhalf hcast h hb
    have hgen : ∀ g : List ℕ, g ≠ [] → (∀ x ∈ g, x ≠ 0) → g.IsChain (fun a b => a = b → a = 0) →
        (wrap g).IsChain (· ≠ ·) := by
      intro g hne h0 hc
      unfold wrap
      rw [List.isChain_cons]
      constructor
      · intro y hy
        obtain ⟨a, t, rfl⟩ := List.exists_cons_of_ne_nil hne
        simp at hy; subst hy; exact (h0 a (by simp)).symm
      · rw [List.isChain_append]
        refine ⟨?_, by simp, ?_⟩
        · clear hne
          induction g with
          | nil => simp
          | cons a t ih =>
            cases t with
            | nil => simp
            | cons c t =>
              rw [List.isChain_cons_cons] at hc ⊢
              exact ⟨fun e => h0 a (by simp) (hc.1 e),
                ih (fun x hx => h0 x (List.mem_cons_of_mem _ hx)) hc.2⟩
        · intro x hx y hy
          simp at hy; subst hy
          exact h0 x (List.mem_of_getLast? hx)
    induction sol using zero_split_ind with
    | h0 g hg =>
      rw [blocks_zerofree g hg]
      split
      · simp
      · rename_i hne
        intro b hb; simp at hb; subst hb; exact hgen b hne hg hch
    | h1 g r hg ih =>
      rw [List.isChain_append] at hch
      rw [blocks_block_zero g r hg]
      have ihr := ih (by
        have := hch.2.1
        cases r with
        | nil => simp
        | cons c r => rw [List.isChain_cons_cons] at this; exact this.2)
      split
      · exact ihr
      · rename_i hne
        intro b hb
        rcases List.mem_cons.1 hb with rfl | hb
        · exact hgen b hne hg hch.1
        · exact ihr b hb
  generalize blocks sol = bs at hb hbc
  induction bs with
  | nil => simp
  | cons b t ih =>
    have ih' := ih (fun c hc => hb c (List.mem_cons_of_mem _ hc))
      (fun c hc => hbc c (List.mem_cons_of_mem _ hc))
    simp only [List.map_cons, List.sum_cons, List.flatten_cons, List.length_append]
    rw [ih', e2 b (hb b (by simp)).1 (hb b (by simp)).2 (hbc b (by simp))]
    push_cast; ring

example : DepotEnds [0, 1, 2, 0, 0, 3, 0] ∧
    List.IsChain (fun a b => a = b → a = 0) [0, 1, 2, 0, 0, 3, 0] := by
  constructor
  · decide
  · simp

/-- C11, the full claim is false for an odd service time: a single customer is not charged at all
with a service time of one, for an integer as well as for a real matrix. -/
theorem C11_false_odd (ty : DType) : ∃ Dc, D2D_c ty (fun _ _ => 0) 1 = .ok Dc ∧
    cost Dc [0, 1, 0] = 0 := by
  refine ⟨_, rfl, ?_⟩
  cases ty <;> decide +kernel

/-- C11, the full claim is false for a fractional service time with an integer matrix: only the
integer part is charged. -/
theorem C11_false_fractional : ∃ Dc, D2D_c .int (fun _ _ => 0) (5/2) = .ok Dc ∧
    cost Dc [0, 1, 2, 3, 0] = 3 * 2 := by
  refine ⟨_, if_neg (by norm_num), ?_⟩
  decide +kernel

/-- C11. Not setting the service time is an error. -/
theorem C11_zero_raises (ty : DType) (D : ℕ → ℕ → ℚ) : D2D_c ty D 0 = .error .valueError := rfl

end Verif
