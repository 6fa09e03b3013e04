import Verif.Spec.Construct
import Verif.Lemmas.RouteData

/-! # Properties C06, C07: route records (`routedata.py`) -/

namespace Verif
open Spec

/-! ## C06 -/

/-- C06. Building the records of a solution and writing them back gives the solution without
repeated depot visits, and the records hold the routes in order with their true cost and demand. -/
theorem C06_from_to_solution (sol : List ℕ) (D : ℕ → ℕ → ℚ) (d : ℕ → ℚ) (h : DepotEnds sol) :
    to_solution (from_solution sol D (some d)) = squeeze sol ∧
    (from_solution sol D (some d)).map (·.route) = (blocks sol).map wrap ∧
    ∀ rd ∈ from_solution sol D (some d), rd.cost = cost D rd.route ∧
      rd.demand = some (demand d rd.route) ∧ rd.is_empty = false := by
  have e : from_solution sol D (some d) = ((blocks sol).map wrap).map (RouteData.of_route D (some d)) := by
    rw [from_solution, from_routes, sol2routes_depotEnds sol h]
  refine ⟨?_, ?_, ?_⟩
  · rw [e, squeeze_depotEnds h]
    unfold to_solution
    generalize blocks sol = bs
    induction bs with
    | nil => rfl
    | cons b t ih =>
      simp only [List.map_cons, List.flatMap_cons, tour] at ih ⊢
      rw [← ih]; simp [RouteData.of_route, wrap]
  · rw [e, List.map_map]; simp [RouteData.of_route, Function.comp_def]
  · intro rd hrd
    rw [e] at hrd
    simp only [List.mem_map, exists_exists_and_eq_and] at hrd
    obtain ⟨b, hb, rfl⟩ := hrd
    refine ⟨objf_eq_cost _ _, ?_, ?_⟩
    · simp [RouteData.of_route, totald, demand_eq_sum]
    · have hb' := mem_blocks sol b hb
      obtain ⟨x, xs, rfl⟩ := List.exists_cons_of_ne_nil hb'.1
      simp [RouteData.of_route, RouteData.is_empty, wrap]

example : to_solution (from_solution [0, 1, 0, 0, 2, 3, 0] (fun i j => i + j) (some fun i => i)) =
    [0, 1, 0, 2, 3, 0] := by decide +kernel

/-- C06. Without demands the recorded demand is zero. -/
theorem C06_no_demands (sol : List ℕ) (D : ℕ → ℕ → ℚ) :
    ∀ rd ∈ from_solution sol D none, rd.demand = some 0 := by
  intro rd hrd
  simp only [from_solution, from_routes, List.mem_map] at hrd
  obtain ⟨b, _, rfl⟩ := hrd
  rfl

/-- C06. The node set of a route is the set of its customers. -/
theorem C06_nodeset (b : List ℕ) (h : ∀ x ∈ b, x ≠ 0) :
    ∃ s, route_to_nodeset (wrap b) = .ok s ∧ ∀ x, x ∈ s ↔ x ∈ b := by
  cases b with
  | nil => exact ⟨[], rfl, by simp⟩
  | cons a t =>
    refine ⟨a :: t, ?_, fun _ => Iff.rfl⟩
    have ha : a ≠ 0 := h a (by simp)
    have hlen : (wrap (a :: t)).length = t.length + 3 := by simp [wrap]
    rw [route_to_nodeset, if_neg (by simp [wrap])]
    have h1 : nsStart (wrap (a :: t)) (wrap (a :: t)).length 0 = .ok 1 := by
      rw [hlen]
      simp [nsStart, idx, wrap, ha, bind, Except.bind]
    have h2 : idxNeg (wrap (a :: t)) 1 = .ok 0 := by
      simp [idxNeg, idx, wrap]
    obtain ⟨y, hy, hy0⟩ : ∃ y, idxNeg (wrap (a :: t)) 2 = .ok y ∧ y ≠ 0 := by
      refine ⟨(a :: t)[t.length]'(by simp), ?_, h _ (List.getElem_mem _)⟩
      rw [idxNeg, if_neg (by rw [hlen]; simp), hlen]
      have e : t.length + 3 - 2 = t.length + 1 := by omega
      rw [e, idx]
      have : (wrap (a :: t))[t.length + 1]? = some ((a :: t)[t.length]'(by simp)) := by
        simp only [wrap, List.getElem?_cons_succ]
        rw [List.getElem?_append_left (by simp), List.getElem?_eq_getElem]
      rw [this]
    have h3 : nsEnd (wrap (a :: t)) (wrap (a :: t)).length 2 = .ok 2 := by
      rw [hlen, nsEnd, hy]
      simp [hy0, bind, Except.bind]
    simp only [h1, h2, h3, bind, Except.bind, if_true]
    rw [hlen]; congr 1
    simp [slice, wrap]

example : route_to_nodeset [0, 4, 2, 0] = .ok [4, 2] := by decide

/-! ## C07 -/

theorem nsStart_zeros (k : ℕ) (a : ℕ) (t : List ℕ) (ha : a ≠ 0) (i : ℕ) (fuel : ℕ) (hf : k < fuel) :
    nsStart (List.replicate (i + k) 0 ++ a :: t) fuel i = .ok (i + k) := by
  induction k generalizing i fuel with
  | zero =>
    obtain ⟨fuel, rfl⟩ : ∃ f, fuel = f + 1 := ⟨fuel - 1, by omega⟩
    have : idx (List.replicate (i + 0) 0 ++ a :: t) i = .ok a := by
      simp [idx]
    simp only [nsStart, this, bind, Except.bind, ha, false_and, if_false]
    rfl
  | succ k ih =>
    obtain ⟨fuel, rfl⟩ : ∃ f, fuel = f + 1 := ⟨fuel - 1, by omega⟩
    have : idx (List.replicate (i + (k + 1)) 0 ++ a :: t) i = .ok 0 := by
      simp [idx, List.getElem?_append_left]
    have e : i + (k + 1) = i + 1 + k := by omega
    simp only [nsStart, this, bind, Except.bind]
    rw [if_pos ⟨trivial, by simp; omega⟩, e, ih (i + 1) fuel (by omega)]

theorem idxNeg_eq {l : List ℕ} {k : ℕ} (hk : k ≠ 0) (h : k ≤ l.length) :
    idxNeg l k = .ok (l[l.length - k]'(by omega)) := by
  rw [idxNeg, if_neg (by omega), idx, List.getElem?_eq_getElem (by omega)]

theorem nsEnd_zeros (k : ℕ) (a : ℕ) (t : List ℕ) (ha : a ≠ 0) (i : ℕ) (fuel : ℕ) (hf : k < fuel) :
    nsEnd (t ++ a :: List.replicate (i + k) 0) fuel (i + 1) = .ok (i + k + 1) := by
  induction k generalizing i fuel with
  | zero =>
    obtain ⟨fuel, rfl⟩ : ∃ f, fuel = f + 1 := ⟨fuel - 1, by omega⟩
    have : idxNeg (t ++ a :: List.replicate (i + 0) 0) (i + 1) = .ok a := by
      rw [idxNeg_eq (by omega) (by simp)]
      congr 1
      rw [List.getElem_append_right (by simp)]
      simp
    simp only [nsEnd, this, bind, Except.bind, ha, false_and, if_false]
  | succ k ih =>
    obtain ⟨fuel, rfl⟩ : ∃ f, fuel = f + 1 := ⟨fuel - 1, by omega⟩
    have : idxNeg (t ++ a :: List.replicate (i + (k + 1)) 0) (i + 1) = .ok 0 := by
      rw [idxNeg_eq (by omega) (by simp; omega)]
      congr 1
      rw [List.getElem_append_right (by simp; omega)]
      simp only [List.length_append, List.length_cons, List.length_replicate]
      obtain ⟨m, hm⟩ : ∃ m, t.length + (i + (k + 1) + 1) - (i + 1) - t.length = m + 1 := ⟨k, by omega⟩
      simp only [hm, List.getElem_cons_succ, List.getElem_replicate]
    have e : i + (k + 1) = i + 1 + k := by omega
    simp only [nsEnd, this, bind, Except.bind]
    rw [if_pos ⟨trivial, by simp; omega⟩, e, ih (i + 1) fuel (by omega)]

/-- C06. The node set does not depend on how many depot visits, if any, there are at the ends of the
route: it is the set of the customers between them. -/
theorem C06_nodeset_padded (b : List ℕ) (hne : b ≠ []) (h : ∀ x ∈ b, x ≠ 0) (i j : ℕ) :
    route_to_nodeset (List.replicate i 0 ++ b ++ List.replicate j 0) = .ok b := by
  obtain ⟨a, t, rfl⟩ := List.exists_cons_of_ne_nil hne
  obtain ⟨t', z, hz⟩ : ∃ t' z, a :: t = t' ++ [z] := ⟨_, _, (List.dropLast_append_getLast hne).symm⟩
  have ha : a ≠ 0 := h a (by simp)
  have hz0 : z ≠ 0 := h z (by rw [hz]; simp)
  have hnot : ¬ (List.replicate i 0 ++ a :: t ++ List.replicate j 0 = [] ∨
      List.replicate i 0 ++ a :: t ++ List.replicate j 0 = [0, 0]) := by
    rintro (e | e)
    · simp at e
    · have : a ∈ [0, 0] := by rw [← e]; simp
      simp at this
      exact ha this
  have h1 : nsStart (List.replicate i 0 ++ a :: t ++ List.replicate j 0)
      (List.replicate i 0 ++ a :: t ++ List.replicate j 0).length 0 = .ok i := by
    have := nsStart_zeros i a (t ++ List.replicate j 0) ha 0
      (List.replicate i 0 ++ a :: t ++ List.replicate j 0).length (by simp)
    simpa using this
  rw [route_to_nodeset, if_neg hnot]
  simp only [h1, bind, Except.bind]
  cases j with
  | zero =>
    have h2 : idxNeg (List.replicate i 0 ++ a :: t ++ List.replicate 0 0) 1 = .ok z := by
      rw [List.replicate_zero, List.append_nil, hz, idxNeg_eq (by omega) (by simp; omega)]
      congr 1
      simp [List.getElem_append_right]
    simp only [h2, if_neg hz0]
    simp
  | succ j =>
    have h2 : idxNeg (List.replicate i 0 ++ a :: t ++ List.replicate (j + 1) 0) 1 = .ok 0 := by
      rw [idxNeg_eq (by omega) (by simp; omega)]
      congr 1
      rw [List.getElem_append_right (by simp)]
      simp
    have h3 : nsEnd (List.replicate i 0 ++ a :: t ++ List.replicate (j + 1) 0)
        (List.replicate i 0 ++ a :: t ++ List.replicate (j + 1) 0).length 2 = .ok (1 + j + 1) := by
      have := nsEnd_zeros j z (List.replicate i 0 ++ t') hz0 1
        (List.replicate i 0 ++ a :: t ++ List.replicate (j + 1) 0).length (by simp; omega)
      rw [hz]
      rw [hz] at this
      rw [Nat.add_comm j 1] at this ⊢
      simpa using this
    simp only [h2, h3, if_true]
    congr 1
    have e : (List.replicate i 0 ++ a :: t ++ List.replicate (j + 1) 0).length - (1 + j + 1 - 1) =
        i + (a :: t).length := by simp; omega
    rw [e, slice, List.append_assoc, List.take_append]
    simp

/-- C06. A route of depots only has no customers; a lone depot is an error. -/
theorem C06_nodeset_depots (k : ℕ) :
    (∃ s, route_to_nodeset (List.replicate (k + 2) 0) = .ok s ∧ s = []) ∧ route_to_nodeset [] = .ok [] ∧
    route_to_nodeset [0] = .error .indexError := by
  refine ⟨?_, rfl, rfl⟩
  have hs : ∀ m i fuel, i + m = k + 1 → m < fuel → nsStart (List.replicate (k + 2) 0) fuel i = .ok (k + 1) := by
    intro m
    induction m with
    | zero =>
      intro i fuel hi hf
      obtain ⟨fuel, rfl⟩ : ∃ f, fuel = f + 1 := ⟨fuel - 1, by omega⟩
      have : idx (List.replicate (k + 2) 0) i = .ok 0 := by
        rw [idx, List.getElem?_eq_getElem (by simp; omega)]; simp
      simp only [nsStart, this, bind, Except.bind]
      rw [if_neg (by simp; omega)]
      congr 1
    | succ m ih =>
      intro i fuel hi hf
      obtain ⟨fuel, rfl⟩ : ∃ f, fuel = f + 1 := ⟨fuel - 1, by omega⟩
      have : idx (List.replicate (k + 2) 0) i = .ok 0 := by
        rw [idx, List.getElem?_eq_getElem (by simp; omega)]; simp
      simp only [nsStart, this, bind, Except.bind]
      rw [if_pos ⟨trivial, by simp; omega⟩]
      exact ih (i + 1) fuel (by omega) (by omega)
  have he : ∀ m i fuel, i + m = k + 2 → 0 < i → m < fuel → nsEnd (List.replicate (k + 2) 0) fuel i = .ok (k + 2) := by
    intro m
    induction m with
    | zero =>
      intro i fuel hi h0 hf
      obtain ⟨fuel, rfl⟩ : ∃ f, fuel = f + 1 := ⟨fuel - 1, by omega⟩
      have : idxNeg (List.replicate (k + 2) 0) i = .ok 0 := by
        rw [idxNeg_eq (by omega) (by simp; omega)]; simp
      simp only [nsEnd, this, bind, Except.bind]
      rw [if_neg (by simp; omega)]
      congr 1
    | succ m ih =>
      intro i fuel hi h0 hf
      obtain ⟨fuel, rfl⟩ : ∃ f, fuel = f + 1 := ⟨fuel - 1, by omega⟩
      have : idxNeg (List.replicate (k + 2) 0) i = .ok 0 := by
        rw [idxNeg_eq (by omega) (by simp; omega)]; simp
      simp only [nsEnd, this, bind, Except.bind]
      rw [if_pos ⟨trivial, by simp; omega⟩]
      exact ih (i + 1) fuel (by omega) (by omega) (by omega)
  by_cases hk : List.replicate (k + 2) 0 = [] ∨ List.replicate (k + 2) 0 = [0, 0]
  · exact ⟨[], by rw [route_to_nodeset, if_pos hk], rfl⟩
  · have hl : idxNeg (List.replicate (k + 2) 0) 1 = .ok 0 := by
      rw [idxNeg_eq (by omega) (by simp)]; simp
    rw [route_to_nodeset, if_neg hk, List.length_replicate, hs (k + 1) 0 (k + 2) (by omega) (by omega), hl,
      he k 2 (k + 2) (by omega) (by omega) (by omega)]
    refine ⟨_, rfl, ?_⟩
    apply List.eq_nil_of_length_eq_zero
    simp [slice]

/-- C06. A route is empty if it serves no customer. -/
theorem C06_is_empty (b : List ℕ) (h : ∀ x ∈ b, x ≠ 0) (D : ℕ → ℕ → ℚ) (d : Option (ℕ → ℚ)) :
    ((RouteData.of_route D d (wrap b)).is_empty = true ↔ b = []) ∧
    (RouteData.of_route D d []).is_empty = true ∧ RouteData.new.is_empty = true := by
  refine ⟨?_, rfl, rfl⟩
  cases b with
  | nil => simp [RouteData.of_route, RouteData.is_empty, wrap]
  | cons a t =>
    have ha : a ≠ 0 := h a (by simp)
    simp [RouteData.of_route, RouteData.is_empty, wrap]

/-- C08. Normalizing the record of a route with customers turns it, if at all, so that the smaller of
the first and the last customer comes first; nothing else changes. A route without customers stays. -/
theorem C08_record (b : List ℕ) (rd : RouteData) (hr : rd.route = wrap b) :
    ∃ b', Turned b b' ∧ rd.normalize = .ok { rd with route := wrap b' } ∧
      (∀ x y, b'.head? = some x → b'.getLast? = some y → x ≤ y) ∧
      (∀ x y, b.head? = some x → b.getLast? = some y → x ≤ y → b' = b) := by
  have hrev : (wrap b).reverse = wrap b.reverse := by simp [wrap]
  cases hb : b with
  | nil =>
    refine ⟨[], Or.inl rfl, ?_, by simp, by simp⟩
    subst hb
    have h1 : idx (wrap []) 1 = .ok 0 := rfl
    have h2 : idxNeg (wrap []) 2 = .ok 0 := rfl
    simp only [RouteData.normalize, hr, h1, h2, bind, Except.bind, gt_iff_lt, Nat.lt_irrefl, if_false]
    cases rd; simp_all [pure, Except.pure]
  | cons a t =>
    obtain ⟨t', z, hz⟩ : ∃ t' z, a :: t = t' ++ [z] := ⟨_, _, (List.dropLast_append_getLast (by simp)).symm⟩
    have h1 : idx rd.route 1 = .ok a := by rw [hr, hb]; rfl
    have h2 : idxNeg rd.route 2 = .ok z := by
      rw [hr, hb, hz, idxNeg_eq (by omega) (by simp [wrap])]
      congr 1
      simp [wrap, List.getElem_append_right]
    have hlast : (a :: t).getLast? = some z := by rw [hz]; simp
    have hn : rd.normalize = if a > z then .ok { rd with route := rd.route.reverse } else .ok rd := by
      simp only [RouteData.normalize, h1, h2, bind, Except.bind]
      rfl
    by_cases h : a > z
    · refine ⟨(a :: t).reverse, Or.inr rfl, ?_, ?_, ?_⟩
      · rw [hn, if_pos h, hr, hrev, hb]
      · intro x y hx hy
        rw [List.head?_reverse, hlast, Option.some.injEq] at hx
        rw [List.getLast?_reverse, List.head?_cons, Option.some.injEq] at hy
        omega
      · intro x y hx hy hxy
        rw [hlast, Option.some.injEq] at hy
        rw [List.head?_cons, Option.some.injEq] at hx
        omega
    · refine ⟨a :: t, Or.inl rfl, ?_, ?_, fun _ _ _ _ _ => rfl⟩
      · rw [hn, if_neg h]
        cases rd; simp_all
      · intro x y hx hy
        rw [hlast, Option.some.injEq] at hy
        rw [List.head?_cons, Option.some.injEq] at hx
        omega

/-- Non-trivial cases. -/
example : route_to_nodeset [0, 0, 3, 1, 0, 0, 0] = .ok [3, 1] ∧ route_to_nodeset [3, 1] = .ok [3, 1] ∧
    (RouteData.normalize { route := [0, 3, 2, 1, 0], cost := 5, demand := none }) =
      .ok { route := [0, 1, 2, 3, 0], cost := 5, demand := none } := by decide +kernel

/-- C07. The forward cumulative data of a route that leaves the depot: at every position the cost of
the way up to there and the demand of the visits after the start. The update never fails. -/
theorem C07_forward (route : List ℕ) (h : route.head? = some 0) (D : ℕ → ℕ → ℚ) (d : ℕ → ℚ) :
    ∃ fl fd, update_auxiliary_data route D (some d) true = .ok (fl, fd) ∧
      fl.length = route.length ∧ fd.length = route.length ∧
      ∀ i < route.length, fl[i]? = some (cost D (route.take (i + 1))) ∧
        fd[i]? = some (demand d (route.take (i + 1)).tail) := by
  cases route with
  | nil => simp at h
  | cons a t =>
    simp at h; subst h
    obtain ⟨s, e1, e2, e3⟩ := auxLoop_fwd D (some d) t 0 0 0 [0] [0] (List.replicate t.length 0)
      (List.replicate t.length 0) rfl (by simp) (by simp) (by simp)
    refine ⟨s.route_l, s.route_d, ?_, ?_, ?_, ?_⟩
    · simp only [update_auxiliary_data, if_true, bind, Except.bind]
      have e1' := e1
      simp only [List.length_singleton] at e1'
      have : List.replicate (0 :: t).length (0 : ℚ) = [0] ++ List.replicate t.length 0 := rfl
      rw [this, List.drop_one, List.tail_cons, e1']; rfl
    · rw [e2]; simp [cumCost_length]
    · rw [e3]; simp [cumDem_length]
    · intro i hi
      rw [e2, e3]
      cases i with
      | zero => simp
      | succ i =>
        simp at hi
        simp only [List.singleton_append, List.getElem?_cons_succ]
        rw [cumCost_get D 0 0 t i hi, cumDem_get d 0 t i hi]
        simp

/-- C07. The backward cumulative data of a route that returns to the depot. The costs are of the way
back, from the end of the route to the position. -/
theorem C07_backward (route : List ℕ) (h : route.getLast? = some 0) (D : ℕ → ℕ → ℚ) (d : ℕ → ℚ) :
    ∃ rl rd, update_auxiliary_data route D (some d) false = .ok (rl, rd) ∧
      rl.length = route.length ∧ rd.length = route.length ∧
      ∀ i < route.length, rl[i]? = some (cost D (route.drop i).reverse) ∧
        rd[i]? = some (demand d (route.drop i).dropLast) := by
  obtain ⟨t, rfl⟩ := getLast_zero_split h
  have hk : ∀ i, i < t.length →
      (t.drop i).reverse = t.reverse.take ((t.length - 1 - i) + 1) := by
    intro i hi
    rw [List.take_reverse]
    congr 2; omega
  obtain ⟨s, e1, e2, e3⟩ := auxLoop_bwd D (some d) t.reverse 0 0 0 [0] [0]
    (List.replicate t.length 0) (List.replicate t.length 0) rfl (by simp) (by simp) (by simp)
  refine ⟨s.route_l, s.route_d, ?_, ?_, ?_, ?_⟩
  · simp only [update_auxiliary_data, bind, Except.bind]
    have e1' := e1
    simp only [List.length_singleton] at e1'
    have : List.replicate (t ++ [0]).length (0 : ℚ) = List.replicate t.length 0 ++ [0] := by
      simp [List.replicate_add]
    rw [this]
    simp only [List.dropLast_concat]
    simp [e1', pure, Except.pure]
  · rw [e2]; simp [cumCost_length]
  · rw [e3]; simp [cumDem_length]
  · intro i hi
    rw [e2, e3]
    by_cases hi' : i < t.length
    · have hi2 : t.length - 1 - i < t.reverse.length := by simp; omega
      rw [List.getElem?_append_left (by simpa [cumCost_length] using hi'),
        List.getElem?_append_left (by simpa [cumDem_length] using hi'),
        List.getElem?_reverse (by simpa [cumCost_length] using hi'),
        List.getElem?_reverse (by simpa [cumDem_length] using hi')]
      rw [cumCost_length, cumDem_length, List.length_reverse]
      rw [cumCost_get D 0 0 _ _ hi2, cumDem_get d 0 _ _ hi2, ← hk i hi']
      rw [List.drop_append_of_le_length (le_of_lt hi')]
      simp
    · have hie : i = t.length := by simp at hi; omega
      subst hie
      simp [cumCost_length, cumDem_length]

/-- C07. With symmetric distances and no demand at the depot the cumulative data at a position
splits the totals of the route: prefix plus suffix is the whole. -/
theorem C07_split (route : List ℕ) (h : DepotEnds route) (D : ℕ → ℕ → ℚ) (hD : Symm D)
    (d : ℕ → ℚ) (hd : d 0 = 0) :
    ∃ fl fd rl rd, update_auxiliary_data route D (some d) true = .ok (fl, fd) ∧
      update_auxiliary_data route D (some d) false = .ok (rl, rd) ∧
      ∀ i, (hi : i < route.length) → ∃ a b a' b', fl[i]? = some a ∧ rl[i]? = some b ∧
        a + b = cost D route ∧ fd[i]? = some a' ∧ rd[i]? = some b' ∧
        a' + b' - d route[i] = demand d route := by
  obtain ⟨fl, fd, e1, -, -, hf⟩ := C07_forward route h.1 D d
  obtain ⟨rl, rd, e2, -, -, hr⟩ := C07_backward route h.2 D d
  refine ⟨fl, fd, rl, rd, e1, e2, ?_⟩
  intro i hi
  obtain ⟨f1, f2⟩ := hf i hi
  obtain ⟨r1, r2⟩ := hr i hi
  refine ⟨_, _, _, _, f1, r1, ?_, f2, r2, ?_⟩
  · rw [cost_reverse hD, List.drop_eq_getElem_cons hi, ← List.take_concat_get' route i hi]
    rw [← cost_append_cons, ← List.drop_eq_getElem_cons hi, List.take_append_drop]
  · have t1 : demand d (route.take (i + 1)).tail = demand d (route.take (i + 1)) := by
      have := h.1
      cases route with
      | nil => simp at this
      | cons a t => simp at this; subst this; simp [hd]
    have t2 : demand d (route.drop i).dropLast = demand d (route.drop i) := by
      have hl : (route.drop i).getLast? = some 0 := by
        rw [List.getLast?_drop, if_neg (by omega), h.2]
      obtain ⟨u, hu⟩ := getLast_zero_split hl
      rw [hu]; simp [hd]
    rw [t1, t2]
    have : demand d route = demand d (route.take i) + demand d (route.drop i) := by
      rw [← demand_append, List.take_append_drop]
    have e : demand d (route.take (i + 1)) = demand d (route.take i) + d route[i] := by
      rw [← List.take_concat_get' route i hi, demand_append, demand_cons, demand_nil, add_zero]
    rw [this, e]; ring

example : DepotEnds [0, 3, 1, 2, 0] ∧
    update_auxiliary_data [0, 3, 1, 2, 0] (fun i j => (i : ℚ) + j) (some fun i => i) true =
      .ok ([0, 3, 7, 10, 12], [0, 3, 4, 6, 6]) ∧
    update_auxiliary_data [0, 3, 1, 2, 0] (fun i j => (i : ℚ) + j) (some fun i => i) false =
      .ok ([12, 9, 5, 2, 0], [6, 6, 3, 2, 0]) := by
  decide +kernel

/-- C07. Without demands the update succeeds as well, the demands stay zero and the costs are the
same. -/
theorem C07_no_demands (route : List ℕ) (h : DepotEnds route) (D : ℕ → ℕ → ℚ) (d : ℕ → ℚ)
    (fwd : Bool) : ∃ cl cd cd', update_auxiliary_data route D none fwd = .ok (cl, cd) ∧
      update_auxiliary_data route D (some d) fwd = .ok (cl, cd') ∧
      cd = List.replicate route.length 0 := by
  cases fwd
  · obtain ⟨t, rfl⟩ := getLast_zero_split h.2
    obtain ⟨s, e1, e2, e3⟩ := auxLoop_bwd D none t.reverse 0 0 0 [0] [0]
      (List.replicate t.length 0) (List.replicate t.length 0) rfl (by simp) (by simp) (by simp)
    obtain ⟨s', e1', e2', -⟩ := auxLoop_bwd D (some d) t.reverse 0 0 0 [0] [0]
      (List.replicate t.length 0) (List.replicate t.length 0) rfl (by simp) (by simp) (by simp)
    have hz : List.replicate (t ++ [0]).length (0 : ℚ) = List.replicate t.length 0 ++ [0] := by
      simp [List.replicate_add]
    simp only [List.length_singleton] at e1 e1'
    refine ⟨s.route_l, s.route_d, s'.route_d, ?_, ?_, ?_⟩
    · simp only [update_auxiliary_data, bind, Except.bind, hz, List.dropLast_concat]
      simp [e1, pure, Except.pure]
    · simp only [update_auxiliary_data, bind, Except.bind, hz, List.dropLast_concat]
      simp [e1', pure, Except.pure, e2, e2']
    · rw [e3, hz]
  · have h1 := h.1
    cases route with
    | nil => simp at h1
    | cons a t =>
      simp at h1; subst h1
      obtain ⟨s, e1, e2, e3⟩ := auxLoop_fwd D none t 0 0 0 [0] [0] (List.replicate t.length 0)
        (List.replicate t.length 0) rfl (by simp) (by simp) (by simp)
      obtain ⟨s', e1', e2', -⟩ := auxLoop_fwd D (some d) t 0 0 0 [0] [0] (List.replicate t.length 0)
        (List.replicate t.length 0) rfl (by simp) (by simp) (by simp)
      have hz : List.replicate (0 :: t).length (0 : ℚ) = [0] ++ List.replicate t.length 0 := rfl
      simp only [List.length_singleton] at e1 e1'
      refine ⟨s.route_l, s.route_d, s'.route_d, ?_, ?_, ?_⟩
      · simp only [update_auxiliary_data, bind, Except.bind, hz, if_true, List.drop_one,
          List.tail_cons, e1]
        rfl
      · simp only [update_auxiliary_data, bind, Except.bind, hz, if_true, List.drop_one,
          List.tail_cons, e1', e2, ← e2']
        rfl
      · rw [e3, hz]

end Verif
