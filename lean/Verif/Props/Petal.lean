import Verif.Lemmas.PetalSweep
import Verif.Lemmas.PetalBrute
import Verif.Lemmas.Solves

/-! # C55: the petal algorithm; C56: customers served more than once

`petal_init` generates routes (petals) with sweeps, lets a solver choose those that serve each customer once at the least
cost, generates more petals from the chosen ones and repeats this until nothing improves. A caller relies on the answer
being a solution, on the best choice of petals, on the end of the loop and on the stored solution after an interrupt.

The solver is any function of the number of the call and the programme that answers as `SolverRight` asks; it may run out
of time or be interrupted at any call. -/

namespace Verif
open Spec

theorem partly_of_part {N : ℕ} {D : ℕ → ℕ → ℚ} {d : ℕ → ℚ} {C L : Option ℚ} {us : List (List ℕ)}
    (h : PartSol N D d C L us) : PartlyServed N D d C L (tour us) := by
  have hc := PartSol.customers h
  refine ⟨depotEnds_tour us, by rw [hc]; exact h.nodup, fun n hn => ?_, PartSol.feasible h⟩
  by_cases h0 : n = 0
  · exact Or.inl h0
  · right
    have : n ∈ customers (tour us) := List.mem_filter.2 ⟨hn, by simpa using h0⟩
    rw [hc] at this
    obtain ⟨u, hu, hn⟩ := List.mem_flatten.1 this
    exact (h.range u hu n hn).2

theorem served_of_part {N : ℕ} {D : ℕ → ℕ → ℚ} {d : ℕ → ℚ} {C L : Option ℚ} {us : List (List ℕ)}
    (h : PartSol N D d C L us) (hp : us.flatten.Perm (List.range' 1 (N - 1))) : Served N D d C L (tour us) :=
  ⟨depotEnds_tour us, by unfold Covers; rw [PartSol.customers h]; exact hp, PartSol.feasible h⟩

/-- **C55**, the choice of the petals: whatever the petals, if the algorithm returns without having been interrupted (and
no number of iterations is asked for), its answer serves each customer exactly once within the limits whenever petals of
all sets can do this (with the given number of vehicles), and the answer costs no more than any such choice of
petals, if the number of vehicles is not minimized and there are at most 10000 petals; with more petals it costs no more
than any choice of the restricted and the reduced petals. The added petals `rel` are within the limits too. -/
theorem C55_choice {a : PtArgs} {d : ℕ → ℚ} {C L : Option ℚ} {allow0 : Bool} {K0 : Option ℕ}
    (hp : PtHyp a d C L allow0) (hN : 2 ≤ a.N) (hr : a.required = none) (hni : NoInterrupt a) {fuel : ℕ}
    {b : Option (List ℕ)} (h : ptLoop a fuel (ptStart a allow0 K0) = .ok (some (.ret b))) :
    (∀ vs, PetalCover a.N (ptActive a 3) vs → (ptTrue K0 = true → vs.length ≤ K0.getD 0) →
      ∃ sol, b = some sol ∧ Served a.N a.D d C L sol) ∧
    ∃ rel : List Petal, (∀ p ∈ rel, GoodPetal a.N a.D d C L p) ∧ (rel.map (·.route)).Nodup ∧
      (a.relaxe = false → rel = []) ∧
      ∀ vs, PetalCover a.N (ptActive a 2) vs ∨
          (PetalCover a.N (ptActive a 3) vs ∧ (ptActive a 3).length + rel.length ≤ 10000) →
        (ptTrue K0 = true → vs.length ≤ K0.getD 0) → a.minimize_K = false →
        ∃ sol, b = some sol ∧ Served a.N a.D d C L sol ∧ cost a.D sol ≤ cost a.D (tour vs) := by
  obtain ⟨x, h1, h2⟩ := loop_spec hp fuel (ptStart_inv (a := a) (d := d) (C := C) (L := L) (allow0 := allow0) (K0 := K0))
  rw [h] at h1
  cases h1
  have hret : RetOk a d C L allow0 K0 b := h2 _ rfl
  constructor
  · intro vs hv hK
    obtain ⟨us, e1, e2, e3, _⟩ := hret.some hr hni hN vs hv hK
    exact ⟨_, e1, served_of_part e2 e3⟩
  · obtain ⟨rel, g1, g2, g3, g4⟩ := hret.least hr hni hN
    refine ⟨rel, g1, g2, g3, ?_⟩
    rintro vs (hv | ⟨hv, hc⟩) hK hm
    · obtain ⟨us, e1, e2, e3, _, e5⟩ := g4 2 vs (Or.inl rfl) hv hK
      exact ⟨_, e1, served_of_part e2 e3, e5 hm⟩
    · obtain ⟨us, e1, e2, e3, _, e5⟩ := g4 3 vs (Or.inr ⟨rfl, Or.inl hc⟩) hv hK
      exact ⟨_, e1, served_of_part e2 e3, e5 hm⟩

/-- The petals of the sweeps and the main loop. -/
theorem petal_init_eq {N : ℕ} {D : ℕ → ℕ → ℚ} {d : ℕ → ℚ} {C L : Option ℚ} {o : PtOpts} {tsp : Router} {nodes : List ℕ}
    {opt : MipSolver} {gen : List (List ℕ) → Py (List RouteData)}
    (hi : PtInstance N D d C L o tsp nodes opt gen) (rlx : MipSolver) (signal : ℕ → Option Bool) :
    ∃ F a g, Ends (fun fuel => ptGenerate fuel D d C L tsp nodes o.ratio (ptC_t N d C o.K) (List.range (N - 1))
        ⟨[], [], []⟩) g ∧ (ptActive a 3).length = g.routes.length ∧
      (∀ sweeps ≥ F, ∀ fuel, petal_init sweeps fuel N D d C L o tsp nodes opt rlx gen signal =
        ptLoop a fuel (ptStart a o.allow_infeasible (ptK N d C o.K o.minimize_K))) ∧
      a.N = N ∧ a.D = D ∧ a.K = o.K ∧ a.minimize_K = o.minimize_K ∧ a.relaxe = o.relaxe ∧ a.required = o.required ∧
      a.opt = opt ∧ a.rlx = rlx ∧ PtHyp a d C L o.allow_infeasible ∧
      (∀ u, SweepRoute N D d C L tsp nodes u → ∃ p ∈ ptActive a 3, ∃ u', Turned u u' ∧ p.route = wrap u') ∧
      PetalCover N (ptActive a 3) ((List.range' 1 (N - 1)).map fun n => [n]) := by
  have hlen : nodes.length = N - 1 := by simpa using hi.nodes.length_eq
  obtain ⟨g, ⟨F, hF⟩, g1, _, g3, g4⟩ := generate_spec (ratio := o.ratio) (C_t := ptC_t N d C o.K) hi.sym hi.nodes hi.dem
    hi.tsp hi.ser (starts := List.range (N - 1)) (g := ⟨[], [], []⟩)
    (fun s hs => by rw [hlen]; exact List.mem_range.1 hs) (by simp [PtSets.all])
  have h2 := hi.two
  let a : PtArgs :=
    { N := N, D := D, K := o.K, minimize_K := o.minimize_K, relaxe := o.relaxe, required := o.required
      min_iterations := o.min_iterations, restricted := g.restricted, reduced := g.reduced
      extended := g.extended, opt := opt, rlx := rlx, gen := gen, signal := signal }
  have hall : ptActive a 3 = g.all := by simp [ptActive, a, PtSets.all]
  refine ⟨F, a, g, ⟨F, hF⟩, by simp [ptActive, a, PtSets.routes], ?_, rfl, rfl, rfl, rfl, rfl, rfl, rfl, rfl, ⟨?_, ?_, hi.opt, hi.gen, fun _ => hi.sym, hi.tri, hi.dem⟩, ?_, ?_, ?_⟩
  · intro sweeps hs fuel
    unfold petal_init
    rw [if_neg (by omega)]
    have := hF sweeps hs
    simp only at this
    rw [this]
  · exact (by omega : 1 ≤ N)
  · rw [hall]
    exact g1
  · rw [hall]
    rintro u ⟨start, hst, routes, hends, rd, hrd, hu⟩
    exact g4 start (List.mem_range.2 hst) routes hends rd hrd u hu
  · rw [hall]
    intro u hu
    obtain ⟨n, hn, rfl⟩ := List.mem_map.1 hu
    obtain ⟨i, hi', he⟩ := List.mem_iff_getElem.1 (hi.nodes.mem_iff.2 hn)
    exact g3 i (List.mem_range.2 (by omega)) n (by rw [List.getElem?_eq_getElem hi', he])
  · have : ((List.range' 1 (N - 1)).map fun n => [n]).flatten = List.range' 1 (N - 1) := by
      generalize List.range' 1 (N - 1) = l
      induction l with
      | nil => rfl
      | cons x l ih => simp [ih]
    rw [this]

theorem ptK_false {N : ℕ} {d : ℕ → ℚ} {C : Option ℚ} {K : Option ℕ} (h : ptTrue K = false) :
    ptTrue (ptK N d C K false) = false := by
  unfold ptK
  simp [h]

/-- **C55** (partial), the answer: on an instance where each customer alone is within the limits, however the solver answers and
whenever it is interrupted, the algorithm raises nothing but the error of the solver, which is raised only if the solver
ran out of time. If it returns (no number of iterations is asked for, the solver was not interrupted), the answer is a
solution that serves each customer exactly once within the limits; without `allow_infeasible` it has no empty routes.
If a user interrupts it (`K` is not 1) the solution attached to the interrupt is within the limits and serves no customer
twice, though customers may be missing. Missing: with a required number of iterations a returned solution need not be
complete (`C55_single_false`), and an interrupt need not be passed on (`C55_interrupt_false`). -/
theorem C55_answer_partial {N : ℕ} {D : ℕ → ℕ → ℚ} {d : ℕ → ℚ} {C L : Option ℚ} {o : PtOpts} {tsp : Router} {nodes : List ℕ}
    {opt : MipSolver} {gen : List (List ℕ) → Py (List RouteData)}
    (hi : PtInstance N D d C L o tsp nodes opt gen) (rlx : MipSolver) (signal : ℕ → Option Bool) :
    ∃ F, ∀ sweeps ≥ F, ∀ fuel, ∃ x, petal_init sweeps fuel N D d C L o tsp nodes opt rlx gen signal = .ok x ∧
      (x = some .gurobiError → ∃ t M, opt t M = .timeLimit ∨ rlx t M = .timeLimit) ∧
      (∀ b, x = some (.ret b) → o.required = none → (∀ t M, opt t M ≠ .interrupted ∧ rlx t M ≠ .interrupted) →
        ∃ sol, b = some sol ∧ Served N D d C L sol ∧ (o.allow_infeasible = false → Solves N D d C L sol)) ∧
      (∀ sol, x = some (.ret (some sol)) → PartlyServed N D d C L sol) ∧
      (∀ sol, x = some (.interrupt (some sol)) → o.K.getD 0 ≠ 1 → PartlyServed N D d C L sol) := by
  obtain ⟨F, a, _, _, _, hF, eN, eD, eK, em, erl, er, eo, ex, hp, hsw, hsingle⟩ := petal_init_eq hi rlx signal
  refine ⟨F, fun sweeps hs fuel => ?_⟩
  rw [hF sweeps hs fuel]
  obtain ⟨x, h1, h2⟩ := loop_spec hp fuel (ptStart_inv (a := a) (d := d) (C := C) (L := L)
    (allow0 := o.allow_infeasible) (K0 := ptK N d C o.K o.minimize_K))
  refine ⟨x, h1, ?_, ?_, ?_, ?_⟩
  · intro hx
    have := h2 _ hx
    rwa [EndOk, eo, ex] at this
  · intro b hb hr hni
    have hret : RetOk a d C L o.allow_infeasible (ptK N d C o.K o.minimize_K) b := h2 _ hb
    have hni' : NoInterrupt a := by
      unfold NoInterrupt
      rw [eo, ex]
      exact hni
    have key : ∃ us, b = some (tour us) ∧ PartSol a.N a.D d C L us ∧ us.flatten.Perm (List.range' 1 (a.N - 1)) ∧
        (o.allow_infeasible = false → [] ∉ us) := by
      by_cases hK : ptTrue (ptK N d C o.K o.minimize_K) = true
      · exact hret.full (er.trans hr) hK
      · exact hret.some (er.trans hr) hni' (by rw [eN]; exact hi.two) _ (by rw [eN]; exact hsingle) (fun h => absurd h hK)
    obtain ⟨us, e1, e2, e3, e4⟩ := key
    rw [eN, eD] at e2
    rw [eN] at e3
    exact ⟨_, e1, served_of_part e2 e3, fun h => (solves_tour e3 (e4 h) e2.ok).1⟩
  · intro sol hb
    have hret : RetOk a d C L o.allow_infeasible (ptK N d C o.K o.minimize_K) (some sol) := h2 _ hb
    obtain ⟨us, rfl, e2, _⟩ := hret.part sol rfl
    rw [eN, eD] at e2
    exact partly_of_part e2
  · intro sol hb hK
    obtain ⟨us, rfl, e2, _⟩ := h2 _ hb (by rw [eK]; exact hK) sol rfl
    rw [eN, eD] at e2
    exact partly_of_part e2

theorem cost_turned {D : ℕ → ℕ → ℚ} (hs : Symm D) {u u' : List ℕ} (h : Turned u u') :
    cost D (wrap u') = cost D (wrap u) := by
  rcases h with rfl | rfl
  · rfl
  · have : wrap u.reverse = (wrap u).reverse := by simp [wrap]
    rw [this, cost_reverse hs]

theorem turn_all {D : ℕ → ℕ → ℚ} (hs : Symm D) {ps : List Petal} : ∀ vs : List (List ℕ),
    (∀ u ∈ vs, ∃ p ∈ ps, ∃ u', Turned u u' ∧ p.route = wrap u') →
    ∃ vs' : List (List ℕ), (∀ u ∈ vs', ∃ p ∈ ps, p.route = wrap u) ∧ vs'.flatten.Perm vs.flatten ∧
      cost D (tour vs') = cost D (tour vs)
  | [], _ => ⟨[], by simp, List.Perm.refl _, rfl⟩
  | u :: vs, h => by
    obtain ⟨p, hp, u', ht, he⟩ := h u (List.mem_cons_self ..)
    obtain ⟨vs', h1, h2, h3⟩ := turn_all hs vs fun v hv => h v (List.mem_cons_of_mem _ hv)
    refine ⟨u' :: vs', ?_, ?_, ?_⟩
    · intro v hv
      rcases List.mem_cons.1 hv with rfl | hv
      · exact ⟨p, hp, he⟩
      · exact h1 v hv
    · rw [List.flatten_cons, List.flatten_cons]
      refine List.Perm.append ?_ h2
      rcases ht with rfl | rfl
      · exact List.Perm.refl _
      · exact List.reverse_perm _
    · rw [cost_tour_sum, cost_tour_sum] at h3 ⊢
      rw [List.map_cons, List.map_cons, List.sum_cons, List.sum_cons, cost_turned hs ht, h3]

/-- **C55**, the best choice: without a limit or a minimization of the number of vehicles, if there are at most 10000 petals
(those of the sweeps and `more` that were added), the answer costs no more than any solution whose routes are handed out
by sweeps. -/
theorem C55_best {N : ℕ} {D : ℕ → ℕ → ℚ} {d : ℕ → ℚ} {C L : Option ℚ} {o : PtOpts} {tsp : Router} {nodes : List ℕ}
    {opt : MipSolver} {gen : List (List ℕ) → Py (List RouteData)}
    (hi : PtInstance N D d C L o tsp nodes opt gen) (rlx : MipSolver) (signal : ℕ → Option Bool)
    (hr : o.required = none) (hni : ∀ t M, opt t M ≠ .interrupted ∧ rlx t M ≠ .interrupted)
    (hK : ptTrue o.K = false) (hm : o.minimize_K = false) :
    ∃ F g, Ends (fun fuel => ptGenerate fuel D d C L tsp nodes o.ratio (ptC_t N d C o.K) (List.range (N - 1))
        ⟨[], [], []⟩) g ∧
      ∀ sweeps ≥ F, ∀ fuel b,
        petal_init sweeps fuel N D d C L o tsp nodes opt rlx gen signal = .ok (some (.ret b)) →
        ∃ sol more, b = some sol ∧ Served N D d C L sol ∧ (o.relaxe = false → more = 0) ∧
          (g.routes.length + more ≤ 10000 → ∀ vs : List (List ℕ), (∀ u ∈ vs, SweepRoute N D d C L tsp nodes u) →
            vs.flatten.Perm (List.range' 1 (N - 1)) → cost D sol ≤ cost D (tour vs)) := by
  obtain ⟨F, a, g, hg, hlen, hF, eN, eD, eK, em, erl, er, eo, ex, hp, hsw, hsingle⟩ := petal_init_eq hi rlx signal
  refine ⟨F, g, hg, fun sweeps hs fuel b hb => ?_⟩
  rw [hF sweeps hs fuel] at hb
  have hni' : NoInterrupt a := by
    unfold NoInterrupt
    rw [eo, ex]
    exact hni
  have hK0 : ptTrue (ptK N d C o.K o.minimize_K) = false := by rw [hm]; exact ptK_false hK
  obtain ⟨h1, rel, _, _, h4, h5⟩ := C55_choice hp (by rw [eN]; exact hi.two) (er.trans hr) hni' hb
  obtain ⟨sol, e1, e2⟩ := h1 _ (by rw [eN]; exact hsingle) (fun h => by rw [hK0] at h; cases h)
  rw [eN, eD] at e2
  refine ⟨sol, rel.length, e1, e2, fun h => by rw [h4 (erl.trans h)]; rfl, fun hc vs hv hperm => ?_⟩
  obtain ⟨vs', t1, t2, t3⟩ := turn_all hi.sym vs fun u hu => hsw u (hv u hu)
  obtain ⟨sol', f1, f2, f3⟩ := h5 vs' (Or.inr ⟨⟨t1, by rw [eN]; exact t2.trans hperm⟩, by rw [hlen]; exact hc⟩)
    (fun h => by rw [hK0] at h; cases h) (em.trans hm)
  rw [e1] at f1
  cases f1
  rw [eD, t3] at f3
  exact f3

/-- **C55** (partial), the end: without a limit or a minimization of the number of vehicles the algorithm ends, however the solver
answers and whatever the required number of iterations. Missing: with `minimize_K` it need not end
(`C55_endless_false`). -/
theorem C55_ends_partial {N : ℕ} {D : ℕ → ℕ → ℚ} {d : ℕ → ℚ} {C L : Option ℚ} {o : PtOpts} {tsp : Router} {nodes : List ℕ}
    {opt : MipSolver} {gen : List (List ℕ) → Py (List RouteData)}
    (hi : PtInstance N D d C L o tsp nodes opt gen) (rlx : MipSolver) (signal : ℕ → Option Bool)
    (hK : ptTrue o.K = false) (hm : o.minimize_K = false) :
    ∃ F r, ∀ sweeps ≥ F, ∀ fuel ≥ F,
      petal_init sweeps fuel N D d C L o tsp nodes opt rlx gen signal = .ok (some r) := by
  obtain ⟨F, a, g, hg, hlen, hF, eN, eD, eK, em, erl, er, eo, ex, hp, hsw, hsingle⟩ := petal_init_eq hi rlx signal
  have hK0 : ptTrue (ptK N d C o.K o.minimize_K) = false := by rw [hm]; exact ptK_false hK
  obtain ⟨G, hG⟩ : ∃ G, ((nodupLists (ptIndices a)).length - 0) * 4 + (4 - 1) < G := ⟨_, Nat.lt_succ_self _⟩
  obtain ⟨r, hr⟩ := loop_ends hp hK0 G (ptStart_inv (a := a) (d := d) (C := C) (L := L) (allow0 := o.allow_infeasible)
    (K0 := ptK N d C o.K o.minimize_K)) (by simp [ptStart]) (by simpa [ptStart] using hG)
  refine ⟨F + G, r, fun sweeps hs fuel hf => ?_⟩
  rw [hF sweeps (by omega) fuel]
  obtain ⟨m, rfl⟩ := Nat.exists_eq_add_of_le (show G ≤ fuel by omega)
  exact loop_fuel G hr m

/-! ## C56 -/

/-- **C56**: given routes that visit customers, none twice on the same route, `_remove_multiserved` raises nothing and tells
whether all the customers are served. Each customer that was served more than once is then left on the route where the
visit costs least (the first such), one customer after the other. So each served customer is served once, no
customer is lost, and the order on the routes is kept. -/
theorem C56_multiserved {N : ℕ} {D : ℕ → ℕ → ℚ} {us : List (List ℕ)} (hN : 1 ≤ N)
    (hnd : ∀ u ∈ us, u.Nodup) (hr : ∀ u ∈ us, ∀ n ∈ u, 1 ≤ n ∧ n < N) :
    ∃ ms vs all, remove_multiserved N D (us.map wrap) = .ok (vs.map wrap, all) ∧
      (all = true ↔ ∀ n, 1 ≤ n → n < N → n ∈ us.flatten) ∧
      ms.Nodup ∧ (∀ n, n ∈ ms ↔ 2 ≤ us.flatten.count n) ∧ KeepCheapestAll D ms us vs ∧
      List.Forall₂ List.Sublist vs us ∧ vs.flatten.Nodup ∧ ∀ n, n ∈ vs.flatten ↔ n ∈ us.flatten := by
  obtain ⟨ms, vs, all, h1, h2, h3, h4, h5, _, h7, h8, h9⟩ := remove_multiserved_spec (D := D) hN hnd hr
  refine ⟨ms, vs, all, h1, ?_, h3, h4, h5, h7, h8, h9⟩
  rw [h2]
  constructor
  · intro h n a b
    exact h n (List.mem_range'_1.2 (by omega))
  · intro h n hn
    have := List.mem_range'_1.1 hn
    exact h n (by omega) (by omega)

/-- **C56**, the cost and the limits: with the triangle inequality the routes without the additional visits cost no more,
so routes within the limits stay within them. -/
theorem C56_cost {N : ℕ} {D : ℕ → ℕ → ℚ} {d : ℕ → ℚ} {C L : Option ℚ} {us : List (List ℕ)} (hN : 1 ≤ N)
    (hnd : ∀ u ∈ us, u.Nodup) (hr : ∀ u ∈ us, ∀ n ∈ u, 1 ≤ n ∧ n < N) (ht : Triangle D) (hd : ∀ n, 0 ≤ d n)
    (hok : ∀ u ∈ us, RouteOk D d C L u) :
    ∃ vs all, remove_multiserved N D (us.map wrap) = .ok (vs.map wrap, all) ∧ cost D (tour vs) ≤ cost D (tour us) ∧
      PartlyServed N D d C L (tour vs) ∧ (all = true → Served N D d C L (tour vs)) := by
  obtain ⟨ms, vs, all, h1, h2, h3, h4, h5, h6, h7, h8⟩ := C56_multiserved (D := D) hN hnd hr
  have hrange : ∀ u ∈ vs, ∀ n ∈ u, 1 ≤ n ∧ n < N := by
    intro u hu n hn
    obtain ⟨w, hw, hs⟩ := forall₂_sublist_mem h6 hu
    exact hr w hw n (hs.subset hn)
  have hpart : PartSol N D d C L vs := by
    refine ⟨h7, hrange, fun u hu => ?_⟩
    obtain ⟨w, hw, hs⟩ := forall₂_sublist_mem h6 hu
    exact routeOk_sublist hd ht hs (hok w hw)
  refine ⟨vs, all, h1, ?_, partly_of_part hpart, fun ha => served_of_part hpart ?_⟩
  · rw [cost_tour_sum, cost_tour_sum]
    clear h1 h5 h7 h8 hpart hrange h4 h2 hnd hr hok
    induction h6 with
    | nil => exact le_refl _
    | cons h _ ih =>
      rw [List.map_cons, List.map_cons, List.sum_cons, List.sum_cons]
      exact add_le_add (cost_more_stops ht h 0 0) ih
  · rw [List.perm_ext_iff_of_nodup h7 List.nodup_range']
    intro n
    rw [List.mem_range'_1]
    constructor
    · intro hn
      obtain ⟨u, hu, hnu⟩ := List.mem_flatten.1 hn
      have := hrange u hu n hnu
      omega
    · intro hn
      exact (h8 n).2 (h2.1 ha n (by omega) (by omega))

/-! ## Examples and failures -/

/-- Places on a line. -/
def ptLine (i j : ℕ) : ℚ := |(i : ℚ) - (j : ℚ)|

/-- Customer 1 asks for 9, customer 2 for 3. -/
def ptD2 (n : ℕ) : ℚ := if n = 1 then 9 else if n = 2 then 3 else 0

/-- An instance meets what is asked of it. -/
example : PtInstance 5 ptLine (fun _ => 1) (some 2) none {} (sweptOrder ptLine) [1, 2, 3, 4] bruteOpt (fun _ => .ok []) where
  two := by decide
  sym := fun i j => abs_sub_comm _ _
  nodes := by decide
  dem := fun _ => by norm_num
  tsp := sweptOrder_ok _
  ser := by
    have key : ∀ n ∈ List.range 5, exceeds (some 2) C_EPS (demand (fun _ => 1) [n]) = false ∧
        exceeds none S_EPS (cost ptLine (wrap [n])) = false := by decide +kernel
    intro n h1 h2
    rw [RouteOk, ← exceeds_iff, ← exceeds_iff]
    exact key n (List.mem_range.2 h2)
  opt := bruteOpt_right
  gen := fun _ us _ => ⟨[], rfl, by simp⟩
  tri := fun _ i j k => abs_sub_le _ _ _

example : petal_init 20 20 5 ptLine (fun _ => 1) (some 2) none {} (sweptOrder ptLine) [1, 2, 3, 4] bruteOpt bruteOpt
    (fun _ => .ok []) (fun _ => none) = .ok (some (.ret (some [0, 1, 2, 0, 3, 4, 0]))) := by
  decide +kernel

/-- Customer 3 is served three times, customer 1 twice. -/
example : remove_multiserved 5 ptLine ([[1, 3, 4], [3], [1, 2], [2, 3]].map wrap) =
    .ok ([[1, 3, 4], [], [2], []].map wrap, true) := by
  decide +kernel

/-- One customer who fills a vehicle. -/
def ptOne (opt rlx : MipSolver) : PtArgs :=
  { N := 2, D := ptLine, K := none, minimize_K := true, relaxe := true, required := none, min_iterations := none
    restricted := [⟨[1], [0, 1, 0], 2⟩], reduced := [], extended := []
    opt := opt, rlx := rlx, gen := fun _ => .ok [], signal := fun _ => none }

theorem ptOne_active (opt rlx : MipSolver) (k : ℕ) : ptActive (ptOne opt rlx) k = [⟨[1], [0, 1, 0], 2⟩] := by
  unfold ptActive ptOne
  split_ifs <;> rfl

/-- The programme once the only choice is forbidden. -/
theorem ptOne_unsat (K : Option ℕ) (X : List Bool) : ¬ (ptModel 2 [⟨[1], [0, 1, 0], 2⟩] [] [[0]] K).Sat X := by
  intro h
  have hl := h.vars
  have h1 := h.c1 1 (le_refl _) (by simp [ptModel])
  have h2 := h.c2 [0] (by simp [ptModel, ptForbidden])
  match X, hl with
  | [b], _ =>
    cases b
    · revert h1
      simp [ptModel]
    · revert h2
      simp

theorem ptOne_solve {opt rlx : MipSolver} (ho : SolverRight opt)
    (hr : ∀ t M, opt t M ≠ .timeLimit ∧ opt t M ≠ .interrupted) (K : Option ℕ) (t k : ℕ) :
    solve_set_covering opt rlx t 2 (ptActive (ptOne opt rlx) k) [] [[0]] false K = .ok [] false := by
  rw [ptOne_active]
  unfold solve_set_covering
  have h1 := ho t (ptModel 2 [⟨[1], [0, 1, 0], 2⟩] [] [[0]] K)
  have h2 := hr t (ptModel 2 [⟨[1], [0, 1, 0], 2⟩] [] [[0]] K)
  cases h : opt t (ptModel 2 [⟨[1], [0, 1, 0], 2⟩] [] [[0]] K) with
  | optimal X => rw [h] at h1; exact absurd h1.1 (ptOne_unsat K X)
  | infeasible => rfl
  | timeLimit => exact absurd h h2.1
  | interrupted => exact absurd h h2.2
  | other => rfl

/-- The loop comes back to such a state for ever. -/
structure PtStuck (s : PtState) : Prop where
  set : s.ptl_set = 1
  relaxed : s.relaxed = []
  forb : s.forbidden = [[0]]
  allow : s.allow_infeasible = false
  K : ptTrue s.K_constraint = true

theorem ptOne_stuck {opt rlx : MipSolver} (ho : SolverRight opt)
    (hr : ∀ t M, opt t M ≠ .timeLimit ∧ opt t M ≠ .interrupted) {s : PtState} (hs : PtStuck s) :
    ∃ s', ptIter (ptOne opt rlx) s = .ok (.inl s') ∧ PtStuck s' := by
  obtain ⟨h1, h2, h3, h4, h5⟩ := hs
  have hst : ∀ k c, ptStage (ptOne opt rlx) s k c =
      { c with ptl_set := k, seen := c.seen ++ (ptOwn (ptOne opt rlx) k).map Petal.route, calls := c.calls + 1
               routes_with_idxs := [], feasible := false } := by
    intro k c
    unfold ptStage
    simp only
    rw [h2, h3, h4]
    have := ptOne_solve ho hr s.K_constraint (c.calls + 1) k (rlx := rlx)
    rw [show (ptOne opt rlx).opt = opt from rfl, show (ptOne opt rlx).rlx = rlx from rfl,
      show (ptOne opt rlx).N = 2 from rfl, this]
  obtain ⟨c, hc, e1, e2, e3⟩ : ∃ c, ptCover (ptOne opt rlx) s = c ∧ c.stop = none ∧ c.routes_with_idxs = [] ∧
      c.ptl_set = 3 := by
    refine ⟨_, rfl, ?_⟩
    unfold ptCover
    simp only [hst, h1]
    simp [ptOne]
  unfold ptIter ptAfter
  simp only [hc, e1, e2, e3]
  refine ⟨{ s with ptl_set := 1, K_constraint := s.K_constraint.map (· + 1), seen := c.seen, calls := c.calls
                   iteration := s.iteration + 1, max_used := max s.max_used 3 }, ?_, ?_⟩
  · simp [ptOne, ptMissing, ptNone, h5]
  · refine ⟨rfl, h2, h3, h4, ?_⟩
    revert h5
    cases hK : s.K_constraint <;> simp [ptTrue]

/-- **C55** fails with `minimize_K`: with one customer who fills a vehicle the algorithm never ends, whatever solver is used
(if it is not interrupted and does not run out of time). Once the only choice of petals was made it is forbidden, and
as no other choice exists the number of vehicles is raised for ever. -/
theorem C55_endless_false {opt : MipSolver} (rlx : MipSolver) (ho : SolverRight opt)
    (hr : ∀ t M, opt t M ≠ .timeLimit ∧ opt t M ≠ .interrupted) (fuel : ℕ) :
    petal_init 10 fuel 2 ptLine (fun n => if n = 1 then 1 else 0) (some 1) none { minimize_K := true } (sweptOrder ptLine)
      [1] opt rlx (fun _ => .ok []) (fun _ => none) = .ok none := by
  have hg : ptGenerate 10 ptLine (fun n => if n = 1 then 1 else 0) (some 1) none (sweptOrder ptLine) [1] (some (3 / 4))
      (ptC_t 2 (fun n => if n = 1 then 1 else 0) (some 1) none) (List.range (2 - 1)) ⟨[], [], []⟩ =
      .ok (some ⟨[⟨[1], [0, 1, 0], 2⟩], [], []⟩) := by decide +kernel
  have hK : ptK 2 (fun n => if n = 1 then 1 else 0) (some 1) none true = some 2 := by decide +kernel
  unfold petal_init
  rw [if_neg (by decide)]
  simp only
  rw [hg, hK]
  simp only
  change ptLoop (ptOne opt rlx) fuel (ptStart (ptOne opt rlx) true (some 2)) = .ok none
  have key : ∀ (fuel : ℕ) {s : PtState}, PtStuck s → ptLoop (ptOne opt rlx) fuel s = .ok none := by
    intro fuel
    induction fuel with
    | zero => exact fun _ => rfl
    | succ fuel ih =>
      intro s hs
      obtain ⟨s', h1, h2⟩ := ptOne_stuck (rlx := rlx) ho hr hs
      unfold ptLoop
      rw [h1]
      exact ih h2
  cases fuel with
  | zero => rfl
  | succ fuel =>
    have hfirst : ∃ s', ptIter (ptOne opt rlx) (ptStart (ptOne opt rlx) true (some 2)) = .ok (.inl s') ∧ PtStuck s' := by
      have h1 := ho 1 (ptModel 2 [⟨[1], [0, 1, 0], 2⟩] [] [] (some 2))
      have h2 := hr 1 (ptModel 2 [⟨[1], [0, 1, 0], 2⟩] [] [] (some 2))
      have hsat : (ptModel 2 [⟨[1], [0, 1, 0], 2⟩] [] [] (some 2)).Sat [true] := satB_iff.1 (by decide +kernel)
      have hX : ∀ X, (ptModel 2 [⟨[1], [0, 1, 0], 2⟩] [] [] (some 2)).Sat X → X = [true] := by
        intro X h
        have hl := h.vars
        have h1 := h.c1 1 (le_refl _) (by simp [ptModel])
        match X, hl with
        | [b], _ =>
          cases b
          · revert h1
            simp [ptModel]
          · rfl
      have hopt : opt 1 (ptModel 2 [⟨[1], [0, 1, 0], 2⟩] [] [] (some 2)) = .optimal [true] := by
        cases h : opt 1 (ptModel 2 [⟨[1], [0, 1, 0], 2⟩] [] [] (some 2)) with
        | optimal X => rw [h] at h1; rw [hX X h1.1]
        | infeasible => rw [h] at h1; exact absurd hsat (h1 _)
        | timeLimit => exact absurd h h2.1
        | interrupted => exact absurd h h2.2
        | other => rw [h] at h1; exact h1.elim
      have hc : ptCover (ptOne opt rlx) (ptStart (ptOne opt rlx) true (some 2)) =
          { ptl_set := 1, routes_with_idxs := [([0, 1, 0], 0)], feasible := true, seen := [[0, 1, 0]], calls := 1
            stop := none } := by
        have h1 : ptStage (ptOne opt rlx) (ptStart (ptOne opt rlx) true (some 2)) 1
            { ptl_set := 1, routes_with_idxs := [], feasible := false, seen := [], calls := 0, stop := none } =
            { ptl_set := 1, routes_with_idxs := [([0, 1, 0], 0)], feasible := true, seen := [[0, 1, 0]], calls := 1
              stop := none } := by
          unfold ptStage solve_set_covering
          simp only [ptOne_active, Nat.zero_add]
          simp only [ptOne, ptStart, hopt]
          rfl
        unfold ptCover
        simp only [show (ptStart (ptOne opt rlx) true (some 2)).ptl_set = 1 from rfl,
          show (ptOne opt rlx).restricted = [⟨[1], [0, 1, 0], 2⟩] from rfl,
          show (ptStart (ptOne opt rlx) true (some 2)).seen = [] from rfl,
          show (ptStart (ptOne opt rlx) true (some 2)).calls = 0 from rfl]
        rw [if_pos (show True ∧ [(⟨[1], [0, 1, 0], 2⟩ : Petal)] ≠ [] from ⟨trivial, by simp⟩)]
        simp only [h1]
        simp [ptOne, ptTrue]
      unfold ptIter ptAfter
      simp only [hc]
      refine ⟨_, rfl, ⟨rfl, rfl, rfl, rfl, rfl⟩⟩
    obtain ⟨s', h1, h2⟩ := hfirst
    unfold ptLoop
    rw [h1]
    exact key fuel h2

/-- **C55** fails if one iteration is asked for (the `single` mode of the command line): customer 1 asks for 9 and customer 2
for 3 of 10. Only the route of customer 1 is a restricted petal, so the programme has no solution; the relaxed programme,
where as few constraints as possible are broken, has the answer `[true]`, and the algorithm returns the
route of customer 1 alone though each customer can be served. -/
theorem C55_single_false : Serviceable 3 ptLine ptD2 (some 10) none ∧
    petal_init 20 20 3 ptLine ptD2 (some 10) none { required := some 1, relaxe := false } (sweptOrder ptLine) [1, 2]
      bruteOpt (fun _ _ => .optimal [true]) (fun _ => .ok []) (fun _ => none) = .ok (some (.ret (some [0, 1, 0]))) ∧
    ¬ Covers 3 [0, 1, 0] := by
  refine ⟨?_, by decide +kernel, by unfold Covers; decide⟩
  have key : ∀ n ∈ List.range 3, exceeds (some 10) C_EPS (demand ptD2 [n]) = false ∧
      exceeds none S_EPS (cost ptLine (wrap [n])) = false := by decide +kernel
  intro n h1 h2
  rw [RouteOk, ← exceeds_iff, ← exceeds_iff]
  exact key n (List.mem_range.2 h2)

/-- **C55** fails for a solver that runs out of time: the solution that was found by the first call is lost, the caller
gets the error of the solver alone. -/
theorem C55_timeout_false : ∃ opt : MipSolver, SolverRight opt ∧
    (∃ X, opt 1 (ptModel 2 [⟨[1], [0, 1, 0], 2⟩] [] [] none) = .optimal X) ∧
    petal_init 10 10 2 ptLine (fun n => if n = 1 then 1 else 0) (some 1) none {} (sweptOrder ptLine) [1] opt bruteOpt
      (fun _ => .ok []) (fun _ => none) = .ok (some .gurobiError) := by
  refine ⟨fun t M => if t ≤ 1 then bruteOpt t M else .timeLimit, ?_, ⟨[true], by decide +kernel⟩, by decide +kernel⟩
  intro t M
  by_cases h : t ≤ 1
  · simp only [if_pos h]
    exact bruteOpt_right t M
  · simp only [if_neg h]

/-- **C55** fails for the interrupt of the solver in the set of all petals: it is not passed on, the algorithm returns as if
its search was done. -/
theorem C55_interrupt_false : ∃ opt : MipSolver, SolverRight opt ∧ (∀ t M, 4 ≤ t → opt t M = .interrupted) ∧
    (∀ t M, t < 4 → opt t M = bruteOpt t M) ∧
    petal_init 10 10 2 ptLine (fun n => if n = 1 then 1 else 0) (some 1) none {} (sweptOrder ptLine) [1] opt bruteOpt
      (fun _ => .ok []) (fun _ => none) = .ok (some (.ret (some [0, 1, 0]))) ∧
    petal_init 10 10 2 ptLine (fun n => if n = 1 then 1 else 0) (some 1) none {} (sweptOrder ptLine) [1]
      (fun t M => if t < 3 then bruteOpt t M else .interrupted) bruteOpt
      (fun _ => .ok []) (fun _ => none) = .ok (some (.interrupt (some [0, 1, 0]))) := by
  refine ⟨fun t M => if t < 4 then bruteOpt t M else .interrupted, ?_, ?_, ?_, by decide +kernel, by decide +kernel⟩
  · intro t M
    by_cases h : t < 4
    · simp only [if_pos h]
      exact bruteOpt_right t M
    · simp only [if_neg h]
  · intro t M h
    exact if_neg (by omega)
  · intro t M h
    exact if_pos h

/-- The demands of seven customers; two of them ask for little. -/
def ptD7 (n : ℕ) : ℚ := if n = 0 then 0 else if n ≤ 5 then 4 / 3 else 1 / 12

/-- The seven customers on a line; the two who ask for little live far away. -/
def ptX7 (n : ℕ) : ℚ := if n = 0 then 0 else if n = 1 then -1 else if n ≤ 5 then 1 else 10

/-- Their distances. -/
def ptL7 (i j : ℕ) : ℚ := |ptX7 i - ptX7 j|

/-- **C55** fails for an interrupt if one vehicle is asked for: with `K=1` all the petals are tried after the full ones whatever the
full ones gave (the length that is compared with `K` is that of a pair, which is 2), and the interrupt of the second run stores the
answer of the first one although it is not feasible and was not repaired. The solution that is handed over serves customer 3
twice and leaves out the customers 6 and 7, although each customer fits into a vehicle and both solvers answer as they should. -/
theorem C55_vehicle_false : ∃ opt rlx : MipSolver, SolverRight opt ∧ RelaxRight rlx ∧
    Serviceable 8 ptL7 ptD7 (some 4) none ∧ (∀ i j k, ptL7 i k ≤ ptL7 i j + ptL7 j k) ∧
    petal_init 20 40 8 ptL7 ptD7 (some 4) none { K := some 1 } (sweptOrder ptL7) [1, 2, 3, 4, 5, 6, 7] opt rlx
      (fun _ => .ok []) (fun _ => none) = .ok (some (.interrupt (some [0, 1, 2, 3, 0, 3, 4, 5, 0]))) := by
  refine ⟨fun t M => if t < 5 then kOpt t M else .interrupted, kRlx, ?_, kRlx_right, ?_, fun i j k => abs_sub_le _ _ _, by decide +kernel⟩
  · intro t M
    by_cases h : t < 5
    · simp only [if_pos h]
      exact kOpt_right t M
    · simp only [if_neg h]
  · have key : ∀ n ∈ List.range 8, exceeds (some 4) C_EPS (demand ptD7 [n]) = false ∧
        exceeds none S_EPS (cost ptL7 (wrap [n])) = false := by decide +kernel
    intro n h1 h2
    rw [RouteOk, ← exceeds_iff, ← exceeds_iff]
    exact key n (List.mem_range.2 h2)

end Verif
