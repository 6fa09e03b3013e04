import Verif.Lemmas.PetalRelaxAll
import Verif.Props.Petal

/-! # C57: the relaxed petals of the petal algorithm -/

namespace Verif
open Spec

theorem rx_fuel {N : ℕ} {D : ℕ → ℕ → ℚ} {d : ℕ → ℚ} {C L : Option ℚ} {us : List (List ℕ)}
    (h : PartSol N D d C L us) : ∀ u ∈ us, 2 ^ u.length ≤ 2 ^ N := by
  intro u hu
  refine Nat.pow_le_pow_right (by omega) ?_
  have hn : u.Nodup := (List.nodup_flatten.1 h.nodup).1 u hu
  have : u ⊆ List.range N := fun n hn => List.mem_range.2 (h.range u hu n hn).2
  simpa using (hn.subperm this).length_le

theorem mem_infix_flatten {α : Type} {g : List α} : ∀ {gs : List (List α)}, g ∈ gs → g <:+: gs.flatten
  | a :: gs, h => by
    rw [List.flatten_cons]
    rcases List.mem_cons.1 h with rfl | h
    · exact (List.prefix_append _ _).isInfix
    · exact (mem_infix_flatten h).trans (List.suffix_append _ _).isInfix

theorem longest_any (us : List (List ℕ)) (x : ℕ) :
    (x : ℤ) < (((us.map wrap).map List.length).foldr max 0 : ℕ) - 2 ↔ (us.any fun u => decide (x < u.length)) = true := by
  induction us with
  | nil => simp
  | cons u us ih =>
    have hl : (wrap u).length = u.length + 2 := by simp [wrap]
    simp only [List.map_cons, List.foldr_cons, List.any_cons, Bool.or_eq_true, decide_eq_true_eq, ← ih, hl]
    omega

theorem discardMost_eq (c : Discard) (us : List (List ℕ)) : discardMost c (us.map wrap) = discardLimit c us := by
  cases c with
  | most k => rfl
  | no => rfl
  | yes => rfl
  | auto =>
    have h1 := longest_any us 10
    have h2 := longest_any us 20
    have h3 := longest_any us 30
    have h4 := longest_any us 50
    unfold discardMost discardLimit
    simp only [List.foldl_cons, List.foldl_nil, ← h1, ← h2, ← h3, ← h4]
    push_cast
    rfl

/-- **C57** (partial), what is handed out: from routes that serve no customer twice within the limits, the generator hands out
groups of routes. The routes of a group can take the place of some of the given routes: together with those that are kept
the same customers are served, each of the routes is within the limits and the records tell the truth, and all the routes
together cost less than before. The route that got a customer lost no more than the limit allows, or a single one. Nothing
is raised and the search always ends. Missing: if the visit of the moved customer
costs exactly the same on both routes, the group may cost more, see `C57_even_false`. -/
theorem C57_groups_partial {N : ℕ} {D : ℕ → ℕ → ℚ} {d : ℕ → ℚ} {C L : Option ℚ} {us : List (List ℕ)} (hT : Triangle D)
    (hD : D 0 0 = 0) (hd : ∀ n, 0 ≤ d n) (hd0 : d 0 = 0) (hu : PartSol N D d C L us) (c : Discard) :
    ∃ gs : List (List RouteData), relaxed_petals N c D C d L (us.map wrap) = .ok gs.flatten ∧
      ∀ g ∈ gs, RelaxGroup D d C L (discardLimit c us) us g := by
  obtain ⟨gs, ⟨g1, g2⟩, -⟩ := relaxation_spec ⟨hu, hd, hd0, hD, hT⟩ (discardMost c (us.map wrap)) (rx_fuel hu)
  rw [discardMost_eq] at g2
  refine ⟨gs, ?_, g2⟩
  unfold relaxed_petals
  rw [g1]

/-- **C57**, no improvement within the limits is left out: if a customer moved to the first of its cheapest places on another
route keeps that route within the limits and all the routes cost less (by more than the tolerance), both of the routes
after the move are handed out, one after the other. -/
theorem C57_found {N : ℕ} {D : ℕ → ℕ → ℚ} {d : ℕ → ℚ} {C L : Option ℚ} {us : List (List ℕ)} (hT : Triangle D)
    (hD : D 0 0 = 0) (hd : ∀ n, 0 ≤ d n) (hd0 : d 0 = 0) (hu : PartSol N D d C L us) (c : Discard) {i j : ℕ}
    {A : List ℕ} {m : ℕ} {B P Q : List ℕ} (hi : us[i]? = some (A ++ m :: B)) (hj : us[j]? = some (P ++ Q)) (hij : i ≠ j)
    (hbest : CheapestPlace D m P Q) (hok : RouteOk D d C L (P ++ m :: Q))
    (hgain : cost D (wrap (A ++ B)) + cost D (wrap (P ++ m :: Q)) + S_EPS <
      cost D (wrap (A ++ m :: B)) + cost D (wrap (P ++ Q))) :
    ∃ rds rd1 rd2, relaxed_petals N c D C d L (us.map wrap) = .ok rds ∧ [rd1, rd2] <:+: rds ∧
      rd1.route = wrap (A ++ B) ∧ rd1.cost = cost D (wrap (A ++ B)) ∧
      rd2.route = wrap (P ++ m :: Q) ∧ rd2.cost = cost D (wrap (P ++ m :: Q)) := by
  obtain ⟨gs, ⟨g1, g2⟩, g3⟩ := relaxation_spec ⟨hu, hd, hd0, hD, hT⟩ (discardMost c (us.map wrap)) (rx_fuel hu)
  have hmem := g3 i j A m B P Q hi hj hij ⟨hbest, hok, hgain⟩
  refine ⟨gs.flatten, _, _, ?_, mem_infix_flatten hmem, rfl, rdOf_cost D d _, rfl, rdOf_cost D d _⟩
  unfold relaxed_petals
  rw [g1]

/-- **C57**, no way to make room is left out: if a customer moved to another route would save something but for the limits,
and customers `ns` of that route (few enough) are discarded such that with them, but not with fewer from the front of
the list, the customer fits in, and the redistribution of these customers among the routes with room for one of them,
the route the customer left and a new route succeeds within what is saved, then the routes are handed out. -/
theorem C57_discard {N : ℕ} {D : ℕ → ℕ → ℚ} {d : ℕ → ℚ} {C L : Option ℚ} {us : List (List ℕ)} (hT : Triangle D)
    (hD : D 0 0 = 0) (hd : ∀ n, 0 ≤ d n) (hd0 : d 0 = 0) (hu : PartSol N D d C L us) (c : Discard) {i j : ℕ}
    {A : List ℕ} {m : ℕ} {B w : List ℕ} (hi : us[i]? = some (A ++ m :: B)) (hj : us[j]? = some w) (hij : i ≠ j)
    {v₀ : List ℕ} (hv₀ : Swapped D m w [] v₀) (hgain : visitCost D m v₀ + S_EPS < visitCost D m (A ++ m :: B))
    {ns v : List ℕ} (hne : ns ≠ []) (hns : ns.Sublist w) (hmay : MayDiscard (discardLimit c us) ns.length)
    (hfew : ∀ ns', ns' <+: ns → ns' ≠ ns → ∀ v', Swapped D m w ns' v' → ¬ RouteOk D d C L v')
    (hv : Swapped D m w ns v) (hok : RouteOk D d C L v)
    (hb : visitCost D m v ≤ visitCost D m (A ++ m :: B) + S_EPS)
    {rd : RouteData} {rds : List RouteData} {x : ℚ}
    (hmove : do_redistribute_move (.of_route D (some d) (wrap ns))
      (((others us i j).filter (roomFor C d w) ++ [A ++ B, []]).map fun u => .of_route D (some d) (wrap u))
      D (some d) C L .BEST_ACCEPT (some (visitCost D m (A ++ m :: B) - visitCost D m v)) 0 = .ok (some (rd :: rds, x))) :
    ∃ out rd2, relaxed_petals N c D C d L (us.map wrap) = .ok out ∧ (rd2 :: rds) <:+: out ∧
      rd2.route = wrap v ∧ rd2.cost = cost D (wrap v) := by
  have hyp : RxHyp N D d C L us := ⟨hu, hd, hd0, hD, hT⟩
  rw [← discardMost_eq] at hmay
  obtain ⟨gs, ⟨g1, g2⟩, -⟩ := relaxation_spec hyp (discardMost c (us.map wrap)) (rx_fuel hu)
  have := discard_found hyp g1 hi hj hij hv₀ hgain hne hns hmay hfew hv hok rfl (by linarith) hmove
  refine ⟨gs.flatten, rdOf D d v, ?_, this, rfl, rdOf_cost D d v⟩
  unfold relaxed_petals
  rw [g1]

/-- **C57**, the petals: each route handed out serves customers at most once within the limits and is recorded with its
true cost, as the petal algorithm asks for. -/
theorem C57_petals {N : ℕ} {D : ℕ → ℕ → ℚ} {d : ℕ → ℚ} {C L : Option ℚ} (hT : Triangle D) (hD : D 0 0 = 0)
    (hd : ∀ n, 0 ≤ d n) (hd0 : d 0 = 0) (c : Discard) : GenRight N D d C L (relaxed_petals N c D C d L) := by
  intro us hu
  obtain ⟨gs, g1, g2⟩ := C57_groups_partial hT hD hd hd0 hu c
  refine ⟨gs.flatten, g1, ?_⟩
  intro rd hrd
  obtain ⟨g, hg, hrd⟩ := List.mem_flatten.1 hrd
  obtain ⟨kept, vs, h1, h2, h3, h4, h5, -⟩ := g2 g hg
  have hm : rd.route ∈ vs.map wrap := by
    rw [← h2]
    exact List.mem_map_of_mem (f := (·.route)) hrd
  obtain ⟨v, hv, hvr⟩ := List.mem_map.1 hm
  have hsub : v.Sublist (kept ++ vs).flatten :=
    List.sublist_flatten_of_mem (List.mem_append_right _ hv)
  refine ⟨v, hvr.symm, ?_, ?_, ?_, h5 v hv⟩
  · rw [hvr]
    exact (h3 rd hrd).1
  · exact hsub.nodup ((h4.nodup_iff).2 hu.nodup)
  · intro n hn
    obtain ⟨u, hu1, hu2⟩ := List.mem_flatten.1 (h4.mem_iff.1 (hsub.subset hn))
    exact hu.range u hu1 n hu2

/-- **C57** (partial), the algorithm with these petals: the answers of `C55_answer_partial`, for distances with the triangle
inequality, with no assumption on the relaxed petals. -/
theorem C57_answer_partial {N : ℕ} {D : ℕ → ℕ → ℚ} {d : ℕ → ℚ} {C L : Option ℚ} {o : PtOpts} {tsp : Router} {nodes : List ℕ}
    {opt : MipSolver} (hN : 2 ≤ N) (hS : Symm D) (hT : Triangle D) (hD : D 0 0 = 0) (hd : ∀ n, 0 ≤ d n) (hd0 : d 0 = 0)
    (hnodes : nodes.Perm (List.range' 1 (N - 1))) (htsp : TspRoutine D tsp) (hser : Serviceable N D d C L)
    (hopt : SolverRight opt) (c : Discard) (rlx : MipSolver) (signal : ℕ → Option Bool) :
    ∃ F, ∀ sweeps ≥ F, ∀ fuel, ∃ x,
      petal_init sweeps fuel N D d C L o tsp nodes opt rlx (relaxed_petals N c D C d L) signal = .ok x ∧
      (x = some .gurobiError → ∃ t M, opt t M = .timeLimit ∨ rlx t M = .timeLimit) ∧
      (∀ b, x = some (.ret b) → o.required = none → (∀ t M, opt t M ≠ .interrupted ∧ rlx t M ≠ .interrupted) →
        ∃ sol, b = some sol ∧ Served N D d C L sol ∧ (o.allow_infeasible = false → Solves N D d C L sol)) ∧
      (∀ sol, x = some (.ret (some sol)) → PartlyServed N D d C L sol) ∧
      (∀ sol, x = some (.interrupt (some sol)) → o.K.getD 0 ≠ 1 → PartlyServed N D d C L sol) :=
  C55_answer_partial (.mk hN hS hnodes hd htsp hser hopt (fun _ => C57_petals hT hD hd hd0 c) (fun _ => hT)) rlx signal

/-! ## Witnesses -/

/-- Places on a grid, the depot is at the origin. -/
def rxPlace (n : ℕ) : ℚ × ℚ := [(0, 0), (2, -1), (1, 2), (-1, -2), (2, -2)].getD n (0, 0)

/-- Distances along the grid. -/
def rxD (i j : ℕ) : ℚ := |(rxPlace i).1 - (rxPlace j).1| + |(rxPlace i).2 - (rxPlace j).2|

/-- Unit demands. -/
def rxd (n : ℕ) : ℚ := if n = 0 then 0 else 1

theorem rxD_tri : Triangle rxD := by
  intro i j k
  have h1 := abs_sub_le (rxPlace i).1 (rxPlace j).1 (rxPlace k).1
  have h2 := abs_sub_le (rxPlace i).2 (rxPlace j).2 (rxPlace k).2
  unfold rxD
  linarith

theorem rxd_nonneg : ∀ n, 0 ≤ rxd n := by
  intro n
  unfold rxd
  split_ifs <;> norm_num

theorem rx_part : PartSol 5 rxD rxd (some 2) none [[1, 2], [3, 4]] := by
  refine .mk (by decide) (by decide) ?_
  intro u hu
  have hu : u = [1, 2] ∨ u = [3, 4] := by simpa using hu
  refine ⟨?_, fun c hc => by simp at hc⟩
  intro c hc h0
  injection hc with hc
  subst hc
  rcases hu with rfl | rfl <;> decide +kernel

example : ∃ gs : List (List RouteData), relaxed_petals 5 .yes rxD (some 2) rxd none ([[1, 2], [3, 4]].map wrap) =
    .ok gs.flatten ∧ ∀ g ∈ gs, RelaxGroup rxD rxd (some 2) none none [[1, 2], [3, 4]] g :=
  C57_groups_partial rxD_tri (by decide +kernel) rxd_nonneg rfl rx_part .yes

theorem cheapest_of_places {D : ℕ → ℕ → ℚ} {m : ℕ} {P Q : List ℕ}
    (h : ∀ k ∈ List.range ((P ++ Q).length + 1),
      cost D (wrap (P ++ m :: Q)) ≤ cost D (wrap ((P ++ Q).take k ++ m :: (P ++ Q).drop k)) ∧
      (k < P.length → cost D (wrap (P ++ m :: Q)) < cost D (wrap ((P ++ Q).take k ++ m :: (P ++ Q).drop k)))) :
    CheapestPlace D m P Q := by
  intro P' Q' he
  have := h P'.length (by rw [← he]; simp; omega)
  rw [← he] at this
  simpa using this

theorem rx_part3 : PartSol 5 rxD rxd (some 3) none [[1, 2], [3, 4]] :=
  .mk (by decide) (by decide) fun u hu =>
    ⟨within_mono (fun c hc h0 => by
        have := (rx_part.ok u hu).1 2 rfl (by norm_num)
        injection hc with hc
        rw [← hc]
        have h2 : demand rxd u ≤ 2 + C_EPS := this
        have : demand rxd u ≤ 3 + C_EPS := by linarith
        exact this) (le_refl _), fun c hc => by simp at hc⟩

/-- With a capacity of 3, customer 4 is moved to the other route. -/
example : ∃ rds rd1 rd2, relaxed_petals 5 .no rxD (some 3) rxd none ([[1, 2], [3, 4]].map wrap) = .ok rds ∧
    [rd1, rd2] <:+: rds ∧ rd1.route = wrap [3] ∧ rd1.cost = cost rxD (wrap [3]) ∧
    rd2.route = wrap [4, 1, 2] ∧ rd2.cost = cost rxD (wrap [4, 1, 2]) :=
  C57_found (i := 1) (j := 0) (A := [3]) (m := 4) (B := []) (P := []) (Q := [1, 2]) rxD_tri (by decide +kernel) rxd_nonneg
    rfl rx_part3 .no rfl rfl (by decide) (cheapest_of_places (by decide +kernel))
    ⟨fun c hc _ => by injection hc with hc; subst hc; decide +kernel, fun c hc => by simp at hc⟩ (by decide +kernel)

theorem rx_part2 : PartSol 5 rxD rxd (some 2) none [[1, 3], [4, 2]] := by
  refine .mk (by decide) (by decide) ?_
  intro u hu
  have hu : u = [1, 3] ∨ u = [4, 2] := by simpa using hu
  refine ⟨?_, fun c hc => by simp at hc⟩
  intro c hc h0
  injection hc with hc
  subst hc
  rcases hu with rfl | rfl <;> decide +kernel

theorem rx_place1 : CheapestPlace rxD 1 [] [4, 2] := cheapest_of_places (by decide +kernel)
theorem rx_place2 : CheapestPlace rxD 1 [] [2] := cheapest_of_places (by decide +kernel)

/-- Customer 1 is moved to the other route, customer 4 has to make room and comes to where customer 1 was. -/
example : ∃ out rd2, relaxed_petals 5 .no rxD (some 2) rxd none ([[1, 3], [4, 2]].map wrap) = .ok out ∧
    (rd2 :: [⟨[0, 4, 3, 0], 10, some 2⟩, ⟨[0, 0], 0, some 0⟩]) <:+: out ∧ rd2.route = wrap [1, 2] ∧
    rd2.cost = cost rxD (wrap [1, 2]) :=
  C57_discard (i := 0) (j := 1) (A := []) (m := 1) (B := [3]) (w := [4, 2]) (v₀ := [1, 4, 2]) (ns := [4]) (v := [1, 2])
    (rd := ⟨[0, 0], 0, some 0⟩) (x := 4) rxD_tri (by decide +kernel) rxd_nonneg
    rfl rx_part2 .no rfl rfl (by decide) ⟨[], [4, 2], by decide, rfl, rx_place1⟩ (by decide +kernel) (by decide) (by decide)
    (by intro k hk _; injection hk with hk; subst hk; decide)
    (by
      intro ns' h1 h2 v' hv' hok
      have : ns' = [] := by
        rcases ns' with _ | ⟨a, t⟩
        · rfl
        · have hl := h1.length_le
          have hl2 : (a :: t).length = [4].length := by simp at hl ⊢; exact hl
          exact absurd (h1.eq_of_length hl2) h2
      subst this
      obtain ⟨P, Q, e1, rfl, e3⟩ := hv'
      obtain ⟨rfl, rfl⟩ := cheapest_unique rx_place1 e3 (by rw [e1]; decide)
      have := hok.1 2 rfl (by norm_num)
      revert this
      decide +kernel)
    ⟨[], [2], by decide, rfl, rx_place2⟩
    ⟨fun c hc _ => by injection hc with hc; subst hc; decide +kernel, fun c hc => by simp at hc⟩ (by decide +kernel)
    (by decide +kernel)

/-- **C57**, the documentation says that "the total effect of all the relocations must be a reduction in the mileage". On
this instance the routes handed out cost 22, those they take the place of 20: the visit of customer 1 costs the same on
both routes, so that nothing is left to be spent, and a limit of zero is taken for none. -/
theorem C57_even_false : ∃ (N : ℕ) (D : ℕ → ℕ → ℚ) (d : ℕ → ℚ) (C L : Option ℚ) (us vs : List (List ℕ)) (rds : List RouteData),
    Triangle D ∧ D 0 0 = 0 ∧ (∀ n, 0 ≤ d n) ∧ d 0 = 0 ∧ PartSol N D d C L us ∧
      relaxed_petals N .yes D C d L (us.map wrap) = .ok rds ∧ rds.map (·.route) = vs.map wrap ∧
      vs.flatten.Perm us.flatten ∧ cost D (tour us) < cost D (tour vs) :=
  ⟨5, rxD, rxd, some 2, none, [[1, 2], [3, 4]], [[1, 3], [4, 2], []],
    [⟨[0, 1, 3, 0], 10, some 2⟩, ⟨[0, 4, 2, 0], 12, some 2⟩, ⟨[0, 0], 0, some 0⟩],
    rxD_tri, by decide +kernel, rxd_nonneg, rfl, rx_part, by decide +kernel, by decide +kernel, by decide,
    by decide +kernel⟩

/-- **C57**, not all the improvements with a discarded customer are found: the saving from the removal of the discarded
customer is left out of account. Customer 1 comes to the front of the other route, customer 2 makes room and gets a route
of its own, the routes cost 20 instead of 22, but the new route is not handed out. -/
theorem C57_missed_false : ∃ (N : ℕ) (D : ℕ → ℕ → ℚ) (d : ℕ → ℚ) (C L : Option ℚ) (rds : List RouteData),
    Triangle D ∧ D 0 0 = 0 ∧ (∀ n, 0 ≤ d n) ∧ d 0 = 0 ∧ PartSol N D d C L [[1, 3], [4, 2]] ∧
      relaxed_petals N .yes D C d L ([[1, 3], [4, 2]].map wrap) = .ok rds ∧ PartSol N D d C L [[3], [1, 4], [2]] ∧
      Swapped D 1 [4, 2] [2] [1, 4] ∧
      cost D (tour [[3], [1, 4], [2]]) + 2 ≤ cost D (tour [[1, 3], [4, 2]]) ∧ ∀ rd ∈ rds, rd.route ≠ wrap [1, 4] :=
  ⟨5, rxD, rxd, some 2, none,
    [⟨[0, 1, 2, 0], 10, some 2⟩, ⟨[0, 4, 3, 0], 10, some 2⟩, ⟨[0, 0], 0, some 0⟩],
    rxD_tri, by decide +kernel, rxd_nonneg, rfl, rx_part2, by decide +kernel,
    .mk (by decide) (by decide) (by
      intro u hu
      have hu : u = [3] ∨ u = [1, 4] ∨ u = [2] := by simpa using hu
      refine ⟨?_, fun c hc => by simp at hc⟩
      intro c hc h0
      injection hc with hc
      subst hc
      rcases hu with rfl | rfl | rfl <;> decide +kernel),
    ⟨[], [4], by decide, rfl, cheapest_of_places (by decide +kernel)⟩, by decide +kernel, by decide +kernel⟩

end Verif
