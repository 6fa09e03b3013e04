import Verif.Model.SweepAngles
import Verif.Lemmas.SavingsVariants
import Verif.Lemmas.SweepRuns
import Verif.Props.Sweep

/-! # The routes of a sweep serve neighbours (C77) -/

namespace Verif

open Spec

/-- C77. With the capacity as the only limit the routes of one sweep, in either direction and from any start, are the longest runs of customers on
the way around the depot that fit into a vehicle, each with the tour that the given routine makes of them. -/
theorem C77_runs_partial {D : ℕ → ℕ → ℚ} {d : ℕ → ℚ} {C L : Option ℚ} (tsp : Router) {nodes : List ℕ} {start : ℕ} (fwd : Bool)
    (hnn : (0 :: nodes).Nodup) (hs : start < nodes.length) (hL : ¬ InUse L) (hser : ∀ n ∈ nodes, Within C C_EPS (d n)) :
    ∃ (gs : List (List ℕ)) (routes : List SwRoute), LongestRuns d C (around fwd nodes start) gs ∧
      (∃ F, ∀ fuel, F ≤ fuel → do_one_sweep fuel D d C L tsp nodes start fwd false = .ok (some routes)) ∧
      routes.map (fun rd => (rd.route, rd.cost)) = gs.map (fun g => tsp (0 :: g)) := by
  rw [List.nodup_cons] at hnn
  have hL' : truthy L = false := by
    cases L with
    | none => rfl
    | some l =>
      by_contra h
      apply hL
      refine ⟨l, rfl, ?_⟩
      simpa [truthy] using h
  obtain ⟨gs, h1, F, h2⟩ := sweep_runs (D := D) (fwd := fwd) (tsp := tsp) hnn.1 hnn.2 hs hL' hser
  exact ⟨gs, _, h1, ⟨F, h2⟩, by rw [List.map_map]; rfl⟩

/-- C77. There is only one way to cut a list to longest runs. -/
theorem C77_unique {d : ℕ → ℚ} {C : Option ℚ} (hd : ∀ n, 0 ≤ d n) : ∀ {gs gs' : List (List ℕ)} {order : List ℕ}, LongestRuns d C order gs →
    LongestRuns d C order gs' → gs = gs'
  | [], [], _, _, _ => rfl
  | [], g' :: gs', order, h, h' => by
    have e1 := h.flat
    have e2 := h'.flat
    rw [← e1] at e2
    simp only [List.flatten_cons, List.flatten_nil, List.append_eq_nil_iff] at e2
    exact absurd (by rw [e2.1]; simp) h'.ne
  | g :: gs, [], order, h, h' => by
    have e1 := h.flat
    have e2 := h'.flat
    rw [← e2] at e1
    simp only [List.flatten_cons, List.flatten_nil, List.append_eq_nil_iff] at e1
    exact absurd (by rw [e1.1]; simp) h.ne
  | g :: gs, g' :: gs', order, h, h' => by
    -- of two first runs none is longer
    have key : ∀ {a b : List ℕ} {as bs : List (List ℕ)}, LongestRuns d C order (a :: as) → LongestRuns d C order (b :: bs) →
        ∀ u, b = a ++ u → u = [] := by
      intro a b as bs ha hb u e
      cases u with
      | nil => rfl
      | cons x u =>
        exfalso
        have e1 := ha.flat
        rw [← hb.flat, e, List.flatten_cons, List.flatten_cons, List.append_assoc, List.append_cancel_left_eq] at e1
        cases as with
        | nil => simp at e1
        | cons c as =>
          cases c with
          | nil => exact ha.ne (by simp)
          | cons y c =>
            simp only [List.flatten_cons, List.cons_append, List.cons.injEq] at e1
            obtain ⟨rfl, -⟩ := e1
            apply ha.longest [] as a y c rfl
            intro c' hc hc0
            have h1 := hb.fits b (by simp) c' hc hc0
            have h2 : 0 ≤ demand d u := demand_nonneg hd u
            rw [e, demand_append, demand_cons] at h1
            linarith
    have hg : g = g' := by
      have e : g ++ gs.flatten = g' ++ gs'.flatten := by
        have := h.flat.trans h'.flat.symm
        simpa using this
      rcases List.append_eq_append_iff.1 e with ⟨u, e1, -⟩ | ⟨u, e1, -⟩
      · have := key h h' u e1
        rw [e1, this, List.append_nil]
      · have := key h' h u e1
        rw [e1, this, List.append_nil]
    subst hg
    have e : gs.flatten = gs'.flatten := by
      have := h.flat.trans h'.flat.symm
      simpa using this
    have hr : ∀ {as : List (List ℕ)}, LongestRuns d C order (g :: as) → LongestRuns d C as.flatten as := fun h =>
      ⟨rfl, fun hm => h.ne (by simp [hm]), fun a ha => h.fits a (by simp [ha]), fun l r a x b e => h.longest (g :: l) r a x b (by rw [e]; rfl)⟩
    rw [C77_unique hd (hr h) (by rw [e]; exact hr h')]

theorem sweepSol_runs {D : ℕ → ℕ → ℚ} {routes : List SwRoute} {gs : List (List ℕ)}
    (e : routes.map (fun rd => (rd.route, rd.cost)) = gs.map (fun g => sweptOrder D (0 :: g))) :
    routes.flatMap (fun rd => rd.route.dropLast) ++ [0] = tour gs := by
  induction routes generalizing gs with
  | nil =>
    cases gs with
    | nil => rfl
    | cons g gs => simp at e
  | cons rd rs ih =>
    cases gs with
    | nil => simp at e
    | cons g gs =>
      simp only [List.map_cons, List.cons.injEq, Prod.mk.injEq, sweptOrder] at e
      have hw : (0 :: g ++ [0]).dropLast = 0 :: g := List.dropLast_concat
      rw [List.flatMap_cons, e.1.1, hw, List.append_assoc, ih (by simpa [sweptOrder] using e.2), tour]
      rfl

theorem sweep_hyps {N : ℕ} {d : ℕ → ℚ} {C : Option ℚ} {nodes : List ℕ} (hperm : nodes.Perm (List.range' 1 (N - 1)))
    (hser : ∀ n, 1 ≤ n → n < N → Within C C_EPS (d n)) : (0 :: nodes).Nodup ∧ (∀ n ∈ nodes, Within C C_EPS (d n)) ∧ nodes.length = N - 1 := by
  refine ⟨?_, fun n hn => ?_, by rw [hperm.length_eq, List.length_range']⟩
  · rw [List.nodup_cons]
    refine ⟨fun h => ?_, hperm.nodup_iff.2 ((List.pairwise_lt_range' 1).imp fun h => ne_of_lt h)⟩
    have := hperm.mem_iff.1 h
    rw [List.mem_range'_1] at this
    omega
  · have := hperm.mem_iff.1 hn
    rw [List.mem_range'_1] at this
    exact hser n (by omega) (by omega)

theorem sweepGives_runs {N : ℕ} {D : ℕ → ℕ → ℚ} {d : ℕ → ℚ} {C L : Option ℚ} {nodes : List ℕ} (hd : ∀ n, 0 ≤ d n)
    (hperm : nodes.Perm (List.range' 1 (N - 1))) (hser : ∀ n, 1 ≤ n → n < N → Within C C_EPS (d n)) (hL : ¬ InUse L) {fwd : Bool} {start : ℕ}
    (hs : start < N - 1) {s : List ℕ} (h : SweepGives D d C L (sweptOrder D) nodes fwd start s) {gs : List (List ℕ)}
    (hg : LongestRuns d C (around fwd nodes start) gs) : s = tour gs := by
  obtain ⟨h1, h2, h3⟩ := sweep_hyps hperm hser
  obtain ⟨gs', routes, k1, ⟨F, k2⟩, k3⟩ := C77_runs_partial (D := D) (sweptOrder D) fwd h1 (by omega : start < nodes.length) hL h2
  obtain ⟨routes', ⟨F', k4⟩, rfl⟩ := h
  have e : routes' = routes := by
    have a := k2 (F + F') (by omega)
    rw [k4 (F + F') (by omega)] at a
    simpa using a
  subst e
  rw [C77_unique hd hg k1, sweepSol_runs k3]
  refine (solves_tour (D := D) (d := fun _ => 0) (C := none) (L := none) (N := N) ?_ k1.ne fun g _ => ?_).2.2
  · rw [k1.flat]
    exact (around_perm fwd nodes start).trans hperm
  · exact ⟨fun c hc => by simp at hc, fun c hc => by simp at hc⟩

/-- C77. With the capacity as the only limit the solution of the sweep heuristic, trying all starts in both directions, drives longest runs of
customers in the order of their angles, and no other start or direction gives a better one. -/
theorem C77_best_partial {N : ℕ} {D : ℕ → ℕ → ℚ} {d : ℕ → ℚ} {C L : Option ℚ} {nodes : List ℕ} (m : Bool)
    (hperm : nodes.Perm (List.range' 1 (N - 1))) (hN : 2 ≤ N) (hd : ∀ n, 0 ≤ d n) (hser : ∀ n, 1 ≤ n → n < N → Within C C_EPS (d n))
    (hL : ¬ InUse L) : ∃ sol seen, (∃ F, ∀ fuel, F ≤ fuel → sweep_init fuel N D d C L (sweptOrder D) nodes m .both .best = .ok (some (some sol, seen))) ∧
      (∃ fwd start gs, start < N - 1 ∧ LongestRuns d C (around fwd nodes start) gs ∧ sol = tour gs) ∧
      ∀ fwd start gs, start < N - 1 → LongestRuns d C (around fwd nodes start) gs →
        ¬ Better m (cost D (tour gs), (gs.length : ℚ)) (cost D sol, (sol.count 0 : ℚ) - 1) := by
  obtain ⟨h1, h2, h3⟩ := sweep_hyps hperm hser
  have hser' : Serviceable N D d C L := fun n hn hn' =>
    ⟨by simpa [demand_cons, demand_nil] using hser n hn hn', fun c hc hc0 => absurd ⟨c, hc, hc0⟩ hL⟩
  obtain ⟨l, e1, e2⟩ := (C30_starts hperm hN).2.1
  obtain ⟨sol, seen, cands, k1, -, -, -, k5, k6, k7, -, k9⟩ := C30_init (D := D) (C := C) (L := L) m (dir := .both) hperm hd (sweptOrder_ok D) hser'
    (by simp) e1 (by rw [e2]; intro h; have := congrArg List.length h; simp at this; omega) (by intro s hs; rw [e2] at hs; simpa using hs)
  refine ⟨sol, seen, k1, ?_, ?_⟩
  · obtain ⟨fwd, start, -, b, c⟩ := k6 sol k7
    rw [e2, List.mem_range] at b
    obtain ⟨gs, routes, g1, -⟩ := C77_runs_partial (D := D) (sweptOrder D) fwd h1 (by omega : start < nodes.length) hL h2
    exact ⟨fwd, start, gs, b, g1, sweepGives_runs hd hperm hser hL b c g1⟩
  · intro fwd start gs hs hg
    obtain ⟨s, a, b⟩ := k5 fwd start trivial (by rw [e2, List.mem_range]; exact hs)
    have e := sweepGives_runs hd hperm hser hL hs b hg
    have := k9 s a
    rw [e] at this
    have hcount : ((tour gs).count 0 : ℚ) - 1 = gs.length := by
      have : ∀ g ∈ gs, ∀ x ∈ g, x ≠ 0 := by
        intro g hgm x hx hx0
        have hm : x ∈ around fwd nodes start := by
          rw [← hg.flat]
          exact List.mem_flatten.2 ⟨g, hgm, hx⟩
        rw [List.nodup_cons] at h1
        exact h1.1 (hx0 ▸ (around_perm fwd nodes start).mem_iff.1 hm)
      rw [count_depots this]
      push_cast
      ring
    rwa [hcount] at this

/-- Two runs on the way around do not interlace. -/
theorem around_interlace {key : ℕ → ℝ} {nodes : List ℕ} (hsort : nodes.Pairwise fun a b => key a ≤ key b) {fwd : Bool} {start : ℕ}
    {P g Q g' R : List ℕ} (e : around fwd nodes start = P ++ g ++ (Q ++ g' ++ R)) : ¬ Interlace key g g' ∧ ¬ Interlace key g' g := by
  -- going forward
  have main : ∀ {U V : List ℕ}, (V ++ U).Pairwise (fun a b => key a ≤ key b) → ∀ {P g Q g' R : List ℕ}, U ++ V = P ++ g ++ (Q ++ g' ++ R) →
      ¬ Interlace key g g' ∧ ¬ Interlace key g' g := by
    intro U V hp P g Q g' R e
    rw [List.pairwise_append] at hp
    obtain ⟨hV, hU, hVU⟩ := hp
    rcases List.append_eq_append_iff.1 e with ⟨a, e1, e2⟩ | ⟨c, e1, e2⟩
    · have h1 : ∀ x ∈ g, x ∈ U ∨ x ∈ a := fun x hx => by
        have : x ∈ P ++ g := by simp [hx]
        rw [e1] at this
        exact List.mem_append.1 this
      have h2 : ∀ y ∈ g', y ∈ Q ++ g' ++ R := fun y hy => by simp [hy]
      rw [e2, List.pairwise_append] at hV
      have h3 : ∀ x ∈ a, ∀ y ∈ g', key x ≤ key y := fun x hx y hy => hV.2.2 x hx y (h2 y hy)
      have h4 : ∀ x ∈ U, ∀ y ∈ g', key y ≤ key x := fun x hx y hy => hVU y (by rw [e2]; exact List.mem_append_right _ (h2 y hy)) x hx
      constructor
      · rintro ⟨x, hx, y, hy, z, hz, w, hw, k1, k2, k3⟩
        rcases h1 z hz with h | h
        · exact absurd (h4 z h w hw) (by linarith)
        · exact absurd (h3 z h y hy) (by linarith)
      · rintro ⟨x, hx, y, hy, z, hz, w, hw, k1, k2, k3⟩
        rcases h1 y hy with h | h
        · exact absurd (h4 y h z hz) (by linarith)
        · exact absurd (h3 y h x hx) (by linarith)
    · have h1 : ∀ y ∈ g', y ∈ c ∨ y ∈ V := fun y hy => by
        have : y ∈ Q ++ g' ++ R := by simp [hy]
        rw [e2] at this
        exact List.mem_append.1 this
      rw [e1, List.pairwise_append] at hU
      have h2 : ∀ x ∈ g, ∀ y ∈ c, key x ≤ key y := fun x hx y hy => hU.2.2 x (by simp [hx]) y hy
      have h3 : ∀ x ∈ g, ∀ y ∈ V, key y ≤ key x := fun x hx y hy => hVU y hy x (by rw [e1]; simp [hx])
      constructor
      · rintro ⟨x, hx, y, hy, z, hz, w, hw, k1, k2, k3⟩
        rcases h1 y hy with h | h
        · exact absurd (h2 z hz y h) (by linarith)
        · exact absurd (h3 x hx y h) (by linarith)
      · rintro ⟨x, hx, y, hy, z, hz, w, hw, k1, k2, k3⟩
        rcases h1 z hz with h | h
        · exact absurd (h2 w hw z h) (by linarith)
        · exact absurd (h3 y hy z h) (by linarith)
  cases fwd
  · have e' := congrArg List.reverse e
    simp only [around, Bool.false_eq_true, if_false, List.reverse_append, List.reverse_reverse] at e'
    have := main (U := nodes.drop (start + 1)) (V := nodes.take (start + 1)) (by rw [List.take_append_drop]; exact hsort)
      (P := R.reverse) (g := g'.reverse) (Q := Q.reverse) (g' := g.reverse) (R := P.reverse) (by rw [e']; simp)
    have hrev : ∀ {a b : List ℕ}, Interlace key a b → Interlace key a.reverse b.reverse := by
      rintro a b ⟨x, hx, y, hy, z, hz, w, hw, k⟩
      exact ⟨x, by simpa using hx, y, by simpa using hy, z, by simpa using hz, w, by simpa using hw, k⟩
    exact ⟨fun h => this.2 (hrev h), fun h => this.1 (hrev h)⟩
  · simp only [around, if_true] at e
    exact main (U := nodes.drop start) (V := nodes.take start) (by rw [List.take_append_drop]; exact hsort) e

theorem sweepAngle_seen {pts : ℕ → ℝ × ℝ} {n : ℕ} {φ : ℝ} (h : SeenAt (pts 0) (pts n) φ) : sweepAngle pts n = φ := by
  obtain ⟨h1, h2, ⟨h3, h4⟩ | ⟨r, hr, h3, h4⟩⟩ := h
  · have : (⟨0, 0⟩ : ℂ) = 0 := rfl
    simp only [sweepAngle, h3, sub_self, this, Complex.arg_zero, h4]
  · have : (⟨(pts n).1 - (pts 0).1, (pts n).2 - (pts 0).2⟩ : ℂ) = (r : ℂ) * (Complex.cos φ + Complex.sin φ * Complex.I) := by
      rw [h3, h4, ← Complex.ofReal_cos, ← Complex.ofReal_sin]
      apply Complex.ext <;> simp [-Complex.ofReal_cos, -Complex.ofReal_sin]
    rw [sweepAngle, this]
    exact Complex.arg_mul_cos_add_sin_mul_I hr ⟨h1, h2⟩

/-- C77. For customers in the plane the routes of such a sweep do not interlace around the depot: there are no customers `a` and `c` of one route and
`b` and `e` of another with the directions of `a`, `b`, `c` and `e`, seen from the depot, in this order. -/
theorem C77_interlace_partial {N : ℕ} {pts : ℕ → ℝ × ℝ} {nodes : List ℕ} (ho : SweepOrder N pts nodes) {D : ℕ → ℕ → ℚ} {d : ℕ → ℚ} {C L : Option ℚ}
    (tsp : Router) {start : ℕ} (fwd : Bool) (hs : start < N - 1) (hL : ¬ InUse L) (hser : ∀ n, 1 ≤ n → n < N → Within C C_EPS (d n))
    {φ : ℕ → ℝ} (hφ : ∀ n, 1 ≤ n → n < N → SeenAt (pts 0) (pts n) (φ n)) :
    ∃ (gs : List (List ℕ)) (routes : List SwRoute),
      (∃ F, ∀ fuel, F ≤ fuel → do_one_sweep fuel D d C L tsp nodes start fwd false = .ok (some routes)) ∧
      routes.map (fun rd => (rd.route, rd.cost)) = gs.map (fun g => tsp (0 :: g)) ∧ gs.flatten.Perm (List.range' 1 (N - 1)) ∧
      gs.Pairwise fun g g' => ¬ Interlace φ g g' ∧ ¬ Interlace φ g' g := by
  obtain ⟨h1, h2, h3⟩ := sweep_hyps ho.perm hser
  obtain ⟨gs, routes, k1, k2, k3⟩ := C77_runs_partial (D := D) tsp fwd h1 (by omega : start < nodes.length) hL h2
  refine ⟨gs, routes, k2, k3, by rw [k1.flat]; exact (around_perm fwd nodes start).trans ho.perm, ?_⟩
  rw [List.pairwise_iff_forall_sublist]
  intro g g' hsub
  obtain ⟨l, r, e, hl, hr⟩ := List.append_sublist_iff.1 (show ([g] ++ [g']).Sublist gs from hsub)
  obtain ⟨l1, l2, rfl⟩ := List.append_of_mem (List.singleton_sublist.1 hl)
  obtain ⟨r1, r2, rfl⟩ := List.append_of_mem (List.singleton_sublist.1 hr)
  have hin : ∀ n ∈ nodes, sweepAngle pts n = φ n := fun n hn => by
    have := ho.perm.mem_iff.1 hn
    rw [List.mem_range'_1] at this
    exact sweepAngle_seen (hφ n this.1 (by omega))
  have hsorted : nodes.Pairwise fun a b => φ a ≤ φ b :=
    ho.sorted.imp_of_mem fun ha hb h => by rwa [hin _ ha, hin _ hb] at h
  refine around_interlace hsorted (fwd := fwd) (start := start) (P := l1.flatten) (Q := l2.flatten ++ r1.flatten) (R := r2.flatten) ?_
  rw [← k1.flat, e]
  simp

/-- Four customers around the depot, with the distances of a grid of streets. -/
def exGrid : List (ℤ × ℤ) := [(0, 0), (-3, -4), (4, 3), (1, 2), (-3, 3)]

/-- The distances between them. -/
def exGridD (i j : ℕ) : ℚ :=
  (|(exGrid.getD i (0, 0)).1 - (exGrid.getD j (0, 0)).1| + |(exGrid.getD i (0, 0)).2 - (exGrid.getD j (0, 0)).2| : ℤ)

/-- C77. With a limit on the route cost a route need not serve neighbours: here customer 3 is between 2 and 4, which share a route without it, and
customer 1 is on the other side. -/
theorem C77_sector_false : ∃ routes, do_one_sweep 20 exGridD (fun _ => 1) none (some 20) (sweptOrder exGridD) [1, 2, 3, 4] 0 true false =
    .ok (some routes) ∧ routes.map (fun rd => rd.route) = [[0, 1, 0], [0, 2, 4, 0], [0, 3, 0]] := by
  refine ⟨[⟨[0, 1, 0], 14, 0, [0, 1]⟩, ⟨[0, 2, 4, 0], 20, 0, [0, 2, 4]⟩, ⟨[0, 3, 0], 6, 0, [0, 3]⟩], by decide +kernel, rfl⟩

/-- The hypotheses of `C77_runs_partial` hold for five customers and vehicles with room for two. -/
example : ∃ (gs : List (List ℕ)) (routes : List SwRoute), LongestRuns (fun _ => 1) (some 2) (around false [2, 4, 1, 3, 5] 3) gs ∧
    (∃ F, ∀ fuel, F ≤ fuel →
      do_one_sweep fuel exSweepD (fun _ => 1) (some 2) none (sweptOrder exSweepD) [2, 4, 1, 3, 5] 3 false false = .ok (some routes)) ∧
    routes.map (fun rd => (rd.route, rd.cost)) = gs.map (fun g => sweptOrder exSweepD (0 :: g)) :=
  C77_runs_partial _ false (by decide) (by decide) (by rintro ⟨l, h, -⟩; cases h) (by
    intro n _
    rw [← exceeds_iff]
    decide +kernel)

/-- These runs. -/
example : around false [2, 4, 1, 3, 5] 3 = [3, 1, 4, 2, 5] ∧ LongestRuns (fun _ => 1) (some 2) [3, 1, 4, 2, 5] [[3, 1], [4, 2], [5]] := by
  refine ⟨by decide, rfl, by decide, ?_, ?_⟩
  · intro g hg
    rw [← exceeds_iff]
    revert g
    decide +kernel
  · intro l r g x g' e h
    rw [← exceeds_iff] at h
    match l, e with
    | [], e =>
      simp only [List.nil_append, List.cons.injEq] at e
      obtain ⟨rfl, ⟨rfl, -⟩, -⟩ := e
      exact absurd h (by decide +kernel)
    | [_], e =>
      simp only [List.cons_append, List.nil_append, List.cons.injEq] at e
      obtain ⟨-, rfl, ⟨rfl, -⟩, -⟩ := e
      exact absurd h (by decide +kernel)
    | _ :: _ :: l, e =>
      have := congrArg List.length e
      simp at this
      omega

/-- The hypotheses of `C77_best_partial` hold for them. -/
example : ∃ sol seen, (∃ F, ∀ fuel, F ≤ fuel →
      sweep_init fuel 6 exSweepD (fun _ => 1) (some 2) none (sweptOrder exSweepD) [2, 4, 1, 3, 5] true .both .best = .ok (some (some sol, seen))) ∧
    (∃ fwd start gs, start < 6 - 1 ∧ LongestRuns (fun _ => 1) (some 2) (around fwd [2, 4, 1, 3, 5] start) gs ∧ sol = tour gs) ∧
    ∀ fwd start gs, start < 6 - 1 → LongestRuns (fun _ => 1) (some 2) (around fwd [2, 4, 1, 3, 5] start) gs →
      ¬ Better true (cost exSweepD (tour gs), (gs.length : ℚ)) (cost exSweepD sol, (sol.count 0 : ℚ) - 1) :=
  C77_best_partial true (by decide) (by decide) (fun _ => by norm_num) (fun n _ _ => by rw [← exceeds_iff]; decide +kernel)
    (by rintro ⟨l, h, -⟩; cases h)

/-- Customers in the four directions of the compass: east, north, west and south. -/
def exCompass : ℕ → ℝ × ℝ
  | 1 => (2, 0)
  | 2 => (0, 1)
  | 3 => (-1, 0)
  | 4 => (0, -3)
  | _ => (0, 0)

/-- The sweep begins in the south. -/
theorem exCompass_order : SweepOrder 5 exCompass [4, 1, 2, 3] := by
  have h1 : sweepAngle exCompass 1 = 0 := by
    have : (⟨2 - 0, 0 - 0⟩ : ℂ) = ((2 : ℝ) : ℂ) := by apply Complex.ext <;> simp
    simp only [sweepAngle, exCompass, this]
    exact Complex.arg_ofReal_of_nonneg (by norm_num)
  have h2 : sweepAngle exCompass 2 = Real.pi / 2 := by
    have : (⟨0 - 0, 1 - 0⟩ : ℂ) = Complex.I := by apply Complex.ext <;> simp
    simp only [sweepAngle, exCompass, this]
    exact Complex.arg_I
  have h3 : sweepAngle exCompass 3 = Real.pi := by
    have : (⟨-1 - 0, 0 - 0⟩ : ℂ) = ((-1 : ℝ) : ℂ) := by apply Complex.ext <;> simp
    simp only [sweepAngle, exCompass, this]
    exact Complex.arg_ofReal_of_neg (by norm_num)
  have h4 : sweepAngle exCompass 4 = -(Real.pi / 2) := by
    have : (⟨0 - 0, -3 - 0⟩ : ℂ) = ((3 : ℝ) : ℂ) * -Complex.I := by apply Complex.ext <;> simp
    simp only [sweepAngle, exCompass, this]
    rw [Complex.arg_real_mul _ (by norm_num), Complex.arg_neg_I]
  refine ⟨by decide, ?_⟩
  have := Real.pi_pos
  simp only [List.pairwise_cons, List.mem_cons, List.not_mem_nil, or_false, forall_eq_or_imp, forall_eq, h1, h2, h3, h4]
  refine ⟨⟨?_, ?_, ?_⟩, ⟨?_, ?_⟩, ?_, ?_, ?_⟩ <;> first | linarith | simp

/-- The directions of the compass. -/
noncomputable def exCompassDir : ℕ → ℝ
  | 1 => 0
  | 2 => Real.pi / 2
  | 3 => Real.pi
  | _ => -(Real.pi / 2)

theorem exCompass_seen : ∀ n, 1 ≤ n → n < 5 → SeenAt (exCompass 0) (exCompass n) (exCompassDir n) := by
  have hp := Real.pi_pos
  intro n h1 h2
  obtain rfl | rfl | rfl | rfl : n = 1 ∨ n = 2 ∨ n = 3 ∨ n = 4 := by omega
  · exact ⟨by simp only [exCompassDir]; linarith, by simp only [exCompassDir]; linarith,
      .inr ⟨2, by norm_num, by simp [exCompass, exCompassDir], by simp [exCompass, exCompassDir]⟩⟩
  · exact ⟨by simp only [exCompassDir]; linarith, by simp only [exCompassDir]; linarith,
      .inr ⟨1, by norm_num, by simp [exCompass, exCompassDir], by simp [exCompass, exCompassDir]⟩⟩
  · exact ⟨by simp only [exCompassDir]; linarith, by simp only [exCompassDir]; linarith,
      .inr ⟨1, by norm_num, by simp [exCompass, exCompassDir], by simp [exCompass, exCompassDir]⟩⟩
  · exact ⟨by simp only [exCompassDir]; linarith, by simp only [exCompassDir]; linarith,
      .inr ⟨3, by norm_num, by simp [exCompass, exCompassDir], by simp [exCompass, exCompassDir]⟩⟩

/-- The hypotheses of `C77_interlace_partial` hold for them, and two routes that cross the middle would interlace. -/
example : (∃ (gs : List (List ℕ)) (routes : List SwRoute),
      (∃ F, ∀ fuel, F ≤ fuel →
        do_one_sweep fuel exSweepD (fun _ => 1) (some 2) none (sweptOrder exSweepD) [4, 1, 2, 3] 1 true false = .ok (some routes)) ∧
      routes.map (fun rd => (rd.route, rd.cost)) = gs.map (fun g => sweptOrder exSweepD (0 :: g)) ∧ gs.flatten.Perm (List.range' 1 (5 - 1)) ∧
      gs.Pairwise fun g g' => ¬ Interlace exCompassDir g g' ∧ ¬ Interlace exCompassDir g' g) ∧
    Interlace (fun n => (n : ℝ)) [1, 3] [2, 4] :=
  ⟨C77_interlace_partial exCompass_order _ true (by decide) (by rintro ⟨l, h, -⟩; cases h) (fun n _ _ => by rw [← exceeds_iff]; decide +kernel) exCompass_seen,
    1, by simp, 2, by simp, 3, by simp, 4, by simp, by norm_num, by norm_num, by norm_num⟩

end Verif
