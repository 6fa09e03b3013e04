import Verif.Lemmas.Sweep
import Verif.Lemmas.Solves
import Verif.Props.Util

/-!
# The sweep heuristic (C30)
-/

namespace Verif

open Spec

/-- The default routing algorithm, which drives the nodes in the order of the sweep, is one. -/
theorem sweptOrder_ok (D : ℕ → ℕ → ℚ) : TspRoutine D (sweptOrder D) := by
  intro t _ _
  refine ⟨t, List.Perm.refl t, ?_⟩
  have : 0 :: t ++ [0] = wrap t := rfl
  unfold sweptOrder
  rw [this, objf_eq_cost]

/-- The customers of the recorded routes in the order of the visits. -/
theorem stored_routes {D : ℕ → ℕ → ℚ} {d : ℕ → ℚ} {C L : Option ℚ} {nodes : List ℕ} {routes : List SwRoute}
    (h : ∀ rd ∈ routes, StoredOk D d C L nodes rd) :
    ∃ us : List (List ℕ), routes.map (fun rd => (rd.route, rd.cost)) =
        us.map (fun u => (wrap u, cost D (wrap u))) ∧
      us.flatten.Perm (routes.flatMap fun rd => rd.node_set.tail) ∧
      (∀ u ∈ us, u ≠ [] ∧ u.Nodup ∧ (∀ n ∈ u, n ∈ nodes) ∧ RouteOk D d C L u) := by
  induction routes with
  | nil => exact ⟨[], rfl, by simp, by simp⟩
  | cons rd rs ih =>
    obtain ⟨us, h1, h2, h3⟩ := ih (fun x hx => h x (List.mem_cons_of_mem _ hx))
    obtain ⟨u, t, e1, e2, e3, e4, e5, e6, e7, e8⟩ := h rd (by simp)
    refine ⟨u :: us, ?_, ?_, ?_⟩
    · rw [List.map_cons, List.map_cons, h1, e6, e7]
    · rw [List.flatten_cons, List.flatMap_cons, e1]
      exact e5.append h2
    · intro x hx
      rcases List.mem_cons.1 hx with rfl | hx
      · refine ⟨?_, e5.nodup_iff.2 e3, fun n hn => e4 n (e5.mem_iff.1 hn), e8⟩
        rintro rfl
        exact e2 e5.nil_eq.symm
      · exact h3 x hx

/-- C30. One sweep around the depot, in either direction and from any start, with any routine for the
tours, ends, and its routes serve every customer of the sweep exactly once, none is empty, each has its
true cost and respects both limits. -/
theorem C30_sweep {D : ℕ → ℕ → ℚ} {d : ℕ → ℚ} {C L : Option ℚ} {tsp : Router} {nodes : List ℕ} {start : ℕ}
    (fwd : Bool) (hnn : (0 :: nodes).Nodup) (hd : ∀ n, 0 ≤ d n) (htsp : TspRoutine D tsp)
    (hser : ∀ n ∈ nodes, RouteOk D d C L [n]) (hs : start < nodes.length) :
    ∃ (us : List (List ℕ)) (routes : List SwRoute),
      (∃ F, ∀ fuel, F ≤ fuel → do_one_sweep fuel D d C L tsp nodes start fwd false = .ok (some routes)) ∧
      routes.map (fun rd => (rd.route, rd.cost)) = us.map (fun u => (wrap u, cost D (wrap u))) ∧
      us.flatten.Perm nodes ∧ [] ∉ us ∧ ∀ u ∈ us, RouteOk D d C L u := by
  rw [List.nodup_cons] at hnn
  obtain ⟨routes, ⟨h1, _, h2⟩, hF⟩ := do_one_sweep_spec (fwd := fwd) (alt := false) hnn.1 hnn.2 hd htsp hser hs
  obtain ⟨us, e1, e2, e3⟩ := stored_routes h1
  exact ⟨us, routes, hF, e1, e2.trans (h2 rfl), fun h => (e3 [] h).1 rfl, fun u hu => (e3 u hu).2.2.2⟩

/-- C30. When the alternative first routes are asked for, every route handed out serves some of the
customers, none twice, has its true cost and respects both limits. -/
theorem C30_alternatives {D : ℕ → ℕ → ℚ} {d : ℕ → ℚ} {C L : Option ℚ} {tsp : Router} {nodes : List ℕ}
    {start : ℕ} (fwd : Bool) (hnn : (0 :: nodes).Nodup) (hd : ∀ n, 0 ≤ d n) (htsp : TspRoutine D tsp)
    (hser : ∀ n ∈ nodes, RouteOk D d C L [n]) (hs : start < nodes.length) :
    ∃ (us : List (List ℕ)) (routes : List SwRoute),
      (∃ F, ∀ fuel, F ≤ fuel → do_one_sweep fuel D d C L tsp nodes start fwd true = .ok (some routes)) ∧
      routes.map (fun rd => (rd.route, rd.cost)) = us.map (fun u => (wrap u, cost D (wrap u))) ∧ us ≠ [] ∧
      ∀ u ∈ us, u ≠ [] ∧ u.Nodup ∧ (∀ n ∈ u, n ∈ nodes) ∧ RouteOk D d C L u := by
  rw [List.nodup_cons] at hnn
  obtain ⟨routes, ⟨h1, h2, _⟩, hF⟩ := do_one_sweep_spec (fwd := fwd) (alt := true) hnn.1 hnn.2 hd htsp hser hs
  obtain ⟨us, e1, e2, e3⟩ := stored_routes h1
  refine ⟨us, routes, hF, e1, ?_, e3⟩
  rintro rfl
  simp at e1
  exact h2 e1

/-- The solution of a sweep. -/
theorem sweepSol_solves {N : ℕ} {D : ℕ → ℕ → ℚ} {d : ℕ → ℚ} {C L : Option ℚ} {nodes : List ℕ}
    (hperm : nodes.Perm (List.range' 1 (N - 1))) {us : List (List ℕ)} {routes : List SwRoute}
    (e : routes.map (fun rd => (rd.route, rd.cost)) = us.map (fun u => (wrap u, cost D (wrap u))))
    (hp : us.flatten.Perm nodes) (hne : [] ∉ us) (hok : ∀ u ∈ us, RouteOk D d C L u) :
    Solves N D d C L (sweepSol routes) ∧ Feasible D d C L (sweepSol routes) := by
  have e' : ∀ (routes : List SwRoute) (us : List (List ℕ)),
      routes.map (fun rd => (rd.route, rd.cost)) = us.map (fun u => (wrap u, cost D (wrap u))) →
      routes.flatMap (fun rd => rd.route.dropLast) ++ [0] = tour us := by
    intro routes
    induction routes with
    | nil =>
      intro us e
      cases us with
      | nil => rfl
      | cons u us => simp at e
    | cons rd rs ih =>
      intro us e
      cases us with
      | nil => simp at e
      | cons u us =>
        simp only [List.map_cons, List.cons.injEq, Prod.mk.injEq] at e
        have hw : (wrap u).dropLast = 0 :: u := by
          rw [wrap, ← List.cons_append, List.dropLast_concat]
        rw [List.flatMap_cons, e.1.1, hw, List.append_assoc, ih us e.2, tour]
        rfl
  obtain ⟨h1, h2, h3⟩ := solves_tour (N := N) (hp.trans hperm) hne hok
  unfold sweepSol
  rw [e' routes us e, h3]
  exact ⟨h1, h2⟩

/-- The comparison of `sweep_init` is the one of the best-of loop. -/
theorem keepBetter_fold (D : ℕ → ℕ → ℚ) (m : Bool) (cands : List (List ℕ)) :
    (cands.foldl (keepBetter D m) none).map (·.1) =
      bestOf (fun s => cost D s) (fun s => (s.count 0 : ℚ) - 1) m cands := by
  have key : ∀ (cs : List (List ℕ)) (b : Option (List ℕ × ℚ × ℚ)),
      (cs.foldl (keepBetter D m) b).map (·.1) =
      (cs.foldl (fun (st : Option (List ℕ) × Option ℚ × Option ℚ) s =>
        if is_better_sol st.2.1 st.2.2 (some (cost D s)) (some ((s.count 0 : ℚ) - 1)) m
        then (some s, some (cost D s), some ((s.count 0 : ℚ) - 1)) else st)
        (b.map (·.1), b.map (·.2.1), b.map (·.2.2))).1 := by
    intro cs
    induction cs with
    | nil => intro b; rfl
    | cons c cs ih =>
      intro b
      rw [List.foldl_cons, List.foldl_cons, ih]
      congr 1
      unfold keepBetter
      simp only [objf_eq_cost]
      by_cases h : is_better_sol (b.map (·.2.1)) (b.map (·.2.2)) (some (cost D c))
          (some ((c.count 0 : ℚ) - 1)) m = true
      · rw [if_pos h, if_pos h]; rfl
      · rw [if_neg h, if_neg h]
  exact key cands none

/-- The solution of a sweep in the direction from the start. -/
def SweepGives (D : ℕ → ℕ → ℚ) (d : ℕ → ℚ) (C L : Option ℚ) (tsp : Router) (nodes : List ℕ) (fwd : Bool)
    (start : ℕ) (s : List ℕ) : Prop :=
  ∃ routes, (∃ F, ∀ fuel, F ≤ fuel → do_one_sweep fuel D d C L tsp nodes start fwd false = .ok (some routes)) ∧
    s = without_empty_routes (routes.flatMap (fun rd => rd.route.dropLast) ++ [0])

/-- The directions that are asked for: `true` is counterclockwise. -/
def SweepDir.wants : SweepDir → Bool → Prop
  | .ccw, fwd => fwd = true
  | .cw, fwd => fwd = false
  | .both, _ => True
  | .other, _ => False

/-- The loop over the directions and starts. -/
theorem sweepRuns_spec {N : ℕ} {D : ℕ → ℕ → ℚ} {d : ℕ → ℚ} {C L : Option ℚ} {tsp : Router} {nodes : List ℕ}
    {m : Bool} (hperm : nodes.Perm (List.range' 1 (N - 1))) (hd : ∀ n, 0 ≤ d n) (htsp : TspRoutine D tsp)
    (hser : Serviceable N D d C L) (runs : List (Bool × ℕ)) (hr : ∀ r ∈ runs, r.2 < nodes.length) :
    ∃ cands : List (List ℕ), cands.length = runs.length ∧
      (∀ r ∈ runs, ∃ s ∈ cands, SweepGives D d C L tsp nodes r.1 r.2 s) ∧
      (∀ s ∈ cands, ∃ r ∈ runs, SweepGives D d C L tsp nodes r.1 r.2 s) ∧
      (∀ s ∈ cands, Solves N D d C L s ∧ Feasible D d C L s) ∧
      ∀ best seen, ∃ seen' : List (Option (List ℕ)),
        (∀ x ∈ seen', ∀ s, x = some s → (∃ b, best = some b ∧ b.1 = s) ∨ s ∈ cands) ∧
        ∃ F, ∀ fuel, F ≤ fuel → sweepRuns fuel D d C L tsp nodes m runs best seen =
          .ok (some ((cands.foldl (keepBetter D m) best).map (·.1), seen ++ seen')) := by
  induction runs with
  | nil => exact ⟨[], rfl, by simp, by simp, by simp, fun best seen => ⟨[], by simp, 0, fun fuel _ => by simp [sweepRuns]⟩⟩
  | cons r rs ih =>
    obtain ⟨fwd, start⟩ := r
    obtain ⟨cands, h1, g1, g2, h2, h3⟩ := ih (fun x hx => hr x (List.mem_cons_of_mem _ hx))
    have hnn : (0 :: nodes).Nodup := by
      rw [List.nodup_cons]
      refine ⟨fun h => ?_, hperm.nodup_iff.2 ((List.pairwise_lt_range' 1).imp fun h => ne_of_lt h)⟩
      have := hperm.mem_iff.1 h
      rw [List.mem_range'_1] at this
      omega
    have hser' : ∀ n ∈ nodes, RouteOk D d C L [n] := by
      intro n hn
      have := hperm.mem_iff.1 hn
      rw [List.mem_range'_1] at this
      exact hser n (by omega) (by omega)
    obtain ⟨us, routes, ⟨F1, hF1⟩, e1, e2, e3, e4⟩ := C30_sweep fwd hnn hd htsp hser' (hr (fwd, start) (by simp))
    have hsol := sweepSol_solves hperm e1 e2 e3 e4
    have hgive : SweepGives D d C L tsp nodes fwd start (sweepSol routes) := ⟨routes, ⟨F1, hF1⟩, rfl⟩
    refine ⟨sweepSol routes :: cands, by simp [h1], ?_, ?_, ?_, fun best seen => ?_⟩
    · intro r hr
      rcases List.mem_cons.1 hr with rfl | hr
      · exact ⟨_, by simp, hgive⟩
      · obtain ⟨s, hs1, hs2⟩ := g1 r hr
        exact ⟨s, List.mem_cons_of_mem _ hs1, hs2⟩
    · intro s hs
      rcases List.mem_cons.1 hs with rfl | hs
      · exact ⟨(fwd, start), by simp, hgive⟩
      · obtain ⟨r, hr1, hr2⟩ := g2 s hs
        exact ⟨r, List.mem_cons_of_mem _ hr1, hr2⟩
    · intro s hs
      rcases List.mem_cons.1 hs with rfl | hs
      · exact hsol
      · exact h2 s hs
    · obtain ⟨seen', k1, F2, hF2⟩ := h3 (keepBetter D m best (sweepSol routes))
        (seen ++ [(keepBetter D m best (sweepSol routes)).map (·.1)])
      have hkeep : ∀ s, (keepBetter D m best (sweepSol routes)).map (·.1) = some s →
          (∃ b, best = some b ∧ b.1 = s) ∨ s = sweepSol routes := by
        intro s hs
        unfold keepBetter at hs
        simp only at hs
        split at hs
        · right; simpa using hs.symm
        · left
          rw [Option.map_eq_some_iff] at hs
          exact hs
      refine ⟨(keepBetter D m best (sweepSol routes)).map (·.1) :: seen', ?_, F1 + F2, fun fuel hf => ?_⟩
      · intro x hx s hs
        rcases List.mem_cons.1 hx with rfl | hx
        · rcases hkeep s hs with h | h
          · exact Or.inl h
          · exact Or.inr (by simp [h])
        · rcases k1 x hx s hs with ⟨b, hb1, hb2⟩ | h
          · rcases hkeep s (by rw [hb1]; simp [hb2]) with h | h
            · exact Or.inl h
            · exact Or.inr (by simp [h])
          · exact Or.inr (List.mem_cons_of_mem _ h)
      · simp only [sweepRuns, hF1 fuel (by omega), hF2 fuel (by omega)]
        simp

/-- C30. `sweep_init` ends, and its solution serves every customer exactly once within both limits; it
is, of the solutions of the sweeps in the given directions from the given starts, one that none of them
beats. An interrupt hands out nothing, or a complete solution within the limits too. -/
theorem C30_init {N : ℕ} {D : ℕ → ℕ → ℚ} {d : ℕ → ℚ} {C L : Option ℚ} {tsp : Router} {nodes : List ℕ}
    (m : Bool) {dir : SweepDir} {seed : SweepSeed} {starts : List ℕ}
    (hperm : nodes.Perm (List.range' 1 (N - 1))) (hd : ∀ n, 0 ≤ d n) (htsp : TspRoutine D tsp)
    (hser : Serviceable N D d C L) (hdir : dir ≠ .other)
    (hseed : sweepStarts N nodes seed = .ok starts) (hne : starts ≠ []) (hlt : ∀ s ∈ starts, s < N - 1) :
    ∃ (sol : List ℕ) (seen : List (Option (List ℕ))) (cands : List (List ℕ)),
      (∃ F, ∀ fuel, F ≤ fuel → sweep_init fuel N D d C L tsp nodes m dir seed = .ok (some (some sol, seen))) ∧
      Solves N D d C L sol ∧ Feasible D d C L sol ∧
      (∀ s, some s ∈ seen → Solves N D d C L s ∧ Feasible D d C L s) ∧
      (∀ fwd start, dir.wants fwd → start ∈ starts → ∃ s ∈ cands, SweepGives D d C L tsp nodes fwd start s) ∧
      (∀ s ∈ cands, ∃ fwd start, dir.wants fwd ∧ start ∈ starts ∧ SweepGives D d C L tsp nodes fwd start s) ∧
      sol ∈ cands ∧
      (∀ s ∈ cands, Solves N D d C L s) ∧
      ∀ s ∈ cands, ¬ Better m (cost D s, (s.count 0 : ℚ) - 1) (cost D sol, (sol.count 0 : ℚ) - 1) := by
  have hlen : nodes.length = N - 1 := by rw [hperm.length_eq, List.length_range']
  obtain ⟨dirs, hdirs, hwant, hd0⟩ : ∃ dirs, sweepDirs dir = .ok dirs ∧ (∀ x, x ∈ dirs ↔ dir.wants x) ∧ dirs ≠ [] := by
    cases dir with
    | ccw => exact ⟨_, rfl, fun x => by simp [SweepDir.wants], by simp⟩
    | cw => exact ⟨_, rfl, fun x => by simp [SweepDir.wants], by simp⟩
    | both => exact ⟨_, rfl, fun x => by simp [SweepDir.wants], by simp⟩
    | other => exact absurd rfl hdir
  obtain ⟨cands, h1, g1, g2, h2, h3⟩ := sweepRuns_spec (m := m) hperm hd htsp hser
    (dirs.flatMap fun x => starts.map fun s => (x, s)) (by
      intro r hr
      rw [List.mem_flatMap] at hr
      obtain ⟨x, _, hx⟩ := hr
      rw [List.mem_map] at hx
      obtain ⟨s, hs, rfl⟩ := hx
      rw [hlen]
      exact hlt s hs)
  have hcl : cands.length = dirs.length * starts.length := by
    rw [h1, List.length_flatMap]
    simp
  have hc0 : cands ≠ [] := by
    rintro rfl
    have := Nat.mul_pos (List.length_pos_iff.2 hd0) (List.length_pos_iff.2 hne)
    rw [← hcl] at this
    simp at this
  obtain ⟨seen', k1, F, hF⟩ := h3 none [none]
  obtain ⟨l, s, r, e1, e2, e3, e4⟩ := C04_bestOf (fun s => cost D s) (fun s => (s.count 0 : ℚ) - 1) m cands hc0
  have hs : s ∈ cands := by rw [e1]; simp
  refine ⟨s, [none] ++ seen', cands, ⟨F, fun fuel hf => ?_⟩, (h2 s hs).1, (h2 s hs).2, ?_, ?_, ?_, hs,
    fun x hx => (h2 x hx).1, ?_⟩
  · unfold sweep_init
    rw [hdirs, hseed]
    simp only [hF fuel hf]
    rw [keepBetter_fold, e2]
  · intro x hx
    have : some x ∈ seen' := by simpa using hx
    rcases k1 _ this x rfl with ⟨b, hb, _⟩ | h
    · simp at hb
    · exact h2 x h
  · intro fwd start hw hst
    exact g1 (fwd, start) (List.mem_flatMap.2 ⟨fwd, (hwant fwd).2 hw, List.mem_map.2 ⟨start, hst, rfl⟩⟩)
  · intro c hcm
    obtain ⟨r, hr1, hr2⟩ := g2 c hcm
    obtain ⟨fwd, hf1, hf2⟩ := List.mem_flatMap.1 hr1
    obtain ⟨start, hst, rfl⟩ := List.mem_map.1 hf2
    exact ⟨fwd, start, (hwant fwd).1 hf1, hst, hr2⟩
  · intro x hx
    rw [e1, List.mem_append, List.mem_cons] at hx
    rcases hx with hx | rfl | hx
    · exact fun hb => better_irrefl m _ (better_trans m hb (e3 x hx))
    · exact better_irrefl m _
    · exact e4 x hx

/-- C30. The starts that the documented seeds stand for: all of them are positions of the sweep. -/
theorem C30_starts {N : ℕ} {nodes : List ℕ} (hperm : nodes.Perm (List.range' 1 (N - 1))) (hN : 2 ≤ N) :
    (∃ l, sweepStarts N nodes .smallestAngle = .ok l ∧ l ≠ [] ∧ ∀ s ∈ l, s < N - 1) ∧
    (∃ l, sweepStarts N nodes .best = .ok l ∧ l = List.range (N - 1)) ∧
    (∀ i : ℤ, i.natAbs % N ≠ 0 → ∃ s, sweepStarts N nodes (.node i) = .ok [s] ∧ s < N - 1 ∧
      nodes[s]? = some (i.natAbs % N)) ∧
    (∀ i : ℤ, i.natAbs % N = 0 → sweepStarts N nodes (.node i) = .error .indexError) := by
  have hlen : nodes.length = N - 1 := by rw [hperm.length_eq, List.length_range']
  refine ⟨⟨[0], rfl, by simp, by simp; omega⟩, ⟨_, rfl, ?_⟩, ?_, ?_⟩
  · simp [pyRange, List.range_eq_range']
  · intro i hi
    have hlt : i.natAbs % N < N := Nat.mod_lt _ (by omega)
    have hmem : i.natAbs % N ∈ nodes := by
      rw [hperm.mem_iff, List.mem_range'_1]
      omega
    have hidx := List.idxOf_lt_length_iff.2 hmem
    refine ⟨nodes.idxOf (i.natAbs % N), by simp only [sweepStarts, if_pos hmem], by omega, ?_⟩
    rw [List.getElem?_eq_getElem hidx, List.getElem_idxOf]
  · intro i hi
    have : i.natAbs % N ∉ nodes := by
      rw [hperm.mem_iff, List.mem_range'_1, hi]
      omega
    simp only [sweepStarts, if_neg this]

/-- A customer that cannot be served alone within the cost limit: the sweep over it never ends. -/
theorem sweep_loops {D : ℕ → ℕ → ℚ} {d : ℕ → ℚ} {C L : Option ℚ} {n : ℕ} (fwd : Bool) (hn : n ≠ 0)
    (h00 : D 0 0 = 0) (hL : 0 < L.getD 0) (hC : Within C C_EPS (d n))
    (hbad : exceeds L S_EPS (cost D (wrap [n])) = true) (inner fuel : ℕ) :
    (∀ routed : ℕ → Bool, routed n = false →
      sweepLoop D d C L fwd [n] (sweptOrder D) false inner fuel
        { routes := [], routed := routed, routed_cnt := 0, cur := .new, ub := 0, complete := false, pos := 0,
          node := some n } = .ok none) ∧
    (∀ (routed : ℕ → Bool) (dem ub : ℚ), routed n = true →
      sweepLoop D d C L fwd [n] (sweptOrder D) false inner fuel
        { routes := [], routed := routed, routed_cnt := 0,
          cur := { route := [0], cost := 0, demand := dem, node_set := [0, n] }, ub := ub, complete := true,
          pos := 0, node := none } = .ok none) := by
  have hLt : truthy L = true := by
    cases L with
    | none => simp at hL
    | some l =>
      simp only [Option.getD_some] at hL
      simp [truthy, hL.ne']
  have hstep : ∀ b, sweepStep b 0 ([n].length - 1) = 0 := by intro b; cases b <;> simp [sweepStep]
  have hidx : idx [n] 0 = .ok n := rfl
  have hscan1 : ∀ (routed : ℕ → Bool) k, routed n = true →
      swScan fwd [n] routed 0 (k + 1) 0 = .ok (some (0, none)) := by
    intro routed k hr
    simp only [swScan, hstep, hidx, hr, Bool.not_true, Bool.false_eq_true, if_false, if_true]
  have hscan2 : ∀ (routed : ℕ → Bool) k, routed n = false →
      swScan fwd [n] routed 0 (k + 1) 0 = .ok (some (0, some n)) := by
    intro routed k hr
    simp only [swScan, hstep, hidx, hr, Bool.not_false, if_true]
  have hset1 : ∀ routed : ℕ → Bool, setRouted routed n true n = true := by intro r; simp [setRouted]
  have hset2 : ∀ routed : ℕ → Bool, setRouted routed n false n = false := by intro r; simp [setRouted]
  have hw : sweptOrder D [0, n] = ([0, n, 0], cost D (wrap [n])) := by
    simp [sweptOrder, objf_eq_cost, wrap]
  have hw0 : (sweptOrder D [0]).2 = 0 := by
    simp [sweptOrder, objf_eq_cost, cost, h00]
  have hex0 : exceeds L S_EPS 0 = false := by
    rw [exceeds_iff]
    intro c hc _
    subst hc
    simp only [Option.getD_some] at hL
    have : (0 : ℚ) ≤ S_EPS := by unfold S_EPS; norm_num
    linarith
  have hex1 : exceeds L 0 0 = false := by
    rw [exceeds_iff]
    intro c hc _
    subst hc
    simp only [Option.getD_some] at hL
    linarith
  have hCf : exceeds C C_EPS (0 + d n) = false := by rw [exceeds_iff]; simpa using hC
  have herase : [0, n].erase n = [0] := by simp [Ne.symm hn]
  have hen : ∀ (routed : ℕ → Bool) (k : ℕ) (dem : ℚ),
      ensureL d C L fwd [n] (sweptOrder D) (k + 1) ⟨[0, n, 0], cost D (wrap [n]), dem, [0, n]⟩ routed 0 0 =
      ensureL d C L fwd [n] (sweptOrder D) k
        ⟨(sweptOrder D [0]).1, 0, if truthy C then dem - d n else dem, [0]⟩ (setRouted routed n false) 0 0 := by
    intro routed k dem
    simp only [ensureL, hbad, Bool.true_eq_false, if_false]
    rw [hstep (!fwd), hidx]
    simp only
    rw [if_pos (by simp), herase, hw0]
  have hen2 : ∀ (routed : ℕ → Bool) (k : ℕ) (cur : SwRoute), cur.cost = 0 →
      ensureL d C L fwd [n] (sweptOrder D) (k + 1) cur routed 0 0 = .ok (some (cur, routed, 0)) := by
    intro routed k cur hc
    simp only [ensureL, hc, hex0, if_true]
  induction fuel with
  | zero => exact ⟨fun _ _ => rfl, fun _ _ _ _ => rfl⟩
  | succ fuel ih =>
    refine ⟨fun routed hr => ?_, fun routed dem ub hr => ?_⟩
    · have hds : ODS.dictSet [0] n = [0, n] := by simp [ODS.dictSet, hn]
      have e1 : swHead d C L fwd [n] (sweptOrder D) false inner
          { routes := [], routed := routed, routed_cnt := 0, cur := .new, ub := 0, complete := false, pos := 0,
            node := some n } = .ok (some (.next
          { routes := [], routed := routed, routed_cnt := 0, cur := .new, ub := 0, complete := false, pos := 0,
            node := some n })) := by
        simp only [swHead, swTest, SwRoute.new, hCf, hex1, Bool.false_eq_true, if_false,
          Bool.false_and, Bool.or_false]
      have e2 : swAdd D d C L
          { routes := [], routed := routed, routed_cnt := 0, cur := .new, ub := 0, complete := false, pos := 0,
            node := some n } = .ok
          { routes := [], routed := setRouted routed n true, routed_cnt := 0
            cur := ⟨[0], 0, if truthy C then 0 + d n else 0, [0, n]⟩
            ub := if truthy L then 0 + (-D 0 0 + D 0 n + D n 0) else 0, complete := false, pos := 0,
            node := some n } := by
        simp only [swAdd, hr, Bool.false_eq_true, if_false, SwRoute.new, swPrev, List.length_cons, List.length_nil,
          Nat.reduceLT, Nat.reduceAdd, pure, Except.pure, hds]
      rcases inner with _ | inner
      · simp only [sweepLoop, e1, e2, swMove, swScan]
      · simp only [sweepLoop, e1, e2, swMove, hscan1 _ inner (hset1 routed)]
        exact ih.2 _ _ _ (hset1 routed)
    · rcases inner with _ | _ | inner
      · simp only [sweepLoop, swHead, swTest, if_true, swRoute, hLt, hw, Bool.true_or, ensureL]
      · have := hen routed 0 dem
        simp only [Nat.zero_add] at this
        simp only [sweepLoop, swHead, swTest, if_true, swRoute, hLt, hw, Bool.true_or]
        simp only [Nat.zero_add]
        rw [this]
        simp only [ensureL]
      · have e1 : swHead d C L fwd [n] (sweptOrder D) false (inner + 1 + 1)
            { routes := [], routed := routed, routed_cnt := 0,
              cur := { route := [0], cost := 0, demand := dem, node_set := [0, n] }, ub := ub, complete := true,
              pos := 0, node := none } = .ok (some (.next
            { routes := [], routed := setRouted routed n false, routed_cnt := 0, cur := .new, ub := 0,
              complete := false, pos := 0, node := none })) := by
          simp only [swHead, swTest, if_true, swRoute, hLt, hw, Bool.true_or]
          rw [hen, hen2 _ _ _ rfl]
          simp [swStore]
        simp only [sweepLoop, e1, swAdd, swMove, hscan2 _ (inner + 1) (hset2 routed)]
        exact ih.1 _ (hset2 routed)

/-- C30. The hypothesis that each customer alone is within the cost limit cannot be dropped: the sweep
over a single customer further away than the limit allows never ends. -/
theorem C30_needs_limit {D : ℕ → ℕ → ℚ} {d : ℕ → ℚ} {C L : Option ℚ} {n : ℕ} (fwd : Bool) (hn : n ≠ 0)
    (h00 : D 0 0 = 0) (hL : 0 < L.getD 0) (hC : Within C C_EPS (d n))
    (hbad : ¬ Within L S_EPS (cost D (wrap [n]))) (fuel : ℕ) :
    do_one_sweep fuel D d C L (sweptOrder D) [n] 0 fwd false = .ok none := by
  have hbad' : exceeds L S_EPS (cost D (wrap [n])) = true := by
    rw [← exceeds_iff] at hbad
    simpa using hbad
  exact (sweep_loops fwd hn h00 hL hC hbad' fuel fuel).1 _ (by simpa using hn)

/-! ## Concrete cases -/

/-- Customers on a line on both sides of the depot. -/
def exSweepD : ℕ → ℕ → ℚ := fun i j =>
  let x : ℕ → ℚ := fun n => if n = 0 then 0 else if n % 2 = 0 then n else -n
  |x i - x j|

/-- The hypotheses of `C30_sweep` hold for five customers with both limits. -/
example : ∃ (us : List (List ℕ)) (routes : List SwRoute),
    (∃ F, ∀ fuel, F ≤ fuel →
      do_one_sweep fuel exSweepD (fun _ => 1) (some 2) (some 12) (sweptOrder exSweepD) [2, 4, 1, 3, 5] 3 false false
        = .ok (some routes)) ∧
    routes.map (fun rd => (rd.route, rd.cost)) = us.map (fun u => (wrap u, cost exSweepD (wrap u))) ∧
    us.flatten.Perm [2, 4, 1, 3, 5] ∧ [] ∉ us ∧ ∀ u ∈ us, RouteOk exSweepD (fun _ => 1) (some 2) (some 12) u :=
  C30_sweep false (by decide) (fun _ => by norm_num) (sweptOrder_ok _)
    (by
      intro n hn
      rw [RouteOk, ← exceeds_iff, ← exceeds_iff]
      revert n
      decide +kernel)
    (by decide)

/-- That sweep. -/
example : do_one_sweep 100 exSweepD (fun _ => 1) (some 2) (some 12) (sweptOrder exSweepD) [2, 4, 1, 3, 5] 3 false false
    = .ok (some
      [⟨[0, 3, 1, 0], 6, 2, [0, 3, 1]⟩, ⟨[0, 4, 2, 0], 8, 2, [0, 4, 2]⟩, ⟨[0, 5, 0], 10, 1, [0, 5]⟩]) := by
  decide +kernel

/-- Here customer 2 is taken out of the first route again because of the cost limit. -/
example : do_one_sweep 100 exSweepD (fun _ => 1) none (some 11) (sweptOrder exSweepD) [5, 2, 4, 1, 3] 0 true false
    = .ok (some
      [⟨[0, 5, 0], 10, 0, [0, 5]⟩, ⟨[0, 2, 4, 1, 0], 10, 0, [0, 2, 4, 1]⟩, ⟨[0, 3, 0], 6, 0, [0, 3]⟩]) := by
  decide +kernel

/-- The alternatives for the first route. -/
example : (do_one_sweep 100 exSweepD (fun _ => 1) (some 3) (some 11) (sweptOrder exSweepD) [2, 4, 1, 3, 5] 0 true true).map
    (fun o => o.map fun rs => rs.map (·.route)) = .ok (some [[0, 2, 0], [0, 2, 4, 0], [0, 2, 4, 1, 0]]) := by
  decide +kernel

/-- The best of the sweeps in both directions from all the starts. -/
example : (sweep_init 100 6 exSweepD (fun _ => 1) (some 3) none (sweptOrder exSweepD) [2, 4, 1, 3, 5] false
    .both .best).map (fun o => o.map (·.1)) = .ok (some (some [0, 1, 3, 5, 0, 2, 4, 0])) := by
  decide +kernel

/-- A customer out of reach. -/
example (fuel : ℕ) : do_one_sweep fuel exSweepD (fun _ => 1) (some 2) (some 9) (sweptOrder exSweepD) [5] 0 true false
    = .ok none :=
  C30_needs_limit true (by decide) (by decide +kernel) (by decide +kernel)
    (by rw [← exceeds_iff]; decide +kernel) (by rw [← exceeds_iff]; decide +kernel) fuel

end Verif
