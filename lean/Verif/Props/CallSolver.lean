import Verif.Model.CallSolver
import Verif.Spec.CallInit
import Verif.Props.Matching
import Verif.Props.PetalRelax
import Verif.Props.GapSeeds
import Verif.Props.TspGurobi
import Verif.Props.CallInit

/-! # C63 for the heuristics that call the integer programming solver -/

namespace Verif
open Spec

/-- A routine for the travelling salesman problem whose tours are the shortest. -/
def LeastRoutine (D : ℕ → ℕ → ℚ) (tsp : List ℕ → List ℕ × ℚ) : Prop :=
  ∀ t u : List ℕ, t ≠ [] → (0 :: t).Nodup → u.Perm t → (tsp (0 :: t)).2 ≤ cost D (wrap u)

/-- **C71**: the exact routine is one whose tours are the shortest. -/
theorem C71_least {D : ℕ → ℕ → ℚ} (hD : ∀ i j, D i j = D j i) {solver : ℕ → (ℕ → ℕ → ℚ) → EdgeAnswer} (hs : EdgeSolver solver)
    (ha : ∀ n w, 4 ≤ n → ∃ X, solver n w = .values X) : LeastRoutine D (gurobiRoutine solver D) := by
  intro t u ht hnd hu
  rcases C71_optimal hD hs ht (List.nodup_cons.1 hnd).1 (.inl rfl) with ⟨sol, h1, h2⟩ | ⟨h3, w, ⟨h1, -⟩ | ⟨h1, -⟩⟩
  · rw [gurobiRoutine, h1]
    exact h2.2 u hu
  · obtain ⟨X, hX⟩ := ha (t.length + 1) w (by omega)
    rw [hX] at h1; cases h1
  · obtain ⟨X, hX⟩ := ha (t.length + 1) w (by omega)
    rw [hX] at h1; cases h1

theorem cost_wrap_join {D : ℕ → ℕ → ℚ} (htri : ∀ a b c, D a c ≤ D a b + D b c) {a b : List ℕ} (ha : a ≠ []) (hb : b ≠ []) :
    cost D (wrap (a ++ b)) ≤ cost D (wrap a) + cost D (wrap b) := by
  obtain ⟨a', x, rfl⟩ : ∃ a' x, a = a' ++ [x] := ⟨a.dropLast, a.getLast ha, (List.dropLast_append_getLast ha).symm⟩
  cases b with
  | nil => exact absurd rfl hb
  | cons y b =>
    have h1 : wrap (a' ++ [x] ++ y :: b) = (0 :: a') ++ x :: (y :: b ++ [0]) := by simp [wrap]
    have h2 : wrap (a' ++ [x]) = (0 :: a') ++ x :: [0] := by simp [wrap]
    have h3 : wrap (y :: b) = 0 :: y :: (b ++ [0]) := by simp [wrap]
    rw [h1, h2, h3, cost_append_cons D (0 :: a') x (y :: b ++ [0]), cost_append_cons D (0 :: a') x [0]]
    have e1 : cost D (x :: (y :: b ++ [0])) = D x y + cost D (y :: (b ++ [0])) := rfl
    have e2 : cost D (0 :: y :: (b ++ [0])) = D 0 y + cost D (y :: (b ++ [0])) := rfl
    have e3 : cost D [x, 0] = D x 0 := by simp [cost]
    rw [e1, e2, e3]
    have := htri x 0 y
    linarith

/-- With such a routine and the triangle inequality joining two routes never costs more. -/
theorem least_subadditive {D : ℕ → ℕ → ℚ} (htri : ∀ a b c, D a c ≤ D a b + D b c) {tsp : List ℕ → List ℕ × ℚ} (ht : TspRoutine D tsp)
    (hl : LeastRoutine D tsp) (N : ℕ) : Subadditive N tsp := by
  intro a b c ha hb hc hr hnd _ _ _
  have h0 : (0 :: c).Nodup := List.nodup_cons.2 ⟨fun h => by have := hr 0 h; omega, hnd⟩
  have hab := (hc.cons 0).nodup_iff.1 h0
  have ha0 : (0 :: a).Nodup := hab.sublist ((List.sublist_append_left a b).cons_cons 0)
  have hb0 : (0 :: b).Nodup := hab.sublist ((List.sublist_append_right a b).cons_cons 0)
  obtain ⟨ua, p1, e1⟩ := ht a ha ha0
  obtain ⟨ub, p2, e2⟩ := ht b hb hb0
  have hcn : c ≠ [] := by
    rintro rfl
    have := hc.length_eq
    simp at this
    exact ha (List.length_eq_zero_iff.1 (by omega))
  have hne1 : ua ≠ [] := fun h => ha (by rw [h] at p1; exact p1.symm.eq_nil)
  have hne2 : ub ≠ [] := fun h => hb (by rw [h] at p2; exact p2.symm.eq_nil)
  rw [e1, e2]
  exact (hl c (ua ++ ub) hcn h0 ((p1.append p2).trans hc.symm)).trans (cost_wrap_join htri hne1 hne2)

/-! ## The matching based savings -/

/-- **C63**, the matching based savings, with any routine that finds the shortest tours (the exact one does, `C71_least`): the call
always ends. Either it returns a complete solution in which each customer is served once and the limits are kept, or it raises
`ValueError`, and that only if all the customers fit on one route. -/
theorem C63_matching_partial {e : CallEnv} (h : CallOk e) {s : SolverEnv} (hm : SolvesRows s.mmp) (ht : TspRoutine e.D s.mmTsp)
    (hl : LeastRoutine e.D s.mmTsp) (single mk : Bool) :
    (∃ sol, DepotEnds sol ∧ Covers e.N sol ∧ squeeze sol = sol ∧ Feasible e.D e.d e.C e.L sol ∧
      ∀ fuel > e.N, call_init { e with solver := solverCalls e s } .mbsa single mk fuel = some (.ret (some sol))) ∨
    ((∃ u : List ℕ, u.Perm (List.range' 1 (e.N - 1)) ∧ RouteOk e.D e.d e.C e.L u) ∧
      ∀ fuel > e.N, call_init { e with solver := solverCalls e s } .mbsa single mk fuel = some (.failed .valueError)) := by
  rcases C54_partial (N := e.N) (C := e.C) (L := e.L) (W := 0) hm ht h.dem0 mk true
    (.inr (least_subadditive h.metric.triangle ht hl e.N)) with ⟨h1, h2⟩ | ⟨us, sets, h1, -, -, -, h2⟩
  · obtain ⟨u, u1, u2, -⟩ := h1 h.serviceable (by have := h.size; omega)
    refine .inr ⟨⟨u, u1, u2⟩, fun fuel hf => ?_⟩
    simp only [call_init, solverCalls]
    rw [h2 fuel hf, outSol]
  · refine .inl ⟨tour us, h1.ends, h1.covers, h1.noEmpty, h1.feasible h.serviceable, fun fuel hf => ?_⟩
    simp only [call_init, solverCalls]
    rw [h2 fuel hf, outSol]

/-! ## The generalized assignment -/

/-- A route for each customer. -/
theorem trivial_packed {N : ℕ} {d : ℕ → ℚ} {c : ℚ} (h : ∀ i, 1 ≤ i → i < N → d i ≤ c) (hN : 1 ≤ N) : Packed N d c (trivialSol N) := by
  have hr : ∀ b ∈ (List.range' 1 (N - 1)).map (fun n => [n]), b ≠ [] ∧ ∀ x ∈ b, x ≠ 0 := by
    intro b hb
    obtain ⟨n, hn, rfl⟩ := List.mem_map.1 hb
    have := List.mem_range'_1.1 hn
    refine ⟨by simp, fun x hx => ?_⟩
    rw [List.mem_singleton.1 hx]
    omega
  have hb : blocks (trivialSol N) = (List.range' 1 (N - 1)).map fun n => [n] := blocks_tour_of_routes _ hr
  refine ⟨?_, fun b hm => ?_⟩
  · have : customers (trivialSol N) = List.range' 1 (N - 1) := by
      rw [trivialSol, customers_tour, List.flatMap_map]
      have h1 : ∀ l : List ℕ, (∀ x ∈ l, x ≠ 0) → l.flatMap (fun n => customers [n]) = l := by
        intro l hl
        induction l with
        | nil => rfl
        | cons x l ih =>
          rw [List.flatMap_cons, ih fun y hy => hl y (by simp [hy])]
          simp [customers, hl x (by simp)]
      exact h1 _ fun x hx => by have := List.mem_range'_1.1 hx; omega
    unfold Covers
    rw [this]
  · rw [hb] at hm
    obtain ⟨n, hn, rfl⟩ := List.mem_map.1 hm
    have := List.mem_range'_1.1 hn
    simpa [demand] using h n (by omega) (by omega)

/-- **C63**, the generalized assignment with the seed points of the cones: if the capacity is the only limit and no customer asks for
more, and the solver answers right, the call ends with a complete solution in which each customer is served once and the capacity is
kept, whether or not the number of routes is to be minimised. If it is to be, no such solution has fewer routes. The total demand must be
above the tolerance. -/
theorem C63_assignment_partial {e : CallEnv} (h : CallOk e) {s : SolverEnv} (ht : TspRoutine e.D s.gapTsp) (hs : GapRight s.gopt s.grlx)
    (ha : GapAnswers s.gopt) (hlate : ∀ t, s.late t = false) (hsw : SweepOf e.N s.sweep) {c : ℚ} (hC : e.C = some c) (hc : 0 < c)
    (hL : truthy e.L = false) (hd : ∀ i, 1 ≤ i → i < e.N → e.d i ≤ c)
    (hbig : ((e.N - 1 : ℕ) : ℚ) * ((e.N - 1 : ℕ) + 1) / 10 ^ 10 ≤ demand e.d (List.range e.N)) (single mk : Bool) :
    ∃ sol F, DepotEnds sol ∧ Covers e.N sol ∧ squeeze sol = sol ∧ Feasible e.D e.d e.C e.L sol ∧
      (mk = true → ∀ sol', Packed e.N e.d c sol' → (blocks sol).length ≤ (blocks sol').length) ∧
      ∀ fuel ≥ F, call_init { e with solver := solverCalls e s } .gap single mk fuel = some (.ret (some sol)) := by
  have hN := h.size
  have hin : InUse e.C := by simp [InUse, hC, hc.ne']
  have hpt : hasPoints e = true := by
    obtain ⟨p, ps, hp⟩ := h.points
    simp [hasPoints, hp]
  have htot : sweepTotal e.N e.D e.d e.C s.sweep = demand e.d (List.range e.N) := by
    rw [sweepTotal, if_neg (by simp [hC, hc.ne'])]
  have hN2 : (2 : ℚ) ≤ ((e.N - 1 : ℕ) : ℚ) := by exact_mod_cast (by omega : 2 ≤ e.N - 1)
  have hx : GapExact (callGapArgs e s single mk) c := by
    refine ⟨⟨ht, hs⟩, hC, hc, hL, rfl, hlate, ha, ?_⟩
    intro K t h1 h2 h3
    have hk : (K : ℚ) ≤ ((e.N - 1 : ℕ) : ℚ) := by exact_mod_cast h2
    have hk0 : (0 : ℚ) ≤ K := Nat.cast_nonneg K
    obtain ⟨seeds, e1, e2, -⟩ := C68_cones_partial (g := s.trig) (depot := s.depot) hsw
      (D := e.D) (d := e.d) (C := e.C) ⟨fun _ i _ => h.dem i, fun hn => absurd hin hn⟩ h1 h3 (by omega : 2 ≤ e.N)
      (by rw [htot]; exact le_trans (by gcongr) hbig)
    refine ⟨seeds.map s.row, ?_, by simp [e2]⟩
    simp only [callGapArgs]
    rw [e1]
    rfl
  have hpos : 0 < ((List.range e.N).map e.d).sum := by
    have h1 : 0 < ((e.N - 1 : ℕ) : ℚ) * ((e.N - 1 : ℕ) + 1) / 10 ^ 10 := by positivity
    rw [← demand_eq_sum]
    exact lt_of_lt_of_le h1 hbig
  obtain ⟨sol, log, ⟨F, hF⟩, hsol, hfeas⟩ := C58_found_partial hx (by show 1 ≤ e.N; omega) h.dem0 hpos false
    (trivial_packed (N := e.N) hd (by omega))
  refine ⟨sol, F, hsol.ends, hsol.covers, hsol.noEmpty, hfeas, fun hmk => ?_, fun fuel hf => ?_⟩
  · rcases C58_least_partial hx hmk (by show 1 ≤ e.N; omega) h.dem0 hpos false with ⟨sol2, log2, ⟨F2, hF2⟩, -, -, hl⟩ | ⟨⟨F2, hF2⟩, -⟩
    · have e1 := hF (F + F2) (by omega)
      dsimp only at e1 hF2
      rw [hF2 (F + F2) (by omega)] at e1
      simp only [Except.ok.injEq, Option.some.injEq, GapResult.ret.injEq] at e1
      rw [← e1.1]
      exact hl
    · have e1 := hF (F + F2) (by omega)
      dsimp only at e1 hF2
      rw [hF2 (F + F2) (by omega)] at e1
      simp at e1
  simp only [call_init, solverCalls]
  have := hF fuel hf
  dsimp only at this
  rw [hpt, this, outGap]

/-! ## The petals -/

theorem scp_not_interrupted {opt rlx : MipSolver} (h : ∀ t M, opt t M ≠ .interrupted ∧ rlx t M ≠ .interrupted) {call N : ℕ}
    {active relaxed : List Petal} {forbidden : List (List ℤ)} {allow : Bool} {K : Option ℕ} :
    solve_set_covering opt rlx call N active relaxed forbidden allow K ≠ .interrupted := by
  have h1 := (h call (ptModel N active relaxed forbidden K)).1
  have h2 := (h call (ptModel N active relaxed forbidden K)).2
  unfold solve_set_covering
  split
  · simp
  · simp
  · rename_i e; exact absurd e h1
  · split
    · split
      · simp
      · simp
      · rename_i e; exact absurd e h2
      · simp
    · simp
  · simp

theorem ptStage_stop {a : PtArgs} (h : ∀ t M, a.opt t M ≠ .interrupted ∧ a.rlx t M ≠ .interrupted) {s : PtState} {k : ℕ} {c : PtCov}
    (hc : c.stop ≠ some true) : (ptStage a s k c).stop ≠ some true := by
  unfold ptStage
  dsimp only
  split
  · exact hc
  · rename_i e; exact absurd e (scp_not_interrupted h)
  · simp

theorem ptCover_stop {a : PtArgs} (h : ∀ t M, a.opt t M ≠ .interrupted ∧ a.rlx t M ≠ .interrupted) (s : PtState) :
    (ptCover a s).stop ≠ some true := by
  unfold ptCover
  dsimp only
  have h0 : ∀ (p : Prop) [Decidable p] (k : ℕ) (c : PtCov), c.stop ≠ some true → (if p then ptStage a s k c else c).stop ≠ some true := by
    intro p _ k c hc
    split
    · exact ptStage_stop h hc
    · exact hc
  exact h0 _ _ _ (h0 _ _ _ (h0 _ _ _ (by simp)))

theorem ptFound_not_interrupt {a : PtArgs} (hsig : ∀ n, a.signal n = none) {s : PtState} {routes : List (List ℕ)} {idxs : List ℤ}
    {feasible : Bool} {b : Option (List ℕ)} : ptFound a false s routes idxs feasible ≠ .ok (.inr (.interrupt b)) := by
  unfold ptFound
  dsimp only
  rw [if_neg (by rw [hsig]; simp)]
  split
  · simp
  · simp only [Bool.false_eq_true, if_false]
    split <;> simp

theorem ptIter_not_interrupt {a : PtArgs} (h : ∀ t M, a.opt t M ≠ .interrupted ∧ a.rlx t M ≠ .interrupted) (hsig : ∀ n, a.signal n = none)
    {s : PtState} {b : Option (List ℕ)} : ptIter a s ≠ .ok (.inr (.interrupt b)) := by
  have hst := ptCover_stop h s
  unfold ptIter
  dsimp only
  split
  · simp
  · unfold ptAfter
    dsimp only
    rw [if_neg (by rw [hsig]; simp), decide_eq_false hst]
    split
    · unfold ptMissing
      split <;> simp
    · split
      · split
        · simp
        · exact ptFound_not_interrupt hsig
      · exact ptFound_not_interrupt hsig

theorem ptLoop_not_interrupt {a : PtArgs} (h : ∀ t M, a.opt t M ≠ .interrupted ∧ a.rlx t M ≠ .interrupted) (hsig : ∀ n, a.signal n = none)
    {b : Option (List ℕ)} : ∀ fuel s, ptLoop a fuel s ≠ .ok (some (.interrupt b)) := by
  intro fuel
  induction fuel with
  | zero => intro s; simp [ptLoop]
  | succ fuel ih =>
    intro s
    unfold ptLoop
    have := ptIter_not_interrupt h hsig (s := s) (b := b)
    match hi : ptIter a s with
    | .error e => simp
    | .ok (.inr r) =>
      dsimp only
      rintro ⟨⟩
      exact this hi
    | .ok (.inl s') => exact ih s'

theorem petal_not_interrupted {sweeps fuel N : ℕ} {D : ℕ → ℕ → ℚ} {d : ℕ → ℚ} {C L : Option ℚ} {o : PtOpts} {tsp : Router}
    {nodes : List ℕ} {opt rlx : MipSolver} {gen : List (List ℕ) → Py (List RouteData)}
    (h : ∀ t M, opt t M ≠ .interrupted ∧ rlx t M ≠ .interrupted) {b : Option (List ℕ)} :
    petal_init sweeps fuel N D d C L o tsp nodes opt rlx gen (fun _ => none) ≠ .ok (some (.interrupt b)) := by
  unfold petal_init
  split
  · simp
  · split
    · simp
    · simp
    · exact ptLoop_not_interrupt (by exact h) (by simp) _ _

/-- **C63**, the petals: if a single iteration is not asked for and the number of routes is not to be minimised, and the solver answers
right, in time and without interruption, the call ends with a solution in which each customer is served once and the limits are kept. -/
theorem C63_petals_partial {e : CallEnv} (h : CallOk e) {s : SolverEnv} (ht : TspRoutine e.D s.ptTsp) (hs : SolverRight s.opt)
    (ha : ∀ t M, s.opt t M ≠ .interrupted ∧ s.rlx t M ≠ .interrupted ∧ s.opt t M ≠ .timeLimit ∧ s.rlx t M ≠ .timeLimit) :
    ∃ sol F, DepotEnds sol ∧ Covers e.N sol ∧ Feasible e.D e.d e.C e.L sol ∧
      ∀ fuel ≥ F, call_init { e with solver := solverCalls e s } .ptl false false fuel = some (.ret (some sol)) := by
  have hN := h.size
  have hpt : hasPoints e = true := by
    obtain ⟨p, ps, hp⟩ := h.points
    simp [hasPoints, hp]
  have hi : PtInstance e.N e.D e.d e.C e.L (callPtOpts false false) s.ptTsp e.nodes s.opt (relaxed_petals e.N .auto e.D e.C e.d e.L) :=
    ⟨by omega, h.metric.symm, h.nodes, h.dem, ht, h.serviceable, hs,
      fun _ => C57_petals h.metric.triangle (h.metric.self 0) h.dem h.dem0 .auto, fun _ => h.metric.triangle⟩
  obtain ⟨F, r, hF⟩ := C55_ends_partial hi s.rlx (fun _ => none) rfl rfl
  obtain ⟨G, hG⟩ := C57_answer_partial (o := callPtOpts false false) (by omega : 2 ≤ e.N) h.metric.symm h.metric.triangle (h.metric.self 0) h.dem h.dem0
    h.nodes ht h.serviceable hs .auto s.rlx (fun _ => none)
  obtain ⟨x, h1, h2, h3, -⟩ := hG (max F G) (le_max_right _ _) (max F G)
  rw [hF _ (le_max_left _ _) _ (le_max_left _ _)] at h1
  obtain rfl : some r = x := by injection h1
  match r, h1, h2, h3, hF with
  | .gurobiError, _, h2, _, _ =>
    obtain ⟨t, M, h | h⟩ := h2 rfl
    · exact absurd h (ha t M).2.2.1
    · exact absurd h (ha t M).2.2.2
  | .interrupt b, _, _, _, hF =>
    exact absurd (hF F le_rfl F le_rfl) (petal_not_interrupted fun t M => ⟨(ha t M).1, (ha t M).2.1⟩)
  | .ret b, _, _, h3, hF =>
    obtain ⟨sol, rfl, hsol, -⟩ := h3 b rfl rfl fun t M => ⟨(ha t M).1, (ha t M).2.1⟩
    refine ⟨sol, F, hsol.ends, hsol.covers, hsol.feasible, fun fuel hf => ?_⟩
    simp only [call_init, solverCalls, callPtl]
    rw [hpt, if_pos rfl, hF fuel hf fuel hf, outPt]

/-- **C63**: the generalized assignment and the petals need coordinates; the matching based savings do not look at them. -/
theorem C63_solver_no_points (e : CallEnv) (s : SolverEnv) (hp : e.points = none ∨ e.points = some []) (single mk : Bool) (fuel : ℕ) :
    call_init { e with solver := solverCalls e s } .gap single mk fuel = some (.failed .valueError) ∧
    call_init { e with solver := solverCalls e s } .ptl single mk fuel = some (.failed .valueError) ∧
    ∀ ps, call_init { e with points := ps, solver := solverCalls { e with points := ps } s } .mbsa single mk fuel =
      call_init { e with solver := solverCalls e s } .mbsa single mk fuel := by
  have h : hasPoints e = false := by rcases hp with hp | hp <;> simp [hasPoints, hp]
  refine ⟨?_, ?_, fun ps => rfl⟩
  · simp [call_init, solverCalls, h, gap_init, outGap]
  · simp [call_init, solverCalls, callPtl, h]

/-! ## Examples -/

theorem ceEnv_ok_cap : CallOk (ceEnv (some 2) none) where
  size := by decide
  metric := ceLine_metric
  distinct := ceEnv_ok.distinct
  dem0 := rfl
  dem := ceEnv_ok.dem
  cap c h := by cases h; norm_num
  len c h := by cases h
  serviceable n h1 h2 := by
    have : n < 5 := h2
    refine ⟨fun c hc _ => ?_, fun c hc _ => ?_⟩ <;> cases hc <;> interval_cases n <;> decide +kernel
  points := ⟨_, _, rfl⟩
  nodes := List.Perm.refl _
  whNodes := List.Perm.refl _
  whTwo h := by simp [ceEnv] at h
  angles := ceEnv_ok.angles
  pick := ceEnv_ok.pick
  tsp := ceEnv_ok.tsp
  tspOrder := ceEnv_ok.tspOrder
  tspPart := ceEnv_ok.tspPart
  gen := ceEnv_ok.gen
  popt := ceEnv_ok.popt
  poptGrows := ceEnv_ok.poptGrows
  ropt := ceEnv_ok.ropt

theorem bruteOpt_answers (t : ℕ) (M : ScpModel) : bruteOpt t M ≠ .interrupted ∧ bruteOpt t M ≠ .timeLimit := by
  unfold bruteOpt
  cases (allBools M.sets.length).filter (satB M) <;> simp

/-- A solver that tries everything, and the exact routine with a solver that does; the customers are on a circle around the depot. -/
def ceSolver (mmp : List (ℚ × ℕ × ℕ) → Option (List Bool)) (tsp : Router) : SolverEnv where
  mmp := mmp
  mmTsp := tsp
  opt := bruteOpt
  rlx := bruteOpt
  ptTsp := tsp
  gopt := gapBrute true
  grlx := gapBruteRelaxed
  gapTsp := tsp
  late _ := false
  debug := true
  st := none
  int_dists := true
  trig := gsTrig
  sweep := gsSweep
  depot := (0, 0)
  row p n := p.1 + n

/-- The hypotheses of `C63_matching_partial`, `C63_assignment_partial` and `C63_petals_partial` are met. -/
example : ∃ s : SolverEnv,
    (∃ sol, call_init { ceEnv (some 2) (some 8) with solver := solverCalls (ceEnv (some 2) (some 8)) s } .mbsa true false 6 =
      some (.ret (some sol)) ∧ Covers 5 sol) ∧
    (∃ sol F, ∀ fuel ≥ F, call_init { ceEnv (some 2) none with solver := solverCalls (ceEnv (some 2) none) s } .gap true false fuel =
      some (.ret (some sol)) ∧ Covers 5 sol) ∧
    ∃ sol F, ∀ fuel ≥ F, call_init { ceEnv (some 2) (some 8) with solver := solverCalls (ceEnv (some 2) (some 8)) s } .ptl false false fuel =
      some (.ret (some sol)) ∧ Covers 5 sol := by
  obtain ⟨mmp, hm⟩ := solvesRows_exists
  obtain ⟨solver, hs, ha⟩ := C71_solver_exists
  have ht := (C71_routine ceLine_metric.symm hs ha).1
  refine ⟨ceSolver mmp (gurobiRoutine solver ceLine), ?_, ?_, ?_⟩
  · rcases C63_matching_partial ceEnv_ok (s := ceSolver mmp (gurobiRoutine solver ceLine)) hm ht (C71_least ceLine_metric.symm hs ha) true false with
      ⟨sol, -, h1, -, -, h2⟩ | ⟨⟨u, h1, h2⟩, -⟩
    · exact ⟨sol, h2 6 (by decide), h1⟩
    · exfalso
      have h3 := h2.1 2 rfl (by norm_num)
      rw [demand_perm _ h1] at h3
      exact absurd h3 (by decide +kernel)
  · obtain ⟨sol, F, -, h1, -, -, -, h2⟩ := C63_assignment_partial ceEnv_ok_cap (s := ceSolver mmp (gurobiRoutine solver ceLine)) ht
      (gapBrute_right true) (gapBrute_answers true) (fun _ => rfl) gsSweep_ok rfl (by norm_num) rfl
      (fun i _ _ => by show (if i = 0 then (0 : ℚ) else 1) ≤ 2; split <;> norm_num) (by decide +kernel) true false
    exact ⟨sol, F, fun fuel hf => ⟨h2 fuel hf, h1⟩⟩
  · obtain ⟨sol, F, -, h1, -, h2⟩ := C63_petals_partial ceEnv_ok (s := ceSolver mmp (gurobiRoutine solver ceLine)) ht bruteOpt_right
      (fun t M => ⟨(bruteOpt_answers t M).1, (bruteOpt_answers t M).1, (bruteOpt_answers t M).2, (bruteOpt_answers t M).2⟩)
    exact ⟨sol, F, fun fuel hf => ⟨h2 fuel hf, h1⟩⟩

end Verif
