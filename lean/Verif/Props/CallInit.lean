import Verif.Spec.CallInit
import Verif.Props.Cmt
import Verif.Props.Tyagi
import Verif.Props.Sweep
import Verif.Props.SweepCallback
import Verif.Props.WrenHollidayInit
import Verif.Props.Rfcs
import Verif.Props.Lr3optInit
import Verif.Props.MoleJameson
import Verif.Props.SavingsVariants
import Verif.Props.SequentialSavings
import Verif.Props.ParallelSavings
import Verif.Props.Parallel

/-! # C63: the heuristics as they are called -/

namespace Verif

open Spec

theorem callOk_distinct {e : CallEnv} (h : CallOk e) : DistinctCustomers e.N e.D where
  customers i j h1 h2 h3 h4 h5 := by rw [h.metric.self]; exact h.distinct i j h1 h2 h3 h4 h5
  depot i _ _ := by rw [h.metric.self]; exact h.metric.nonneg _ _
  fromDepot i _ _ := by rw [h.metric.self]; exact h.metric.nonneg _ _

theorem callOk_rounded {e : CallEnv} (h : CallOk e) : CallRounded e where
  size := h.size
  symm := h.metric.symm
  nonneg := h.metric.nonneg
  self := h.metric.self
  dem0 := h.dem0
  dem := h.dem
  cap := h.cap
  len := h.len
  serviceable := h.serviceable
  points := h.points
  nodes := h.nodes
  pick := h.pick
  tsp := h.tsp
  tspOrder := h.tspOrder
  gen := h.gen
  popt := h.popt
  ropt := h.ropt

theorem two_le {e : CallEnv} (h : CallRounded e) : 2 ≤ e.N := by have := h.size; omega

/-- What every call should give. -/
def CallGood (e : CallEnv) (a : Algo) (single mk : Bool) : Prop :=
  ∃ sol, Solves e.N e.D e.d e.C e.L sol ∧ CallGives e a single mk sol

variable {e : CallEnv} {single mk : Bool}

theorem callPs_good (h : CallRounded e) : CallGood e .ps single mk := by
  obtain ⟨sol, seen, h1, h2, -⟩ := C25_solves (two_le h) h.symm e.d e.C e.L mk
    (C25_clarke_wright e.N e.D).1
  exact ⟨sol, h2, .inl ⟨0, fun fuel _ => by simp only [call_init, callPs, h1]⟩⟩

theorem callPs2o_good (h : CallRounded e) : CallGood e .ps2o single mk := by
  obtain ⟨-, sol, -, ⟨F, h1⟩, h2, -⟩ := C50_partial (two_le h) h.symm (h.self 0) h.dem0 e.C e.L mk
  exact ⟨sol, h2.1, .inl ⟨F, fun fuel hf => by simp only [call_init, h1 fuel hf, outSol]⟩⟩

theorem callGpl_good (h : CallRounded e) : CallGood e .gpl single mk := by
  obtain ⟨-, -, sol, -, -, h1, -, h2, -⟩ := C47 (two_le h) h.symm e.d e.C e.L mk
    (method := if single then .pi else .both) (by cases single <;> simp)
  exact ⟨sol, h2.1, .inl ⟨0, fun fuel _ => by simp only [call_init, callGpl, h1]⟩⟩

theorem callSs_good (h : CallRounded e) : CallGood e .ss single mk := by
  obtain ⟨F, sol, seen, h1, h2, -⟩ := C27_solves h.symm e.d e.C e.L mk (C27_seeds e.N e.D).2.1
    (clarke_wright_savings e.D)
  exact ⟨sol, h2, .inl ⟨F, fun fuel hf => by simp only [call_init, callSs, h1 fuel hf]⟩⟩

theorem callGps_good (h : CallRounded e) : CallGood e .gps single mk := by
  obtain ⟨-, -, sol, -, -, ⟨F, h1⟩, -, h2, -⟩ := C48 (two_le h) h.symm (h.self 0) h.dem0 e.C e.L mk
    true (strategy := .M4) (by simp)
  exact ⟨sol, h2.1, .inl ⟨F, fun fuel hf => by simp only [call_init, h1 fuel hf, outSav]⟩⟩

theorem callIms_good (h : CallRounded e) : CallGood e .ims single mk := by
  obtain ⟨-, -, sol, -, -, -, h1, -, h2, -⟩ := C49_partial h.size h.symm e.d e.C e.L mk (Lprime := none) (by simp)
  exact ⟨sol, h2.1, .inl ⟨0, fun fuel _ => by simp only [call_init, callIms, h1]⟩⟩

theorem callSi_good (h : CallRounded e) : CallGood e .si single mk ∧ CallGood e .pi single mk := by
  obtain ⟨s, p, h1, h2, -, -, ⟨F, h3⟩, ⟨F', h4⟩, -⟩ := C62_insertion e.D e.C e.L mk (h.pick 0) h.dem0
    (two_le h)
  exact ⟨⟨s, h1, .inl ⟨F, fun fuel hf => by simp only [call_init, h3 fuel hf, outSol]⟩⟩,
    ⟨p, h2, .inl ⟨F', fun fuel hf => by simp only [call_init, h4 fuel hf, outSol]⟩⟩⟩

theorem callMj_good (h : CallRounded e) (hM : MjDist e.D) : CallGood e .mj single mk := by
  obtain ⟨-, sol, -, ⟨F, h1⟩, -, h2, -⟩ := C51 (two_le h) hM h.dem0 h.dem e.C e.L mk h.pick
    (c := if single then .clarke_wright else .all) (by cases single <;> simp)
  exact ⟨sol, h2, .inl ⟨F, fun fuel hf => by simp only [call_init, h1 fuel hf, outSav]⟩⟩

theorem callCmt_good (h : CallRounded e) : CallGood e .cmt single mk := by
  obtain ⟨t, sol, h1, _, _, F, h2⟩ := C42_init (a := cmtDefaults e mk) (two_le h) h.tsp h.tspOrder
    (by simp [cmtDefaults]) e.luck
  exact ⟨sol, h1, .inl ⟨F, fun fuel hf => by simp only [call_init, (h2 fuel hf).2, outOpt]⟩⟩

theorem callSn_good (h : CallRounded e) (hx : DistinctCustomers e.N e.D) : CallGood e .sn single false ∧ CallGood e .pn single false := by
  obtain ⟨sols, h1, ⟨F, h2⟩, ⟨F1, h3⟩, -, k, h4, h5, ⟨F2, h6⟩, -⟩ := C62_nearest_partial e.d e.C e.L
    (two_le h) hx
  refine ⟨⟨_, (h1 1 le_rfl).1, .inl ⟨F, fun fuel hf => by simp only [call_init, h2 fuel hf, outOpt]⟩⟩, ?_⟩
  cases single with
  | true => exact ⟨_, (h1 1 le_rfl).1, .inl ⟨F1, fun fuel hf => by simp only [call_init, h3 fuel hf, outOpt]⟩⟩
  | false => exact ⟨_, (h1 k h4).1, .inl ⟨F2, fun fuel hf => by simp only [call_init, h6 fuel hf, outOpt]⟩⟩

theorem callTy_good (h : CallRounded e) (hx : DistinctCustomers e.N e.D) : CallGood e .ty single false := by
  obtain ⟨sol, seen, h1, -, -, F, h2⟩ := C53_partial e.C e.L false true (sel := .minPenalty)
    (two_le h) (fun _ => h.size) hx h.dem0 (by simp) h.tsp h.tspOrder
  exact ⟨sol, h1, .inl ⟨F, fun fuel hf => by simp [call_init, callTy, h2 fuel hf, outSeen]⟩⟩

theorem callSwp_good (h : CallRounded e) : CallGood e .swp single mk := by
  obtain ⟨p, ps, hp⟩ := h.points
  have hN := h.size
  obtain ⟨⟨l1, a1, a2, a3⟩, ⟨l2, b1, b2⟩, -⟩ := C30_starts h.nodes (by omega)
  have hs : ∃ starts, sweepStarts e.N e.nodes (if single then .smallestAngle else .best) = .ok starts ∧ starts ≠ [] ∧
      ∀ s ∈ starts, s < e.N - 1 := by
    cases single with
    | true => exact ⟨l1, a1, a2, a3⟩
    | false =>
      refine ⟨l2, b1, ?_, by rw [b2]; simp⟩
      rw [b2]; simp; omega
  obtain ⟨starts, c1, c2, c3⟩ := hs
  obtain ⟨sol, seen, -, ⟨F, h1⟩, h2, -⟩ := C30_init (tsp := sweptOrder e.D) mk (dir := if single then .cw else .both)
    h.nodes h.dem (sweptOrder_ok e.D) h.serviceable (by cases single <;> simp) c1 c2 c3
  exact ⟨sol, h2, .inl ⟨F, fun fuel hf => by simp only [call_init, callSwp, hp, noPoints, h1 fuel hf, outSeen]⟩⟩

theorem callGm_good (h : CallRounded e) (hp : CheaperForPart (e.tsp e.D)) : CallGood e .gm single mk := by
  obtain ⟨p, ps, hpp⟩ := h.points
  have hN := h.size
  obtain ⟨-, ⟨l2, b1, b2⟩, l3, -⟩ := C30_starts h.nodes (by omega)
  have hs : ∃ starts, sweepStarts e.N e.nodes (if single then .node 1 else .best) = .ok starts ∧ starts ≠ [] ∧
      ∀ s ∈ starts, s < e.N - 1 := by
    cases single with
    | true =>
      obtain ⟨s, d1, d2, -⟩ := l3 1 (by
        show 1 % e.N ≠ 0
        rw [Nat.mod_eq_of_lt (by omega)]; omega)
      exact ⟨[s], d1, by simp, by simpa using d2⟩
    | false =>
      refine ⟨l2, b1, ?_, by rw [b2]; simp⟩
      rw [b2]; simp; omega
  obtain ⟨starts, c1, c2, c3⟩ := hs
  have hdir : (if single then SweepDir.ccw else .both) ≠ .other := by cases single <;> simp
  obtain ⟨a, F, h1⟩ := C52_ends (points := p :: ps) e.key mk (by simp) h.nodes h.dem h.tsp hp h.serviceable hdir c1 c3
  rcases C52_answers (points := p :: ps) e.key mk (by simp) h.nodes h.dem h.tsp h.serviceable hdir c1 c2 c3 F with
    h2 | ⟨sol, seen, -, h2, h3, -⟩
  · rw [h1 F le_rfl] at h2; simp at h2
  · exact ⟨sol, h3, .inl ⟨F, fun fuel hf => by
      simp only [call_init, callGm, hpp, Option.getD_some, h2 fuel hf, outSeen]⟩⟩

theorem callWh_good (h : CallOk e) : CallGood e .wh single mk := by
  obtain ⟨p, ps, hp⟩ := h.points
  have hN := h.size
  have hok : WhInputOk (whDefaults e mk) :=
    { symm := h.metric.symm, dist := h.metric.nonneg, depot := h.metric.self 0, dem := h.dem, dem0 := h.dem0
      serviceable := h.serviceable, nodes := h.whNodes, angles := h.angles, size := (by show 2 ≤ e.N; omega)
      triangle := h.metric.triangle }
  obtain ⟨w, ⟨F, h1⟩, h2⟩ := C46 hok h.whTwo e.ldp (seed := if single then .position 1 else .bestOfFour)
    (by cases single with
        | true => show 1 < e.N - 1; omega
        | false => trivial) (dir := .both) (by simp) (.second e.stages)
  rcases h2 with ⟨sol, h2, h3⟩ | ⟨h2, -⟩
  · refine ⟨sol, h3.1, ?_⟩
    cases w with
    | returned s =>
      cases h2
      exact .inl ⟨F, fun fuel hf => by simp only [call_init, callWh, hp, noPoints, h1 fuel hf, outWh]⟩
    | interrupted s =>
      cases h2
      exact .inr ⟨rfl, F, fun fuel hf => by simp only [call_init, callWh, hp, noPoints, h1 fuel hf, outWh]⟩
    | nothing => cases h2
  · cases h2

theorem callRfcs_good (h : CallRounded e) (hg : GrowsLonger e.popt) : CallGood e .rfcs single mk := by
  obtain ⟨sol, h1, h2, -⟩ := C33_init_partial (minimize_K := mk) (two_le h) h.gen h.popt h.ropt
    hg h.dem h.serviceable
  exact ⟨sol, h2, .inl ⟨e.N, fun fuel hf => by simp only [call_init, h1 fuel hf, outSol]⟩⟩

theorem callLr_good (h : CallRounded e) (hC : InUse e.C) (hd : ∃ i, i < e.N ∧ 0 < e.d i)
    (hx : ∃ i j, 1 ≤ i ∧ i < e.N ∧ 1 ≤ j ∧ j < e.N ∧ 0 < e.D i j) : CallGood e .lr3o single false := by
  have hN := h.size
  obtain ⟨u, u1, u2⟩ := h.tsp (List.range' 1 (e.N - 1)) (by simp; omega) (by
    rw [List.nodup_cons]
    exact ⟨by simp, List.nodup_range'⟩)
  have hr : pyRange 0 e.N = 0 :: List.range' 1 (e.N - 1) := by
    rw [pyRange]
    obtain ⟨n, hn⟩ : ∃ n, e.N = n + 1 := ⟨e.N - 1, by omega⟩
    rw [hn]
    simp [List.range'_succ]
  have hi : lrInitTsp (e.tsp e.D) e.N = wrap u ++ [0] := by rw [lrInitTsp, hr, u2]
  have hnn : NonNegative e.D e.d e.C e.L := ⟨h.nonneg, h.self 0, h.dem, h.cap, h.len⟩
  have hmem : ∀ i, 1 ≤ i → i < e.N → i ∈ wrap u ++ [0] := by
    intro i h1 h2
    have : i ∈ u := u1.mem_iff.2 (by rw [List.mem_range'_1]; omega)
    simp [wrap, this]
  have hdist : ∃ i ∈ lrInitTsp (e.tsp e.D) e.N, ∃ j ∈ lrInitTsp (e.tsp e.D) e.N, 0 < e.D i j := by
    rw [hi]
    obtain ⟨i, j, x1, x2, x3, x4, x5⟩ := hx
    exact ⟨i, hmem i x1 x2, j, hmem j x3 x4, x5⟩
  have hde : DepotEnds (lrInitTsp (e.tsp e.D) e.N) := by
    rw [hi]
    exact ⟨rfl, by rw [List.getLast?_append]; rfl⟩
  obtain ⟨F, st, h1, h2⟩ := C44_ends_partial { postoptimize := true, max_incs := none, huge := e.huge } h.symm hnn e.N
    (lam := ⟨none, none⟩) (by simp) (by simp) hdist hde (.inr (.inr ⟨by
      obtain ⟨c, hc, hc'⟩ := hC
      exact ⟨c, hc, hc'⟩, rfl, hd⟩))
  obtain ⟨st', h3, h4, h5, -⟩ := C44 { postoptimize := true, max_incs := none, huge := e.huge } h.symm hnn e.N
    (lam := ⟨none, none⟩) (by simp) (by simp) hdist hde F
  obtain rfl : st' = st := by
    rw [h2 F le_rfl] at h3
    simpa using h3.symm
  have hc : (customers (lrInitTsp (e.tsp e.D) e.N)).Perm (List.range' 1 (e.N - 1)) := by
    have hu : ∀ x ∈ u, x ≠ 0 := by
      intro n hn
      have := u1.mem_iff.1 hn
      rw [List.mem_range'_1] at this
      omega
    rw [hi, customers_append, customers_wrap, customers_zerofree u hu]
    simpa using u1
  have hser : ∀ n ∈ customers (lrInitTsp (e.tsp e.D) e.N), RouteOk e.D e.d e.C e.L [n] := by
    intro n hn
    have := hc.mem_iff.1 hn
    rw [List.mem_range'_1] at this
    exact h.serviceable n (by omega) (by omega)
  rcases h1 with ⟨s, rfl⟩ | ⟨r, rfl⟩
  · obtain ⟨k1, k2, k3, k4⟩ := h4 s rfl
    exact ⟨s, ⟨k1, k3.trans hc, k2, fun _ => k4⟩, .inl ⟨F, fun fuel hf => by
      simp [call_init, callLr, h2 fuel hf, outLr]⟩⟩
  · obtain ⟨s, rfl, k1, k2, k3, k4⟩ := h5 r rfl
    exact ⟨s, ⟨k1, k3.trans hc, k2, fun _ => k4 hser⟩, .inl ⟨F, fun fuel hf => by
      simp [call_init, callLr, h2 fuel hf, outLr]⟩⟩

/-- **C63**: on an instance as the heuristics are made for, a call of any of them that does not need the integer
programming solver ends with a complete solution in which each customer is served once and the limits are kept. Only
that of Wren and Holliday may have to be interrupted, and then hands out such a solution; the Lagrangean relaxation needs
a capacity and a demand. -/
theorem C63_partial {e : CallEnv} (h : CallOk e) {a : Algo} (ha : NoSolver a) (single : Bool) {mk : Bool}
    (hm : mk = true → ¬ Refuses a) (hl : a = .lr3o → InUse e.C ∧ ∃ i, i < e.N ∧ 0 < e.d i) :
    ∃ sol, DepotEnds sol ∧ Covers e.N sol ∧ squeeze sol = sol ∧ Feasible e.D e.d e.C e.L sol ∧ CallGives e a single mk sol := by
  have key : CallGood e a single mk := by
    have hmk : Refuses a → mk = false := fun hr => by
      cases mk with
      | false => rfl
      | true => exact absurd hr (hm rfl)
    have hr := callOk_rounded h
    have hx := callOk_distinct h
    cases a with
    | ps => exact callPs_good hr
    | ps2o => exact callPs2o_good hr
    | gpl => exact callGpl_good hr
    | ss => exact callSs_good hr
    | gps => exact callGps_good hr
    | ims => exact callIms_good hr
    | si => exact (callSi_good hr).1
    | pi => exact (callSi_good hr).2
    | mj => exact callMj_good hr h.metric.mj
    | cmt => exact callCmt_good hr
    | sn => rw [hmk (by simp [Refuses])]; exact (callSn_good hr hx).1
    | pn => rw [hmk (by simp [Refuses])]; exact (callSn_good hr hx).2
    | ty => rw [hmk (by simp [Refuses])]; exact callTy_good hr hx
    | swp => exact callSwp_good hr
    | wh => exact callWh_good h
    | gm => exact callGm_good hr h.tspPart
    | rfcs => exact callRfcs_good hr h.poptGrows
    | lr3o =>
      rw [hmk (by simp [Refuses])]
      exact callLr_good hr (hl rfl).1 (hl rfl).2 ⟨1, 2, le_rfl, by have := h.size; omega, by omega, by have := h.size; omega,
        h.distinct 1 2 le_rfl (by have := h.size; omega) (by omega) (by have := h.size; omega) (by omega)⟩
    | mbsa => exact absurd rfl ha.1
    | gap => exact absurd rfl ha.2.1
    | ptl => exact absurd rfl ha.2.2
  obtain ⟨sol, h1, h2⟩ := key
  exact ⟨sol, h1.ends, h1.covers, h1.noEmpty, h1.feasible h.serviceable, h2⟩

/-- **C63**: the nearest neighbour heuristics and the Lagrangean relaxation refuse to minimise the number of routes. -/
theorem C63_refused (e : CallEnv) {a : Algo} (ha : Refuses a) (single : Bool) (fuel : ℕ) :
    call_init e a single true fuel = some (.failed .notImplemented) := by
  rcases ha with rfl | rfl | rfl | rfl <;> rfl

/-- **C63**: the sweep heuristics raise without coordinates; the other heuristics do not look at them. -/
theorem C63_no_points (e : CallEnv) (hp : e.points = none) (single mk : Bool) (fuel : ℕ) :
    call_init e .swp single mk fuel = some (.failed .typeError) ∧
    call_init e .wh single mk fuel = some (.failed .typeError) ∧
    call_init e .gm single mk fuel = some (.failed .valueError) ∧
    ∀ a, NoSolver a → a ≠ .swp → a ≠ .wh → a ≠ .gm → ∀ ps, call_init { e with points := ps } a single mk fuel =
      call_init e a single mk fuel := by
  refine ⟨by simp [call_init, callSwp, hp, noPoints], by simp [call_init, callWh, hp, noPoints],
    by simp [call_init, callGm, hp, gillet_miller_init, outSeen], fun a _ h1 h2 h3 ps => ?_⟩
  cases a <;> first | rfl | exact absurd rfl h1 | exact absurd rfl h2 | exact absurd rfl h3

/-- **C63 is false** without customers: the insertion heuristics end with an `IndexError`, the parallel nearest neighbours with an
`AttributeError` unless a single solution is asked for, the sequential ones return nothing. -/
theorem C63_no_customers_false (e : CallEnv) (hN : e.N = 1) (h0 : e.d 0 = 0) (single mk : Bool) :
    (∀ fuel, call_init e .si single mk fuel = some (.failed .indexError) ∧
      call_init e .pi single mk fuel = some (.failed .indexError)) ∧
    (∃ F, ∀ fuel ≥ F, call_init e .pn false false fuel = some (.failed .attributeError)) ∧
    ∃ F, ∀ fuel ≥ F, call_init e .sn single false fuel = some (.ret none) := by
  obtain ⟨⟨F, h1⟩, -, ⟨F', h2⟩, h3⟩ := C62_no_customers_false e.D e.C e.L h0 mk (e.pick 0)
  refine ⟨fun fuel => ⟨?_, ?_⟩, ⟨F, fun fuel hf => ?_⟩, F', fun fuel hf => ?_⟩
  · rw [call_init, hN, (h3 fuel).1]; rfl
  · rw [call_init, hN, (h3 fuel).2]; rfl
  · rw [call_init, hN, h1 fuel hf]; rfl
  · rw [call_init, hN, h2 fuel hf]; rfl

/-! ## An instance -/

/-- Customers on a line, in the order of their numbers. -/
def ceLine (i j : ℕ) : ℚ := |(i : ℚ) - j|

theorem ceLine_metric : Metric ceLine where
  symm i j := by rw [ceLine, ceLine, abs_sub_comm]
  triangle i j k := abs_sub_le _ _ _
  nonneg i j := abs_nonneg _
  self i := by simp [ceLine]

/-- The routines keep the order. -/
def ceEnv (C L : Option ℚ) : CallEnv where
  N := 5
  points := some [(0, 0), (1, 0), (2, 0), (3, 0), (4, 0)]
  D := ceLine
  d n := if n = 0 then 0 else 1
  C := C
  L := L
  nodes := [1, 2, 3, 4]
  key _ _ n := n
  wh := ⟨3, fun _ => 0, [1, 2, 3, 4], id⟩
  ldp := 0
  pick _ := leastKey
  luck _ := ⟨[], [], fun _ => [], fun _ _ => []⟩
  tsp := sweptOrder
  gen := fun l => (l, 0)
  popt := sweptOrder ceLine
  ropt := fun l => (l, cost ceLine l)
  huge := 1000
  stages := 50
  solver := fun _ _ _ _ => none

/-- The parameters that the calls of the heuristics use. -/
example : (cmtDefaults (ceEnv none none) true).lam = 2 ∧ (cmtDefaults (ceEnv none none) true).mu = 1 ∧
    (whDefaults (ceEnv none none) true).full_convergence = true := ⟨rfl, rfl, rfl⟩

theorem ceEnv_ok : CallOk (ceEnv (some 2) (some 8)) where
  size := by decide
  metric := ceLine_metric
  distinct i j _ _ _ _ h := by
    show 0 < |(i : ℚ) - j|
    rw [abs_pos, sub_ne_zero]
    exact_mod_cast h
  dem0 := rfl
  dem n := by show (0 : ℚ) ≤ if n = 0 then 0 else 1; split <;> norm_num
  cap c h := by cases h; norm_num
  len c h := by cases h; norm_num
  serviceable n h1 h2 := by
    have : n < 5 := h2
    refine ⟨fun c hc _ => ?_, fun c hc _ => ?_⟩ <;> cases hc <;> interval_cases n <;> decide +kernel
  points := ⟨_, _, rfl⟩
  nodes := List.Perm.refl _
  whNodes := List.Perm.refl _
  whTwo h := by simp [ceEnv] at h
  angles := ⟨by norm_num [ceEnv], fun _ => ⟨by norm_num [ceEnv], by norm_num [ceEnv]⟩⟩
  pick _ := leastKey_ok.1
  tsp := sweptOrder_ok _
  tspOrder t h1 h2 := by
    show objf (0 :: t ++ [0]) ceLine ≤ _
    rw [objf_eq_cost]; rfl
  tspPart p t h1 h2 h3 := by
    show objf (0 :: p ++ [0]) ceLine ≤ objf (0 :: t ++ [0]) ceLine
    rw [objf_eq_cost, objf_eq_cost]
    exact cost_part ceLine_metric.triangle h1 0 0
  gen := ⟨_, List.Perm.refl _, .inl rfl, le_rfl⟩
  popt := sweptOrder_ok _
  poptGrows := (growsLonger_swept ceLine_metric.nonneg ceLine_metric.triangle).1
  ropt w h1 h2 := ⟨w, List.Perm.refl _, rfl, le_rfl⟩

example {a : Algo} (ha : NoSolver a) (single : Bool) :
    ∃ sol, Covers 5 sol ∧ Feasible ceLine (fun n => if n = 0 then 0 else 1) (some 2) (some 8) sol ∧
      CallGives (ceEnv (some 2) (some 8)) a single false sol := by
  obtain ⟨sol, -, h1, -, h2, h3⟩ := C63_partial ceEnv_ok ha single (mk := false) (by simp)
    (fun _ => ⟨⟨2, rfl, by norm_num⟩, 1, by decide, by norm_num [ceEnv]⟩)
  exact ⟨sol, h1, h2, h3⟩

end Verif
