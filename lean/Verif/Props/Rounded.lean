import Verif.Spec.Rounded
import Verif.Props.CallInit
import Verif.Props.Distances

/-! # C82: the heuristics on rounded distances -/

namespace Verif

open Spec

theorem rounded_distinct {e : CallEnv} (h : CallRounded e)
    (hx : ∀ i j, 1 ≤ i → i < e.N → 1 ≤ j → j < e.N → i ≠ j → 0 < e.D i j) : DistinctCustomers e.N e.D where
  customers i j h1 h2 h3 h4 h5 := by rw [h.self]; exact hx i j h1 h2 h3 h4 h5
  depot i _ _ := by rw [h.self]; exact h.nonneg _ _
  fromDepot i _ _ := by rw [h.self]; exact h.nonneg _ _

/-- **C82**, the kinds that round: the distances of any points are whole numbers, symmetric, with zeros in the diagonal, and a
detour is at most 1 shorter than the direct way. -/
theorem C82_rounded {pts : ℕ → ℝ × ℝ} {type : String} {D : ℕ → ℕ → ℝ} (h : calculate_D pts none type = .ok D)
    (ht : type ∈ ["CEIL_2D", "FLOOR_2D", "EUC_2D", "ATT", "GEO"]) :
    ∃ E : ℕ → ℕ → ℚ, RoundedDist E ∧ ∀ i j, D i j = E i j := by
  obtain ⟨Z, hZ⟩ := C69_whole h ht
  have hm := C69_matrix h
  have hd := C69_detour h
  refine ⟨fun i j => Z i j, ⟨fun i j => ?_, fun i j => ?_, fun i => ?_, ⟨Z, fun _ _ => rfl⟩, fun i j k => ?_⟩, fun i j => ?_⟩
  · have := hm.symm i j
    rw [hZ, hZ] at this
    have : Z i j = Z j i := by exact_mod_cast this
    rw [this]
  · have := hm.nonneg i j
    rw [hZ] at this
    have : 0 ≤ Z i j := by exact_mod_cast this
    exact_mod_cast this
  · have := hm.diag i
    rw [hZ] at this
    have : Z i i = 0 := by exact_mod_cast this
    exact_mod_cast this
  · have := hd i j k
    rw [hZ, hZ, hZ] at this
    have : Z i k ≤ Z i j + Z j k + 1 := by exact_mod_cast this
    exact_mod_cast this
  · rw [hZ]; push_cast; rfl

/-- **C82** (partial: the sweep of Wren and Holliday is left out): the other heuristics that
do not call the integer programming solver also solve instances with rounded distances, where the triangle inequality does not hold. -/
theorem C82_partial {e : CallEnv} (h : CallRounded e) {a : Algo} (ha : NoSolver a) (hwh : a ≠ .wh) (single : Bool)
    {mk : Bool} (hm : mk = true → ¬ Refuses a) (hn : RoundedNeeds e a) :
    ∃ sol, DepotEnds sol ∧ Covers e.N sol ∧ squeeze sol = sol ∧ Feasible e.D e.d e.C e.L sol ∧
      ∃ F, ∀ fuel ≥ F, call_init e a single mk fuel = some (.ret (some sol)) := by
  have key : CallGood e a single mk := by
    have hmk : Refuses a → mk = false := fun hr => by
      cases mk with
      | false => rfl
      | true => exact absurd hr (hm rfl)
    cases a with
    | ps => exact callPs_good h
    | ps2o => exact callPs2o_good h
    | gpl => exact callGpl_good h
    | ss => exact callSs_good h
    | gps => exact callGps_good h
    | ims => exact callIms_good h
    | si => exact (callSi_good h).1
    | pi => exact (callSi_good h).2
    | mj => exact callMj_good h (hn.mole rfl).mj
    | cmt => exact callCmt_good h
    | sn => rw [hmk (by simp [Refuses])]; exact (callSn_good h (rounded_distinct h (hn.distinct (by simp)))).1
    | pn => rw [hmk (by simp [Refuses])]; exact (callSn_good h (rounded_distinct h (hn.distinct (by simp)))).2
    | ty => rw [hmk (by simp [Refuses])]; exact callTy_good h (rounded_distinct h (hn.distinct (by simp)))
    | swp => exact callSwp_good h
    | wh => exact absurd rfl hwh
    | gm => exact callGm_good h (hn.part rfl)
    | rfcs => exact callRfcs_good h (hn.grows rfl)
    | lr3o =>
      rw [hmk (by simp [Refuses])]
      obtain ⟨h1, h2, h3⟩ := hn.relaxed rfl
      exact callLr_good h h1 h2 h3
    | mbsa => exact absurd rfl ha.1
    | gap => exact absurd rfl ha.2.1
    | ptl => exact absurd rfl ha.2.2
  obtain ⟨sol, h1, h2⟩ := key
  refine ⟨sol, h1.ends, h1.covers, h1.noEmpty, h1.feasible h.serviceable, ?_⟩
  rcases h2 with h2 | ⟨h2, -⟩
  · exact h2
  · exact absurd h2 hwh

/-- The rounded distances of three places in a line: the depot, and customers 9/5 and 7/5 from it. -/
def rndD (i j : ℕ) : ℚ := if i = j ∨ i + j = 3 then 0 else if i + j = 1 then 2 else 1

/-- The places. -/
noncomputable def rndPts (n : ℕ) : ℝ × ℝ := (if n = 1 then 9 / 5 else if n = 2 then 7 / 5 else 0, 0)

/-- The instance; the routines keep the order. -/
def rndEnv : CallEnv where
  N := 3
  points := some [(0, 0), (9 / 5, 0), (7 / 5, 0)]
  D := rndD
  d n := if n = 0 then 0 else 1
  C := some 5
  L := none
  nodes := [1, 2]
  key _ _ n := n
  wh := ⟨3, fun _ => 0, [1, 2], id⟩
  ldp := 0
  pick _ := leastKey
  luck _ := ⟨[], [], fun _ => [], fun _ _ => []⟩
  tsp := sweptOrder
  gen := fun l => (l, 0)
  popt := sweptOrder rndD
  ropt := fun l => (l, cost rndD l)
  huge := 1000
  stages := 50
  solver := fun _ _ _ _ => none

theorem rndEnv_ok : CallRounded rndEnv where
  size := by decide
  symm i j := by
    show rndD i j = rndD j i
    unfold rndD
    rw [add_comm j i]
    simp only [eq_comm]
  nonneg i j := by
    show (0 : ℚ) ≤ rndD i j
    unfold rndD
    split_ifs <;> norm_num
  self i := by show rndD i i = 0; simp [rndD]
  dem0 := rfl
  dem n := by show (0 : ℚ) ≤ if n = 0 then 0 else 1; split <;> norm_num
  cap c h := by cases h; norm_num
  len c h := by cases h
  serviceable n h1 h2 := by
    have : n < 3 := h2
    refine ⟨fun c hc _ => ?_, fun c hc _ => by cases hc⟩
    cases hc
    interval_cases n <;> decide +kernel
  points := ⟨_, _, rfl⟩
  nodes := List.Perm.refl _
  pick _ := leastKey_ok.1
  tsp := sweptOrder_ok _
  tspOrder t h1 h2 := by
    show objf (0 :: t ++ [0]) rndD ≤ _
    rw [objf_eq_cost]; rfl
  gen := ⟨_, List.Perm.refl _, .inl rfl, le_rfl⟩
  popt := sweptOrder_ok _
  ropt w h1 h2 := ⟨w, List.Perm.refl _, rfl, le_rfl⟩

theorem rndD_rounds {D : ℕ → ℕ → ℝ} (hD : calculate_D rndPts none "EUC_2D" = .ok D) :
    ∀ i j, i < 3 → j < 3 → D i j = rndD i j := by
  obtain ⟨Z, hZ⟩ := C69_whole hD (by decide)
  have hm := C69_matrix hD
  have key : ∀ i j (x : ℝ) (z : ℤ), i ≠ j → PlaneDist (rndPts i) (rndPts j) x → |x - z| < 1 / 2 → D i j = z := by
    intro i j x z hij hx hz
    have h := ((C69_plane hD hij hx).2.2.2.1 rfl).1
    rw [hZ] at h ⊢
    rw [abs_le] at h
    rw [abs_lt] at hz
    have h1 : (Z i j : ℝ) < z + 1 := by linarith
    have h2 : (z : ℝ) < Z i j + 1 := by linarith
    have h3 : Z i j < z + 1 := by exact_mod_cast h1
    have h4 : z < Z i j + 1 := by exact_mod_cast h2
    have : Z i j = z := by omega
    rw [this]
  have h01 : D 0 1 = 2 := by
    have := key 0 1 (9 / 5) 2 (by decide) ⟨by norm_num, by norm_num [rndPts]⟩ (by norm_num [abs_lt])
    exact_mod_cast this
  have h02 : D 0 2 = 1 := by
    have := key 0 2 (7 / 5) 1 (by decide) ⟨by norm_num, by norm_num [rndPts]⟩ (by norm_num [abs_lt])
    exact_mod_cast this
  have h12 : D 1 2 = 0 := by
    have := key 1 2 (2 / 5) 0 (by decide) ⟨by norm_num, by norm_num [rndPts]⟩ (by norm_num [abs_lt])
    exact_mod_cast this
  intro i j hi hj
  interval_cases i <;> interval_cases j
  all_goals first
    | rw [hm.diag]; norm_num [rndD]
    | rw [h01]; norm_num [rndD]
    | rw [h02]; norm_num [rndD]
    | rw [h12]; norm_num [rndD]
    | rw [hm.symm, h01]; norm_num [rndD]
    | rw [hm.symm, h02]; norm_num [rndD]
    | rw [hm.symm, h12]; norm_num [rndD]

/-- **C82 is false** for the heuristics that follow nearest neighbours: with the distances of the default kind, rounded to the nearest, the
distance of two customers at different places can be zero, and one of them is not served. -/
theorem C82_lost_false : CallRounded rndEnv ∧ (∀ i j, i < 3 → j < 3 → i ≠ j → rndPts i ≠ rndPts j) ∧
    (∃ D, calculate_D rndPts none "EUC_2D" = .ok D ∧ ∀ i j, i < 3 → j < 3 → D i j = rndEnv.D i j) ∧
    (∀ a ∈ [Algo.sn, .pn, .ty], ∀ single, call_init rndEnv a single false 30 = some (.ret (some [0, 2, 0]))) ∧
    ¬ Covers 3 [0, 2, 0] := by
  refine ⟨rndEnv_ok, ?_, ?_, ?_, ?_⟩
  · intro i j hi hj hij h
    have := congrArg Prod.fst h
    interval_cases i <;> interval_cases j <;> first | exact hij rfl | norm_num [rndPts] at this
  · obtain ⟨D, hD⟩ := (C69_kinds rndPts none "EUC_2D").1 (by decide)
    exact ⟨D, hD, rndD_rounds hD⟩
  · intro a ha single
    simp only [List.mem_cons, List.not_mem_nil, or_false] at ha
    rcases ha with rfl | rfl | rfl <;> cases single <;> decide +kernel
  · intro h
    have := h.length_eq
    revert this
    decide +kernel

/-- The hypotheses of the theorems are met. -/
example : ∃ sol, Covers 3 sol ∧ ∃ F, ∀ fuel ≥ F, call_init rndEnv .cmt false true fuel = some (.ret (some sol)) := by
  obtain ⟨sol, -, h1, -, -, h2⟩ := C82_partial rndEnv_ok (a := .cmt) (by simp [NoSolver]) (by simp) false (mk := true)
    (by simp [Refuses]) ⟨by simp, by simp, by simp, by simp, by simp⟩
  exact ⟨sol, h1, h2⟩

theorem rndD_rounded : RoundedDist rndD where
  symm := rndEnv_ok.symm
  nonneg := rndEnv_ok.nonneg
  self := rndEnv_ok.self
  whole := ⟨fun i j => if i = j ∨ i + j = 3 then 0 else if i + j = 1 then 2 else 1, fun i j => by
    unfold rndD; push_cast; rfl⟩
  detour i j k := by unfold rndD; split_ifs <;> first | omega | norm_num

example : ∃ sol, Covers 3 sol ∧ ∃ F, ∀ fuel ≥ F, call_init rndEnv .mj false false fuel = some (.ret (some sol)) := by
  obtain ⟨sol, -, h1, -, -, h2⟩ := C82_partial rndEnv_ok (a := .mj) (by simp [NoSolver]) (by simp) false (mk := false)
    (by simp) ⟨by simp, fun _ => rndD_rounded, by simp, by simp, by simp⟩
  exact ⟨sol, h1, h2⟩

/-- **C82**, the local search on rounded distances: with the operators 2-opt, 3-opt, relocate, exchange, one point and two point move it ends,
visits the same customers, is not costlier and keeps the limits. -/
theorem C82_search {D : ℕ → ℕ → ℚ} (hR : RoundedDist D) {d : ℕ → ℚ} (hd0 : d 0 = 0) (hd : ∀ n, 0 ≤ d n) {C L : Option ℚ} {ops : List LsOp}
    (hops : ∀ op ∈ ops, op ∈ recordOps D d C L ∧ op ≠ opChain D (some d) C L) (st : LSOPT) (iter : ITEROPT) (mi : Option ℕ)
    {sol : List ℕ} (hsol : DepotEnds sol) (hn : (customers sol).Nodup) :
    ∃ F, ∀ fuel, F ≤ fuel → ∃ sol',
      do_local_search fuel ops sol D (some d) st iter mi = .ok (some sol') ∧ SafeFor D d C L sol sol' :=
  C23_safe_rounded hR.symm hR.mj.safe (hR.self 0) hd0 hd (fun h => absurd rfl (hops _ h).2) (fun op h => (hops op h).1) st iter mi hsol hn

/-- **C82**, the routes after a one point move on rounded distances keep the limits if they did before. -/
theorem C82_one_point {D : ℕ → ℕ → ℚ} (hR : RoundedDist D) {d : Option (ℕ → ℚ)} {C L : Option ℚ} {rd1 rd2 : RouteData}
    (b1 : Book D d C rd1) (b2 : Book D d C rd2) (hd : NonnegDemands d)
    (hf : FitsAll D d C L C_EPS S_EPS [rd1.route, rd2.route]) {st : LSOPT} {rds : List RouteData} {delta : ℚ}
    (h : do_1point_move rd1 rd2 D d C L st none = .ok (some (rds, delta))) : FitsAll D d C L C_EPS S_EPS (rds.map (·.route)) :=
  C16_feasible_rounded b1 b2 hR.mj.safe hd hf le_rfl h

/-- Places in a line. -/
def chX (n : ℕ) : ℚ :=
  if n = 1 then -7 / 5 else if n = 2 then 1 / 20 else if n = 3 then 7 / 5 else if n = 4 then 2 else if n = 5 then 2 / 25 else
  if n = 6 then 41 / 20 else 0

/-- Their distances, rounded to the nearest. -/
def chD (i j : ℕ) : ℚ := ((⌊|chX i - chX j| + 1 / 2⌋ : ℤ) : ℚ)

/-- The demands. -/
def chd (n : ℕ) : ℚ := if n = 0 then 0 else if n = 1 ∨ n = 3 then 2 else if n = 5 ∨ n = 6 then 4 else 1

theorem chD_rounded : RoundedDist chD where
  symm i j := by unfold chD; rw [abs_sub_comm]
  nonneg i j := by
    unfold chD
    have : (0 : ℤ) ≤ ⌊|chX i - chX j| + 1 / 2⌋ := Int.floor_nonneg.2 (by have := abs_nonneg (chX i - chX j); linarith)
    exact_mod_cast this
  self i := by
    unfold chD
    rw [sub_self, abs_zero]
    norm_num
  whole := ⟨fun i j => ⌊|chX i - chX j| + 1 / 2⌋, fun _ _ => rfl⟩
  detour i j k := by
    unfold chD
    have h1 := abs_sub_le (chX i) (chX j) (chX k)
    have h2 := Int.lt_floor_add_one (|chX i - chX j| + 1 / 2)
    have h3 := Int.lt_floor_add_one (|chX j - chX k| + 1 / 2)
    have h4 := Int.floor_le (|chX i - chX k| + 1 / 2)
    generalize ⌊|chX i - chX j| + 1 / 2⌋ = a at *
    generalize ⌊|chX j - chX k| + 1 / 2⌋ = b at *
    generalize ⌊|chX i - chX k| + 1 / 2⌋ = c at *
    have h5 : (c : ℚ) < a + b + 2 := by linarith
    have h6 : c < a + b + 2 := by exact_mod_cast h5
    have h7 : c ≤ a + b + 1 := by omega
    exact_mod_cast h7

theorem chD_rounds {D : ℕ → ℕ → ℝ} (hD : calculate_D (fun n => ((chX n : ℝ), 0)) none "EUC_2D" = .ok D) :
    ∀ i j, i < 7 → j < 7 → D i j = chD i j := by
  obtain ⟨Z, hZ⟩ := C69_whole hD (by decide)
  have hm := C69_matrix hD
  have near : ∀ i < 7, ∀ j < 7, |(|chX i - chX j| - ⌊|chX i - chX j| + 1 / 2⌋)| < 1 / 2 := by decide +kernel
  intro i j hi hj
  by_cases hij : i = j
  · rw [hij, hm.diag, chD_rounded.self]; norm_num
  have h := ((C69_plane hD hij (x := |(chX i : ℝ) - chX j|) ⟨abs_nonneg _, by simp [sq_abs]⟩).2.2.2.1 rfl).1
  have hz := near i hi j hj
  have hz' : |(|(chX i : ℝ) - chX j| - (⌊|chX i - chX j| + 1 / 2⌋ : ℤ))| < 1 / 2 := by
    have h5 : ((|(|chX i - chX j| - ⌊|chX i - chX j| + 1 / 2⌋)| : ℚ) : ℝ) < ((1 / 2 : ℚ) : ℝ) := Rat.cast_lt.2 hz
    push_cast at h5
    exact h5
  unfold chD
  generalize ⌊|chX i - chX j| + 1 / 2⌋ = z at hz'
  rw [hZ] at h ⊢
  rw [abs_le] at h
  rw [abs_lt] at hz'
  have h1 : (Z i j : ℝ) < z + 1 := by linarith
  have h2 : (z : ℝ) < Z i j + 1 := by linarith
  have h3 : Z i j < z + 1 := by exact_mod_cast h1
  have h4 : z < Z i j + 1 := by exact_mod_cast h2
  have : Z i j = z := by omega
  rw [this]
  push_cast
  rfl

example : ∃ F, ∀ fuel, F ≤ fuel → ∃ sol',
    do_local_search fuel [op1point chD (some chd) (some 5) (some 4), op2opt chD] [0, 1, 2, 3, 0, 4, 5, 0, 6, 0] chD (some chd) .BEST_ACCEPT
      .ALL_ACCEPT none = .ok (some sol') ∧ SafeFor chD chd (some 5) (some 4) [0, 1, 2, 3, 0, 4, 5, 0, 6, 0] sol' :=
  C82_search chD_rounded rfl (fun n => by unfold chd; split_ifs <;> norm_num) (fun op h => by
    simp only [List.mem_cons, List.not_mem_nil, or_false] at h
    rcases h with rfl | rfl
    · exact ⟨by simp [recordOps], fun h => absurd (congrArg LsOp.name h) (by simp [op1point, opChain])⟩
    · exact ⟨by simp [recordOps], fun h => absurd (congrArg LsOp.name h) (by simp [op2opt, opChain])⟩) _ _ _ (by decide) (by decide)

/-- **C82 is false** for the chain move: on the rounded distances of places in a line the local search with this operator alone, with all
strategies, turns a solution that keeps the limits into one that breaks the length limit. -/
theorem C82_chain_false : RoundedDist chD ∧
    (∃ D, calculate_D (fun n => ((chX n : ℝ), 0)) none "EUC_2D" = .ok D ∧ ∀ i j, i < 7 → j < 7 → D i j = chD i j) ∧
    Serviceable 7 chD chd (some 5) (some 4) ∧ Feasible chD chd (some 5) (some 4) [0, 1, 2, 3, 0, 4, 5, 0, 6, 0] ∧
    (∀ st ∈ [LSOPT.FIRST_ACCEPT, .BEST_ACCEPT], ∀ it ∈ [ITEROPT.FIRST_ACCEPT, .BEST_ACCEPT, .ALL_ACCEPT, .REPEATED_ACCEPT],
      do_local_search 10 [opChain chD (some chd) (some 5) (some 4)] [0, 1, 2, 3, 0, 4, 5, 0, 6, 0] chD (some chd) st it none =
        .ok (some [0, 1, 3, 0, 2, 5, 0, 4, 6, 0])) ∧
    ¬ Feasible chD chd (some 5) (some 4) [0, 1, 3, 0, 2, 5, 0, 4, 6, 0] := by
  refine ⟨chD_rounded, ?_, ?_, ?_, by decide +kernel, ?_⟩
  · obtain ⟨D, hD⟩ := (C69_kinds (fun n => ((chX n : ℝ), 0)) none "EUC_2D").1 (by decide)
    exact ⟨D, hD, chD_rounds hD⟩
  · intro n h1 h2
    refine ⟨fun c hc _ => ?_, fun c hc _ => ?_⟩ <;> cases hc <;> interval_cases n <;> decide +kernel
  · intro b hb
    have : b ∈ [[1, 2, 3], [4, 5], [6]] := hb
    simp only [List.mem_cons, List.not_mem_nil, or_false] at this
    rcases this with rfl | rfl | rfl <;> refine ⟨fun c hc _ => ?_, fun c hc _ => ?_⟩ <;> cases hc <;> decide +kernel
  · intro h
    have := (h [1, 3] (by decide)).2 4 rfl (by decide +kernel)
    revert this
    decide +kernel

end Verif
