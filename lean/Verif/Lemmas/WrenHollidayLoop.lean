import Verif.Lemmas.WrenHollidayMain

/-! # Lemmas about the improvement phase and the start of Wren and Holliday -/

namespace Verif

open Spec

/-- True records of routes that serve every customer once within the limits. -/
structure WhRoutes (I : WhInput) (rds : List RouteData) : Prop where
  good : ∀ rd ∈ rds, GoodRd I.D (some I.d) I.C rd
  all : (served rds).Perm (List.range' 1 (I.N - 1))
  fits : ∀ rd ∈ rds, Fits I.D (some I.d) I.C I.L rd.route

variable {I : WhInput}

theorem whRoutes_keeps (h : WhInputOk I) {rds rds' : List RouteData} (hr : WhRoutes I rds)
    (k : WhKeeps I.D I.d I.C I.L rds rds') : WhRoutes I rds' :=
  ⟨k.good, k.same.trans hr.all, k.fits h.triangle h.dem hr.fits⟩

theorem whRoutes_removed {rds : List RouteData} (hr : WhRoutes I rds) : WhRoutes I (remove_empty rds) :=
  ⟨fun rd hrd => hr.good rd (mem_remove_empty.1 hrd).1, by rw [served_remove_empty hr.good]; exact hr.all,
    fun rd hrd => hr.fits rd (mem_remove_empty.1 hrd).1⟩

theorem whRoutes_tidy {rds : List RouteData} (hr : WhRoutes I rds) (b : Bool) : WhRoutes I (whTidy I b rds) := by
  rw [whTidy]
  split
  · exact whRoutes_removed hr
  · exact hr

theorem whRoutes_open (h : WhInputOk I) {rds : List RouteData} (hr : WhRoutes I rds) : WhRoutes I (whOpen I rds) := by
  rw [whOpen]
  have hr' := whRoutes_removed hr
  by_cases hm : I.minimize_K = true
  · rw [if_pos hm]; exact hr'
  · rw [if_neg hm]
    refine ⟨?_, ?_, ?_⟩
    · intro rd hrd
      rcases List.mem_append.1 hrd with hrd | hrd
      · exact hr'.good rd hrd
      · rw [List.mem_singleton.1 hrd]; exact good_new h.depot h.dem0
    · rw [served_append]
      have : served [RouteData.new] = [] := rfl
      rw [this, List.append_nil]
      exact hr'.all
    · intro rd hrd
      rcases List.mem_append.1 hrd with hrd | hrd
      · exact hr'.fits rd hrd
      · rw [List.mem_singleton.1 hrd]
        exact fits_none h.toWhCase (n := 1) le_rfl (by have := h.size; omega)

theorem sum_costs {D : ℕ → ℕ → ℚ} {d : ℕ → ℚ} {C : Option ℚ} {rds : List RouteData}
    (h : ∀ rd ∈ rds, GoodRd D (some d) C rd) : (rds.map (·.cost)).sum = tot D rds := by
  induction rds with
  | nil => rfl
  | cons rd rds ih =>
    rw [List.map_cons, List.sum_cons, ih fun y hy => h y (List.mem_cons_of_mem _ hy), tot_cons, (h rd (by simp)).2.1]

theorem remove_length_le (rds : List RouteData) : (remove_empty rds).length ≤ rds.length := List.length_filter_le _ _

/-- A procedure and the removal of the empty routes after a success. -/
structure Tidied (I : WhInput) (rds r : List RouteData) (b : Bool) : Prop where
  routes : WhRoutes I r
  length : r.length ≤ rds.length
  gain : b = true → tot I.D r + S_EPS < tot I.D rds
  none : b = false → r = rds

theorem tidied_le {rds r : List RouteData} {b : Bool} (h : Tidied I rds r b) : tot I.D r ≤ tot I.D rds := by
  cases b with
  | false => rw [h.none rfl]
  | true => have := h.gain rfl; have := S_EPS_pos; linarith

theorem tidied_trans {a b c : List RouteData} {x y : Bool} (h : Tidied I a b x) (h' : Tidied I b c y) :
    Tidied I a c (x || y) := by
  refine ⟨h'.routes, h'.length.trans h.length, fun e => ?_, fun e => ?_⟩
  · have h1 := tidied_le h
    have h2 := tidied_le h'
    cases x with
    | true => have := h.gain rfl; linarith
    | false => have := h'.gain (by simpa using e); linarith
  · rw [Bool.or_eq_false_iff] at e
    rw [h'.none e.2, h.none e.1]

theorem tidied_prog (h : WhInputOk I) {rds rds' : List RouteData} {b : Bool} (hr : WhRoutes I rds)
    (p : WhProg I.D I.d I.C I.L rds rds' b) : Tidied I rds (whTidy I b rds') b := by
  refine ⟨whRoutes_tidy (whRoutes_keeps h hr p.toWhKeeps) b, ?_, fun hb => ?_, fun hb => ?_⟩
  · rw [whTidy, ← p.length]
    split
    · exact remove_length_le _
    · exact le_rfl
  · rw [whTidy]
    have := p.gain hb
    split
    · rw [tot_remove_empty p.good h.depot]; exact this
    · exact this
  · rw [hb, whTidy]
    simp only [Bool.false_and, Bool.false_eq_true, if_false]
    exact p.none hb

theorem deleted_length {D : ℕ → ℕ → ℚ} {d : ℕ → ℚ} {C L : Option ℚ} {rds rds' : List RouteData} {x : ℚ}
    (h : Emptied D d C L rds x rds') : (remove_empty rds').length < (remove_empty rds).length := by
  obtain ⟨-, hl, ⟨t, rfl⟩, -⟩ := h
  rw [← hl]
  have : remove_empty (⟨[0, 0], 0, some 0⟩ :: t) = remove_empty t := rfl
  rw [this, List.length_cons]
  exact Nat.lt_succ_of_le (remove_length_le t)

/-- The number of the routes that counts in a state: the empty routes are removed at the beginning of an
iteration and at the end. -/
def whCount (s : WhState) : ℕ :=
  if s.stage = .inspect ∨ s.stage = .stopped then (remove_empty s.routes).length else s.routes.length

/-- The routes of the second state are fewer, or as many with no higher total cost. -/
def WhLe (I : WhInput) (s s' : WhState) : Prop :=
  whCount s' ≤ whCount s ∧ (whCount s' = whCount s → tot I.D s'.routes ≤ tot I.D s.routes)

theorem whLe_trans {a b c : WhState} (h : WhLe I a b) (h' : WhLe I b c) : WhLe I a c := by
  refine ⟨h'.1.trans h.1, fun e => (h'.2 ?_).trans (h.2 ?_)⟩
  · have := h.1; have := h'.1; omega
  · have := h.1; have := h'.1; omega

theorem whCount_le (s : WhState) : whCount s ≤ s.routes.length := by
  rw [whCount]
  split
  · exact remove_length_le _
  · exact le_rfl

theorem le_whCount (s : WhState) : (remove_empty s.routes).length ≤ whCount s := by
  rw [whCount]
  split
  · exact le_rfl
  · exact remove_length_le _

theorem whLe_of_tidied {s s' : WhState} {rds : List RouteData} {b : Bool} (h : Tidied I rds s'.routes b)
    (hc : rds.length ≤ whCount s) (ht : tot I.D rds ≤ tot I.D s.routes) : WhLe I s s' :=
  ⟨(whCount_le s').trans (h.length.trans hc), fun _ => (tidied_le h).trans ht⟩

theorem whStep_spec (h : WhInputOk I) {s : WhState} (hr : WhRoutes I s.routes) :
    ∃ s', (∃ F, ∀ fuel, F ≤ fuel → whStep fuel I s = .ok (some s')) ∧ WhRoutes I s'.routes ∧
      (I.minimize_K = true → WhLe I s s') := by
  have hN : 0 < I.N := by have := h.size; omega
  cases hst : s.stage with
  | inspect =>
    obtain ⟨rds', b, ⟨F, e⟩, p, -⟩ := inspect_spec (L := I.L) h.symm h.dist (whRoutes_open h hr).good
    refine ⟨{ s with routes := whTidy I b rds', changed := b, stage := .single }, ⟨F, fun fuel hf => by
      simp only [whStep, hst]
      rw [whStepInspect, e fuel hf]⟩, whRoutes_tidy (whRoutes_keeps h (whRoutes_open h hr) p.toWhKeeps) b, fun hm => ?_⟩
    refine whLe_of_tidied (tidied_prog h (whRoutes_open h hr) p) ?_ ?_
    · rw [whOpen, if_pos hm, whCount, if_pos (.inl hst)]
    · rw [whOpen, if_pos hm, tot_remove_empty hr.good h.depot]
  | single =>
    obtain ⟨rds', b, ⟨F, e⟩, p, -⟩ := single_spec (L := I.L) h.dist hr.good
    refine ⟨whQPoint { s with routes := whTidy I b rds', changed := s.changed || b }, ⟨F, fun fuel hf => by
      rw [show whStep fuel I s = whStepSingle fuel I s by simp only [whStep, hst], whStepSingle, e fuel hf]⟩, whRoutes_tidy (whRoutes_keeps h hr p.toWhKeeps) b, fun hm => ?_⟩
    exact whLe_of_tidied (tidied_prog h hr p) (by rw [whCount, if_neg (by simp [hst])]) le_rfl
  | pair =>
    by_cases h80 : I.N ≤ 80
    · obtain ⟨rds', b, e, p, -⟩ := pair_spec (L := I.L) hN hr.good
      refine ⟨{ s with routes := whTidy I b rds', changed := s.changed || b, stage := .delete }, ⟨0, fun fuel _ => by
        simp only [whStep, hst]
        rw [whStepPair, if_pos h80, e]⟩, whRoutes_tidy (whRoutes_keeps h hr p.toWhKeeps) b, fun hm => ?_⟩
      exact whLe_of_tidied (tidied_prog h hr p) (by rw [whCount, if_neg (by simp [hst])]) le_rfl
    · refine ⟨{ s with stage := .delete }, ⟨0, fun fuel _ => by
        simp only [whStep, hst]
        rw [whStepPair, if_neg h80]⟩, hr, fun _ => ⟨?_, fun _ => le_rfl⟩⟩
      simp [whCount, hst]
  | delete =>
    by_cases hd : s.deleted = true
    · obtain ⟨rds', b, e, p0, p1⟩ := delete_spec (L := I.L) h.triangle h.depot h.dem0 h.dist hr.good
      refine ⟨{ s with routes := whTidy I b rds', deleted := b, changed := s.changed || b, stage := .disentangle },
        ⟨0, fun fuel _ => by
          simp only [whStep, hst]
          rw [whStepDelete, if_pos hd, e]⟩, whRoutes_tidy ?_ b, fun hm => ?_⟩
      · cases b with
        | false => rw [p0 rfl]; exact hr
        | true =>
          obtain ⟨x, p, -⟩ := p1 rfl
          exact whRoutes_keeps h hr p
      · cases b with
        | false => simp [WhLe, whCount, hst, whTidy, p0 rfl]
        | true =>
          obtain ⟨x, p⟩ := p1 rfl
          have := (deleted_length p).trans_le (remove_length_le s.routes)
          simp only [WhLe, whCount, hst, whTidy, hm]
          simp only [Bool.and_self, if_true, reduceCtorEq, or_self, if_false]
          exact ⟨this.le, fun e => by omega⟩
    · refine ⟨{ s with stage := .disentangle }, ⟨0, fun fuel _ => by
        simp only [whStep, hst]
        rw [whStepDelete, if_neg hd]⟩, hr, fun _ => ⟨?_, fun _ => le_rfl⟩⟩
      simp [whCount, hst]
  | disentangle =>
    obtain ⟨rds', ⟨F, e⟩, p⟩ := disentangle_spec h.toWhCase hr.good hr.all
    refine ⟨whStop I { s with routes := whTidy I false rds', changed := s.changed || false }, ⟨F, fun fuel hf => by
      rw [show whStep fuel I s = whStepDisentangle fuel I s by simp only [whStep, hst], whStepDisentangle, e fuel hf]⟩, whRoutes_tidy (whRoutes_keeps h hr p.toWhKeeps) false, fun _ => ?_⟩
    have hs1 : whCount (whStop I { s with routes := whTidy I false rds', changed := s.changed || false }) =
        (remove_empty rds').length := by
      rw [whCount, if_pos]
      · rfl
      · simp only [whStop]
        split
        · exact .inr rfl
        · exact .inl rfl
    have hs2 : whCount s = s.routes.length := by rw [whCount, if_neg (by simp [hst])]
    have f := p.fewer
    have l := remove_length_le s.routes
    rw [WhLe, hs1, hs2]
    refine ⟨by omega, fun e => ?_⟩
    rcases p.gain (by omega) with g | g
    · rw [show (whStop I { s with routes := whTidy I false rds', changed := s.changed || false }).routes = rds' from rfl, g]
    · have := S_EPS_pos
      exact (lt_trans (lt_add_of_pos_right _ S_EPS_pos) g).le
  | stopped => exact ⟨s, ⟨0, fun fuel _ => by simp only [whStep, hst]⟩, hr, fun _ => ⟨le_rfl, fun _ => le_rfl⟩⟩

theorem whLoop_spec (h : WhInputOk I) (n : ℕ) : ∀ {s : WhState}, WhRoutes I s.routes →
    ∃ s' m, (∃ F, ∀ fuel, F ≤ fuel → whLoop fuel I n s = .ok (some (s', m))) ∧ WhRoutes I s'.routes ∧
      (I.minimize_K = true → WhLe I s s') := by
  induction n with
  | zero => intro s hr; exact ⟨s, 0, ⟨0, fun _ _ => rfl⟩, hr, fun _ => ⟨le_rfl, fun _ => le_rfl⟩⟩
  | succ n ih =>
    intro s hr
    by_cases hs : s.stage = .stopped
    · exact ⟨s, n + 1, ⟨0, fun fuel _ => by rw [whLoop, if_pos hs]⟩, hr, fun _ => ⟨le_rfl, fun _ => le_rfl⟩⟩
    · obtain ⟨s1, ⟨F1, e1⟩, r1, l1⟩ := whStep_spec h hr
      obtain ⟨s2, m, ⟨F2, e2⟩, r2, l2⟩ := ih r1
      refine ⟨s2, m, ⟨F1 + F2, fun fuel hf => ?_⟩, r2, fun hm => whLe_trans (l1 hm) (l2 hm)⟩
      rw [whLoop, if_neg hs, e1 fuel (by omega)]
      exact e2 fuel (by omega)

theorem whSolution_spec (h : WhInputOk I) {rds : List RouteData} (hr : WhRoutes I rds) :
    WhGood I (whSolution rds) ∧ cost I.D (whSolution rds) = tot I.D rds ∧
      (blocks (whSolution rds)).length = (remove_empty rds).length := by
  have e1 : rds.map (·.route) = (rds.map fun rd => interior rd.route).map wrap := by
    rw [List.map_map]
    refine List.map_congr_left fun rd hrd => ?_
    obtain ⟨⟨cs, e⟩, -⟩ := hr.good rd hrd
    simp only [Function.comp_apply]
    rw [e, interior_wrap]
  have hfl : (rds.map fun rd => interior rd.route).flatten = served rds := by rw [served, List.flatMap_def]
  have hz : ∀ u ∈ rds.map (fun rd => interior rd.route), ∀ x ∈ u, x ≠ 0 := by
    intro u hu x hx h0
    have := hr.all.mem_iff.1 (hfl ▸ List.mem_flatten.2 ⟨u, hu, hx⟩)
    rw [List.mem_range'_1] at this
    omega
  have hokk : ∀ u ∈ rds.map (fun rd => interior rd.route), RouteOk I.D I.d I.C I.L u := by
    intro u hu
    obtain ⟨rd, hrd, rfl⟩ := List.mem_map.1 hu
    obtain ⟨⟨cs, e⟩, -⟩ := hr.good rd hrd
    have := hr.fits rd hrd
    rw [e] at this ⊢
    rw [interior_wrap]
    exact (fits_iff h.dem0).1 this
  have hlen : ((rds.map fun rd => interior rd.route).filter fun u => decide (u ≠ [])).length = (remove_empty rds).length := by
    have hg := hr.good
    clear * - hg
    induction rds with
    | nil => rfl
    | cons rd rds ih =>
      obtain ⟨⟨cs, e⟩, -⟩ := hg rd (by simp)
      have ih := ih fun y hy => hg y (List.mem_cons_of_mem _ hy)
      have he := is_empty_wrap e
      simp only [remove_empty] at ih ⊢
      rw [List.map_cons, List.filter_cons, List.filter_cons, e, interior_wrap]
      by_cases hc : cs = []
      · rw [if_neg (by simp [hc]), if_neg (by simp [he.2 hc]), ih]
      · rw [if_pos (by simp [hc]), if_pos (by simp [show rd.is_empty = false by
          rw [← Bool.not_eq_true]; exact fun h => hc (he.1 h)]), List.length_cons, List.length_cons, ih]
  have hcost : total I.D ((rds.map fun rd => interior rd.route).map wrap) = tot I.D rds := by rw [← e1]; rfl
  rw [whSolution, to_solution_wraps rds _ e1]
  generalize rds.map (fun rd => interior rd.route) = us at *
  have hb : blocks (tour us) = us.filter fun u => decide (u ≠ []) := by
    rw [blocks_tour]
    clear hfl hokk e1 hcost hlen
    induction us with
    | nil => rfl
    | cons u us ih =>
      rw [List.flatMap_cons, ih (fun v hv => hz v (List.mem_cons_of_mem _ hv)), blocks_zerofree u (hz u (by simp)),
        List.filter_cons]
      by_cases hu : u = [] <;> simp [hu]
  have hflf : (us.filter fun u => decide (u ≠ [])).flatten = us.flatten := by
    clear * -
    induction us with
    | nil => rfl
    | cons u us ih =>
      rw [List.filter_cons]
      by_cases hu : u = []
      · rw [if_neg (by simp [hu]), ih, hu, List.flatten_cons, List.nil_append]
      · rw [if_pos (by simp [hu]), List.flatten_cons, ih, List.flatten_cons]
  have hz' : ∀ u ∈ us.filter (fun u => decide (u ≠ [])), u ≠ [] ∧ ∀ x ∈ u, x ≠ 0 := by
    intro u hu
    rw [List.mem_filter, decide_eq_true_eq] at hu
    exact ⟨hu.2, hz u hu.1⟩
  have hcust : customers (tour us) = us.flatten := by rw [← blocks_flatten, hb, hflf]
  have hsol : without_empty_routes (tour us) = tour (us.filter fun u => decide (u ≠ [])) := by
    rw [without_empty_routes_eq_squeeze (chain_of_nodup ?_), squeeze_depotEnds (depotEnds_tour us), hb]
    rw [hcust, hfl]
    exact hr.all.nodup_iff.2 ((List.pairwise_lt_range' 1).imp fun h => ne_of_lt h)
  obtain ⟨s1, s2, -⟩ := solves_tour (N := I.N) (us := us.filter fun u => decide (u ≠ [])) (by
    rw [hflf, hfl]; exact hr.all) (fun hm => (hz' [] hm).1 rfl) (fun u hu => hokk u (List.mem_filter.1 hu).1)
  rw [hsol]
  refine ⟨⟨s1, s2⟩, ?_, ?_⟩
  swap
  · rw [blocks_tour_of_routes _ hz', hlen]
  rw [cost_tour, ← hcost]
  have h0 : cost I.D (wrap []) = 0 := by simp [wrap, cost, h.depot]
  clear * - h0
  induction us with
  | nil => rfl
  | cons u us ih =>
    rw [List.filter_cons]
    by_cases hu : u = []
    · subst hu
      simp only [ne_eq, not_true_eq_false, decide_false, Bool.false_eq_true, if_false, total, List.map_cons,
        List.sum_cons] at ih ⊢
      rw [ih, h0, zero_add]
    · simp only [ne_eq, hu, not_false_eq_true, decide_true, if_true, total, List.map_cons, List.sum_cons] at ih ⊢
      rw [ih]

theorem whStart_spec (h : WhInputOk I) {us : List (List ℕ)} (hp : us.flatten.Perm (List.range' 1 (I.N - 1)))
    (hne : [] ∉ us) (hok : ∀ u ∈ us, RouteOk I.D I.d I.C I.L u) : WhRoutes I (whStart I (tour us)).routes := by
  have hz : ∀ u ∈ us, u ≠ [] ∧ ∀ x ∈ u, x ≠ 0 := by
    refine fun u hu => ⟨fun e => hne (e ▸ hu), fun x hx => ?_⟩
    have := hp.mem_iff.1 (List.mem_flatten.2 ⟨u, hu, hx⟩)
    rw [List.mem_range'_1] at this
    omega
  obtain ⟨g1, g2⟩ := from_solution_tour (D := I.D) (C := I.C) (L := I.L) h.dem0 hz hok
  exact ⟨fun rd hrd => (g1 rd hrd).1, by rw [whStart, served_of_routes g2]; exact hp, fun rd hrd => (g1 rd hrd).2⟩

/-- A solution a sweep gives. -/
def WhInitial (I : WhInput) (sol : List ℕ) : Prop :=
  ∃ us : List (List ℕ), sol = tour us ∧ us.flatten.Perm (List.range' 1 (I.N - 1)) ∧ [] ∉ us ∧
    ∀ u ∈ us, RouteOk I.D I.d I.C I.L u

theorem whInitial_good {sol : List ℕ} (hs : WhInitial I sol) : WhGood I sol := by
  obtain ⟨us, rfl, h1, h2, h3⟩ := hs
  obtain ⟨g1, g2, -⟩ := solves_tour (N := I.N) h1 h2 h3
  exact ⟨g1, g2⟩

theorem whLoop_noWorse (h : WhInputOk I) {us : List (List ℕ)} (hp : us.flatten.Perm (List.range' 1 (I.N - 1)))
    (hne : [] ∉ us) (hok : ∀ u ∈ us, RouteOk I.D I.d I.C I.L u) {s : WhState} (hr : WhRoutes I s.routes)
    (hl : WhLe I (whStart I (tour us)) s) : AtLeastAsGood I.D (tour us) (whSolution s.routes) := by
  have hz : ∀ u ∈ us, u ≠ [] ∧ ∀ x ∈ u, x ≠ 0 := by
    refine fun u hu => ⟨fun e => hne (e ▸ hu), fun x hx => ?_⟩
    have := hp.mem_iff.1 (List.mem_flatten.2 ⟨u, hu, hx⟩)
    rw [List.mem_range'_1] at this
    omega
  obtain ⟨-, g2⟩ := from_solution_tour (D := I.D) (C := I.C) (L := I.L) h.dem0 hz hok
  obtain ⟨-, c2, c3⟩ := whSolution_spec h hr
  have k1 := whCount_le (whStart I (tour us))
  have k2 : (whStart I (tour us)).routes.length = us.length := by
    have := congrArg List.length g2
    rwa [List.length_map, List.length_map] at this
  have k3 : tot I.D (whStart I (tour us)).routes = cost I.D (tour us) := by
    rw [tot, whStart, g2, cost_tour]
  have k4 := le_whCount s
  have k5 := hl.1
  rw [AtLeastAsGood, blocks_tour_of_routes us hz, c2, c3, ← k3]
  by_cases hlt : (remove_empty s.routes).length < us.length
  · exact .inl hlt
  · exact .inr ⟨by omega, hl.2 (by omega)⟩

/-- The improvement phase hands out the best of the solutions it has found. -/
theorem whPhase2_spec (h : WhInputOk I) (sols : List (List ℕ)) : ∀ (best : Option (List ℕ × ℚ × ℚ)) (n : ℕ),
    (∀ sol ∈ sols, WhInitial I sol) →
    ∃ cands : List (List ℕ), (∀ c ∈ cands, WhGood I c) ∧ (sols ≠ [] → cands ≠ []) ∧
      (I.minimize_K = true → List.Forall₂ (AtLeastAsGood I.D) (sols.take cands.length) cands) ∧
      ((cands.length = sols.length ∧ ∃ F, ∀ fuel, F ≤ fuel → whPhase2 fuel I sols best n =
        .ok (some (.returned ((cands.foldl (keepBetter I.D I.minimize_K) best).map (·.1))))) ∨
      ∃ F, ∀ fuel, F ≤ fuel → whPhase2 fuel I sols best n =
        .ok (some (.interrupted ((cands.foldl (keepBetter I.D I.minimize_K) best).map (·.1))))) := by
  induction sols with
  | nil => intro best n _; exact ⟨[], by simp, by simp, by simp, .inl ⟨rfl, 0, fun _ _ => rfl⟩⟩
  | cons sol sols ih =>
    intro best n hs
    obtain ⟨us, rfl, i1, i2, i3⟩ := hs sol (by simp)
    obtain ⟨s, m, ⟨F1, e1⟩, r1, l1⟩ := whLoop_spec h n (whStart_spec h i1 i2 i3)
    have w1 := fun hm => whLoop_noWorse h i1 i2 i3 r1 (l1 hm)
    obtain ⟨g, -⟩ := whSolution_spec h r1
    by_cases hst : s.stage = .stopped
    · obtain ⟨cands, c1, -, c2, c3⟩ := ih (keepBetter I.D I.minimize_K best (whSolution s.routes)) m
        (fun x hx => hs x (List.mem_cons_of_mem _ hx))
      refine ⟨whSolution s.routes :: cands, ?_, by simp, fun hm => .cons (w1 hm) (c2 hm), ?_⟩
      · intro c hc
        rcases List.mem_cons.1 hc with rfl | hc
        · exact g
        · exact c1 c hc
      · rcases c3 with ⟨l, F2, e2⟩ | ⟨F2, e2⟩
        · refine .inl ⟨by simp [l], F1 + F2, fun fuel hf => ?_⟩
          rw [whPhase2, e1 fuel (by omega)]
          simp only
          rw [if_pos hst, e2 fuel (by omega), List.foldl_cons]
        · refine .inr ⟨F1 + F2, fun fuel hf => ?_⟩
          rw [whPhase2, e1 fuel (by omega)]
          simp only
          rw [if_pos hst, e2 fuel (by omega), List.foldl_cons]
    · refine ⟨[whSolution s.routes], by simpa using g, by simp, fun hm => .cons (w1 hm) .nil, .inr ⟨F1, fun fuel hf => ?_⟩⟩
      rw [whPhase2, e1 fuel hf]
      simp only
      rw [if_neg hst]
      rfl

/-! ## The initial solutions -/

theorem whStartAt_lt (h : WhInputOk I) (ldp : ℚ) (cw : Bool) (i : ℕ) : whStartAt I ldp cw i < I.N - 1 := by
  have hl : I.sweep.nodes.length = I.N - 1 := by rw [h.nodes.length_eq, List.length_range']
  have hs := h.size
  unfold whStartAt
  simp only
  generalize (if ldp + ↑i * I.sweep.pi / 2 > I.sweep.pi then ldp + ↑i * I.sweep.pi / 2 - I.sweep.pi * 2
    else ldp + ↑i * I.sweep.pi / 2) = t
  have hlt : (if ((I.sweep.nodes.map I.sweep.phi).any fun p => decide (p > t)) = true then
      (I.sweep.nodes.map I.sweep.phi).findIdx fun p => decide (p > t) else 0) < I.N - 1 := by
    split
    · rename_i ha
      rw [List.any_eq_true] at ha
      obtain ⟨x, hx, hp⟩ := ha
      have := List.findIdx_lt_length_of_exists (p := fun p => decide (p > t)) ⟨x, hx, hp⟩
      rw [List.length_map, hl] at this
      exact this
    · omega
  generalize (if ((I.sweep.nodes.map I.sweep.phi).any fun p => decide (p > t)) = true then
      (I.sweep.nodes.map I.sweep.phi).findIdx fun p => decide (p > t) else 0) = here at *
  split
  · split <;> omega
  · exact hlt

/-- A usable `seed_node`. -/
def WhSeed.usable (N : ℕ) : WhSeed → Prop
  | .position i => i < N - 1
  | .other => False
  | _ => True

theorem whSweeps_lt (h : WhInputOk I) (ldp : ℚ) {seed : WhSeed} (hs : seed.usable I.N) (cw : Bool) :
    whSweeps I ldp seed cw ≠ [] ∧ ∀ p ∈ whSweeps I ldp seed cw, p.1 < I.N - 1 := by
  have := h.size
  cases seed with
  | bestOfFour =>
    refine ⟨by simp [whSweeps], fun p hp => ?_⟩
    obtain ⟨i, -, rfl⟩ := List.mem_map.1 hp
    exact whStartAt_lt h ldp cw i
  | leastDense =>
    refine ⟨by simp [whSweeps], fun p hp => ?_⟩
    rw [whSweeps, List.mem_singleton] at hp
    subst hp
    exact whStartAt_lt h ldp cw 0
  | bestAlternative =>
    refine ⟨?_, fun p hp => ?_⟩
    · simp only [whSweeps, ne_eq, List.map_eq_nil_iff, List.range_eq_nil]; omega
    · obtain ⟨i, hi, rfl⟩ := List.mem_map.1 hp
      exact List.mem_range.1 hi
  | position i =>
    refine ⟨by simp [whSweeps], fun p hp => ?_⟩
    rw [whSweeps, List.mem_singleton] at hp
    subst hp
    exact hs
  | other => exact absurd hs (fun h => h)

theorem read_perm (h : WhInputOk I) (h2 : I.N = 3 → (I.sweep.two I.sweep.nodes).Perm [1, 2]) :
    (I.sweep.read I.sweep.nodes).Perm (List.range' 1 (I.N - 1)) := by
  have hl : I.sweep.nodes.length = I.N - 1 := by rw [h.nodes.length_eq, List.length_range']
  rw [WhSweep.read]
  split
  · have : I.N = 3 := by omega
    rw [this]
    exact h2 this
  · exact h.nodes

/-- The solution is that of the sweep from the position `p.1` in the direction `p.2`. -/
def WhSwept (I : WhInput) (p : ℕ × Bool) (sol : List ℕ) : Prop :=
  ∃ seen F, ∀ fuel, F ≤ fuel → sweep_init fuel I.N I.D I.d I.C I.L (sweptOrder I.D) (I.sweep.read I.sweep.nodes) false
    (if p.2 then .cw else .ccw) (.list [p.1]) = .ok (some (some sol, seen))

theorem whInitials_spec (h : WhInputOk I) (h2 : I.N = 3 → (I.sweep.two I.sweep.nodes).Perm [1, 2])
    (sweeps : List (ℕ × Bool)) (hs : ∀ p ∈ sweeps, p.1 < I.N - 1) :
    ∃ sols, (∃ F, ∀ fuel, F ≤ fuel → whInitials fuel I sweeps = .ok (some sols)) ∧ List.Forall₂ (WhSwept I) sweeps sols ∧
      ∀ sol ∈ sols, WhInitial I sol := by
  have hp := read_perm h h2
  have hin : ∀ n ∈ I.sweep.read I.sweep.nodes, 1 ≤ n ∧ n < I.N := by
    intro n hn
    have := hp.mem_iff.1 hn
    rw [List.mem_range'_1] at this
    omega
  induction sweeps with
  | nil => exact ⟨[], ⟨0, fun _ _ => rfl⟩, .nil, by simp⟩
  | cons p sweeps ih =>
    obtain ⟨start, cw⟩ := p
    obtain ⟨sols, ⟨F1, e1⟩, l, g⟩ := ih fun q hq => hs q (List.mem_cons_of_mem _ hq)
    obtain ⟨us, p1, p2, p3, F2, seen, e2⟩ := sweepOne_spec (D := I.D) (d := I.d) (C := I.C) (L := I.L) I.N cw (by
      rw [List.nodup_cons]
      exact ⟨fun h => by have := hin 0 h; omega,
        hp.nodup_iff.2 ((List.pairwise_lt_range' 1).imp fun h => ne_of_lt h)⟩) h.dem
      (fun n hn => h.serviceable n (hin n hn).1 (hin n hn).2) (start := start) (by
        rw [hp.length_eq, List.length_range']
        exact hs (start, cw) (by simp))
    refine ⟨tour us :: sols, ⟨F1 + F2, fun fuel hf => ?_⟩, .cons ⟨seen, F2, e2⟩ l, ?_⟩
    · rw [whInitials, e2 fuel (by omega)]
      simp only
      rw [e1 fuel (by omega)]
    · intro sol hsol
      rcases List.mem_cons.1 hsol with rfl | hsol
      · exact ⟨us, rfl, p1.trans hp, p2, p3⟩
      · exact g sol hsol

end Verif
