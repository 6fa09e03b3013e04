import Verif.Lemmas.LsOps
import Verif.Props.Util

/-! # C23, C24: the local search -/

namespace Verif

open Verif.Spec

/-- C23, C24 in general. For every list of operators that keep a property `Inv` of the routes and report
exact improvements, every strategy and every iteration limit, the search terminates without errors with
routes that have the property and are not costlier; without an iteration limit no operator finds an
improvement any more on any group of routes. -/
theorem C23_generic {D : ℕ → ℕ → ℚ} {d : Option (ℕ → ℚ)} {Inv : List RouteData → Prop}
    {ops : List LsOp} {st : LSOPT} {m : ℚ} (hm : ∀ rds, Inv rds → m ≤ totalR D rds)
    (hd : Distinct ops) (hops : ∀ op ∈ ops, OpOk D Inv st op) (iter : ITEROPT) (mi : Option ℕ)
    {sol : List ℕ} (hsol : DepotEnds sol) (h0 : Inv (from_solution sol D d)) :
    ∃ F, ∀ fuel, F ≤ fuel → ∃ rds,
      do_local_search fuel ops sol D d st iter mi = .ok (some (to_solution rds)) ∧ Inv rds ∧
      totalR D rds ≤ totalR D (from_solution sol D d) ∧
      (mi = none ∨ mi = some 0 → ∀ op ∈ ops, OpOptimal st rds op) := by
  have hs : StOk Inv ops st (lsInit sol D d) := by
    refine ⟨h0, ⟨List.nodup_range, ?_⟩, by intro ris nm h; simp [lsInit] at h⟩
    intro i
    simp only [lsInit, List.mem_range]
    constructor
    · intro hi
      refine ⟨(from_solution sol D d)[i], List.getElem?_eq_getElem hi, ?_⟩
      have hmem : (from_solution sol D d)[i] ∈ from_solution sol D d := List.getElem_mem hi
      simp only [from_solution, from_routes, List.mem_map] at hmem
      obtain ⟨r, hr, e⟩ := hmem
      rw [sol2routes_depotEnds sol hsol, List.mem_map] at hr
      obtain ⟨b, hb, rfl⟩ := hr
      have := (mem_blocks sol b hb).1
      have := List.length_pos_iff.2 this
      simp only [from_solution, from_routes] at e ⊢
      rw [← e]
      simp only [RouteData.of_route, wrap, List.length_cons, List.length_append, List.length_nil]
      omega
    · rintro ⟨rd, h1, -⟩
      exact (List.getElem?_eq_some_iff.1 h1).1
  obtain ⟨n, hn⟩ := exists_steps (totalR D (lsInit sol D d).rds - m)
  refine ⟨n + ops.length + 1, fun fuel hf => ?_⟩
  obtain ⟨s', r1, r2, r3, r4⟩ := lsLoop_spec (iter := iter) hm hd hops mi fuel fuel n
    (lsInit sol D d) 0 hs hn (by omega) (by omega)
  exact ⟨s'.rds, by simp [do_local_search, r1], r2.1, r3, r4⟩

/-- The routes of solutions with the same visits have a common lower bound of the cost. -/
theorem sound_bdd (D : ℕ → ℕ → ℚ) (d : Option (ℕ → ℚ)) (C L : Option ℚ) (B : RouteData → Prop)
    (R0 : List (List ℕ)) : ∃ m : ℚ, ∀ rds, Sound D d C L B R0 rds → m ≤ totalR D rds := by
  obtain ⟨m, h0, hm⟩ := dist_bdd D R0.flatten
  refine ⟨m * R0.flatten.length, ?_⟩
  rintro rds ⟨hp, -⟩
  rw [← hp.length_eq]
  have hm' : ∀ a ∈ (rds.map (·.route)).flatten, ∀ b ∈ (rds.map (·.route)).flatten, m ≤ D a b :=
    fun a ha b hb => hm a (hp.mem_iff.1 ha) b (hp.mem_iff.1 hb)
  unfold totalR
  generalize rds.map (·.route) = rs at hm'
  clear hp
  induction rs with
  | nil => simp [total]
  | cons r t ih =>
    have ih := ih (fun a ha b hb => hm' a (by simp only [List.flatten_cons, List.mem_append]; tauto) b
      (by simp only [List.flatten_cons, List.mem_append]; tauto))
    have hr := cost_ge (D := D) h0 (l := r) (fun a ha b hb => hm' a (by simp [ha]) b (by simp [hb]))
    simp only [total, List.map_cons, List.sum_cons, List.flatten_cons, List.length_append,
      Nat.cast_add] at ih ⊢
    linarith

theorem to_solution_wraps : ∀ (rds : List RouteData) (bs : List (List ℕ)),
    rds.map (·.route) = bs.map wrap → to_solution rds = tour bs := by
  intro rds
  induction rds with
  | nil =>
    intro bs h
    have : bs = [] := by simpa using h.symm
    subst this
    rfl
  | cons rd t ih =>
    intro bs h
    cases bs with
    | nil => simp at h
    | cons b bs =>
      simp only [List.map_cons, List.cons.injEq] at h
      have e := ih bs h.2
      simp only [to_solution, List.flatMap_cons, h.1, tour] at e ⊢
      rw [← e]
      simp [wrap]

/-- The total cost of the routes is that of the solution. -/
theorem cost_tour (D : ℕ → ℕ → ℚ) : ∀ bs : List (List ℕ),
    cost D (tour bs) = total D (bs.map wrap)
  | [] => rfl
  | b :: bs => by
    have ih := cost_tour D bs
    obtain ⟨t, ht⟩ := tour_eq_cons bs
    simp only [tour, total, List.map_cons, List.sum_cons] at ih ⊢
    rw [ht] at ih ⊢
    have := cost_append_cons D (0 :: b) 0 t
    simp only [List.cons_append] at this
    rw [this, ih]
    simp [wrap]

/-- What the search promises for a solution `sol`: the answer goes from depot to depot, visits the
same customers, is not costlier and remains feasible. -/
def SafeFor (D : ℕ → ℕ → ℚ) (d : ℕ → ℚ) (C L : Option ℚ) (sol sol' : List ℕ) : Prop :=
  DepotEnds sol' ∧ (customers sol').Perm (customers sol) ∧ cost D sol' ≤ cost D sol ∧
    (Feasible D d C L sol → Feasible D d C L sol')

theorem fits_iff {D : ℕ → ℕ → ℚ} {d : ℕ → ℚ} (hd0 : d 0 = 0) {C L : Option ℚ} {b : List ℕ} :
    (FitsC (some d) C C_EPS (wrap b) ∧ FitsL D L S_EPS (wrap b)) ↔ RouteOk D d C L b := by
  have e : demand d (wrap b) = demand d b := by
    simp [wrap, demand_eq_sum, hd0]
  unfold RouteOk FitsC FitsL
  constructor
  · rintro ⟨h1, h2⟩
    exact ⟨by rw [← e]; exact h1 d rfl, h2⟩
  · rintro ⟨h1, h2⟩
    refine ⟨fun f hf => ?_, h2⟩
    simp only [Option.some.injEq] at hf
    subst hf
    rw [e]
    exact h1

/-- From the records to the solution. -/
theorem sound_solution {D : ℕ → ℕ → ℚ} (h00 : D 0 0 = 0) {d : ℕ → ℚ} (hd0 : d 0 = 0)
    {C L : Option ℚ} {B : RouteData → Prop} {sol : List ℕ} (hsol : DepotEnds sol)
    {rds : List RouteData} (hs : Sound D (some d) C L B ((blocks sol).map wrap) rds)
    (hc : totalR D rds ≤ totalR D (from_solution sol D (some d))) :
    ∃ bs : List (List ℕ), rds.map (·.route) = bs.map wrap ∧ (∀ b ∈ bs, 0 ∉ b) ∧
      to_solution rds = tour bs ∧ SafeFor D d C L sol (to_solution rds) ∧
      blocks (to_solution rds) = bs.filter (· ≠ []) := by
  obtain ⟨s1, s2, s3, s4⟩ := hs
  obtain ⟨bs, hbs, hb0⟩ : ∃ bs : List (List ℕ), rds.map (·.route) = bs.map wrap ∧ ∀ b ∈ bs, 0 ∉ b := by
    clear s1 s2 s4 hc
    induction rds with
    | nil => exact ⟨[], rfl, by simp⟩
    | cons rd t ih =>
      obtain ⟨bs, e1, e2⟩ := ih (fun x hx => s3 x (by simp [hx]))
      obtain ⟨⟨b, hb, hb0⟩, -⟩ := s3 rd (by simp)
      refine ⟨b :: bs, by simp [hb, e1], ?_⟩
      intro x hx
      rcases List.mem_cons.1 hx with rfl | hx
      · exact hb0
      · exact e2 x hx
  have hsl := to_solution_wraps rds bs hbs
  have hzf : ∀ b ∈ bs, ∀ x ∈ b, x ≠ 0 := fun b hb x hx h => hb0 b hb (h ▸ hx)
  have hblocks : blocks (tour bs) = bs.filter (· ≠ []) := by
    rw [blocks_tour]
    clear hbs hsl s1 s2 s4 hb0
    induction bs with
    | nil => rfl
    | cons b t ih =>
      rw [List.flatMap_cons, ih (fun x hx => hzf x (by simp [hx])), List.filter_cons,
        blocks_zerofree b (hzf b (by simp))]
      by_cases h : b = []
      · simp [h]
      · simp [h]
  have hcw : ∀ cs : List (List ℕ), customers ((cs.map wrap).flatten) = customers cs.flatten := by
    intro cs
    induction cs with
    | nil => rfl
    | cons c t ih =>
      simp only [customers, wrap, List.map_cons, List.flatten_cons, List.filter_append, List.cons_append,
        List.append_assoc] at ih ⊢
      rw [List.filter_cons_of_neg (by simp), List.filter_append, List.filter_cons_of_neg (by simp),
        List.nil_append, ih]
  refine ⟨bs, hbs, hb0, hsl, ⟨?_, ?_, ?_, ?_⟩, by rw [hsl, hblocks]⟩
  · rw [hsl]; exact depotEnds_tour bs
  · rw [hsl]
    have h1 : (customers (rds.map (·.route)).flatten).Perm
        (customers ((blocks sol).map wrap).flatten) := s1.filter _
    rw [hbs, hcw, hcw, blocks_flatten] at h1
    have h2 : customers (customers sol) = customers sol := by simp [customers]
    rw [h2] at h1
    refine List.Perm.trans ?_ h1
    rw [customers_tour]
    refine List.Perm.of_eq ?_
    show _ = List.filter _ bs.flatten
    rw [List.filter_flatten, List.flatMap]
    rfl
  · rw [hsl, cost_tour, ← hbs]
    refine le_trans hc ?_
    obtain ⟨g1, g2⟩ := C02_objf_sum D h00 sol hsol
    rw [← g2, g1]
    simp only [totalR, total, from_solution, from_routes, RouteData.of_route, List.map_map]
    refine le_of_eq (congrArg List.sum (List.map_congr_left ?_))
    intro r _
    rw [objf_eq_cost]
    rfl
  · intro hf b hb
    rw [hsl, hblocks] at hb
    simp only [List.mem_filter] at hb
    rw [← fits_iff hd0]
    refine s4 ?_ _ ?_
    · intro r hr
      obtain ⟨c, hc', rfl⟩ := List.mem_map.1 hr
      exact (fits_iff hd0).2 (hf c hc')
    · rw [hbs]
      exact List.mem_map.2 ⟨b, hb.1, rfl⟩

theorem sound_init {D : ℕ → ℕ → ℚ} {d : ℕ → ℚ} {C L : Option ℚ} {B : RouteData → Prop}
    {sol : List ℕ} (hsol : DepotEnds sol) (hB : ∀ r, B (.of_route D (some d) r)) :
    Sound D (some d) C L B ((blocks sol).map wrap) (from_solution sol D (some d)) := by
  have e : (from_solution sol D (some d)).map (·.route) = (blocks sol).map wrap := by
    simp only [from_solution, from_routes, sol2routes_depotEnds sol hsol, List.map_map]
    exact List.map_congr_left fun b _ => rfl
  refine ⟨by rw [e], by rw [← e]; simp, ?_, by rw [e]; exact fun h => h⟩
  intro rd hrd
  simp only [from_solution, from_routes, List.mem_map] at hrd
  obtain ⟨r, hr, rfl⟩ := hrd
  rw [sol2routes_depotEnds sol hsol, List.mem_map] at hr
  obtain ⟨b, hb, rfl⟩ := hr
  exact ⟨⟨b, rfl, fun h => (mem_blocks sol b hb).2 0 h rfl⟩, hB _⟩

/-- Operators that keep the records true, and those that need nothing from the records. -/
def recordOps (D : ℕ → ℕ → ℚ) (d : ℕ → ℚ) (C L : Option ℚ) : List LsOp :=
  [op2opt D, op3opt D, opRelocate D, opExchange D, op1point D (some d) C L, op2point D (some d) C L,
    opChain D (some d) C L]

def routeOps (D : ℕ → ℕ → ℚ) (d : ℕ → ℚ) (C L : Option ℚ) : List LsOp :=
  [op2opt D, op3opt D, opRelocate D, opExchange D, op2optstar D (some d) C L]

theorem distinct_sub {ops ops' : List LsOp} (h : Distinct ops') (hs : ∀ op ∈ ops, op ∈ ops') :
    Distinct ops := fun a ha b hb hn => h a (hs a ha) b (hs b hb) hn

theorem distinct_of_nodup : ∀ {ops : List LsOp}, (ops.map (·.name)).Nodup → Distinct ops
  | [], _ => by intro a ha; simp at ha
  | o :: t, h => by
    rw [List.map_cons, List.nodup_cons] at h
    intro a ha b hb hn
    rcases List.mem_cons.1 ha with rfl | ha
    · rcases List.mem_cons.1 hb with rfl | hb
      · rfl
      · exact absurd (List.mem_map.2 ⟨b, hb, hn.symm⟩) h.1
    · rcases List.mem_cons.1 hb with rfl | hb
      · exact absurd (List.mem_map.2 ⟨a, ‹a ∈ t›, hn⟩) h.1
      · exact distinct_of_nodup h.2 a ha b hb hn

/-- The customers of the routes of a solution. -/
theorem customers_blocks (sol : List ℕ) :
    customers ((blocks sol).map wrap).flatten = customers sol := by
  rw [← blocks_flatten sol]
  have h := fun b hb => (mem_blocks sol b hb).2
  generalize blocks sol = bs at h
  induction bs with
  | nil => rfl
  | cons b t ih =>
    have ih := ih (fun x hx => h x (by simp [hx]))
    have hb := customers_zerofree b (h b (by simp))
    simp only [customers, wrap, List.map_cons, List.flatten_cons, List.filter_append, List.cons_append,
      List.append_assoc] at ih hb ⊢
    rw [List.filter_cons_of_neg (by simp), List.filter_append,
      List.filter_cons_of_neg (by simp), List.nil_append, ih, hb]

theorem book_of_route (D : ℕ → ℕ → ℚ) (d : ℕ → ℚ) (C : Option ℚ) (r : List ℕ) :
    Book D (some d) C (.of_route D (some d) r) := by
  refine ⟨by simp [RouteData.of_route, objf_eq_cost], fun _ => ⟨d, rfl, ?_⟩⟩
  simp [RouteData.of_route, totald, demand_eq_sum]

/-- The facts about a run with operators that keep the records. -/
theorem run_record {D : ℕ → ℕ → ℚ} (hD : Symm D) (hV : MoveSafe D) {d : ℕ → ℚ}
    (hd : ∀ n, 0 ≤ d n) {C L : Option ℚ} {ops : List LsOp} (hT : opChain D (some d) C L ∈ ops → Triangle D)
    (hops : ∀ op ∈ ops, op ∈ recordOps D d C L) (st : LSOPT) (iter : ITEROPT) (mi : Option ℕ)
    {sol : List ℕ} (hsol : DepotEnds sol) (hn : (customers sol).Nodup) :
    ∃ F, ∀ fuel, F ≤ fuel → ∃ rds,
      do_local_search fuel ops sol D (some d) st iter mi = .ok (some (to_solution rds)) ∧
      Sound D (some d) C L (Book D (some d) C) ((blocks sol).map wrap) rds ∧
      totalR D rds ≤ totalR D (from_solution sol D (some d)) ∧
      (mi = none ∨ mi = some 0 → ∀ op ∈ ops, OpOptimal st rds op) := by
  obtain ⟨m, hm⟩ := sound_bdd D (some d) C L (Book D (some d) C) ((blocks sol).map wrap)
  have hnn : NonnegDemands (some d) := by
    intro f hf n
    simp only [Option.some.injEq] at hf
    subst hf
    exact hd n
  have hn' : (customers ((blocks sol).map wrap).flatten).Nodup := by
    rw [customers_blocks]; exact hn
  refine C23_generic hm (distinct_sub (distinct_of_nodup (by simp [recordOps, op2opt, op3opt,
    opRelocate, opExchange, op1point, op2point, opChain])) hops) ?_ iter mi hsol
    (sound_init hsol (book_of_route D d C))
  intro op ho
  have := hops op ho
  simp only [recordOps, List.mem_cons, List.not_mem_nil, or_false] at this
  rcases this with rfl | rfl | rfl | rfl | rfl | rfl | rfl
  · exact op2opt_ok hD st book_single
  · exact op3opt_ok hD st book_single
  · exact opRelocate_ok st book_single
  · exact opExchange_ok hn' st book_single
  · exact op1point_ok hV hnn st
  · exact op2point_ok st
  · exact opChain_ok (hT ho) hnn st

/-- The same for operators that use only the routes. -/
theorem run_route {D : ℕ → ℕ → ℚ} (hD : Symm D) {d : ℕ → ℚ} (hd0 : d 0 = 0)
    {C L : Option ℚ} {ops : List LsOp}
    (hops : ∀ op ∈ ops, op ∈ routeOps D d C L) (st : LSOPT) (iter : ITEROPT) (mi : Option ℕ)
    {sol : List ℕ} (hsol : DepotEnds sol) (hn : (customers sol).Nodup) :
    ∃ F, ∀ fuel, F ≤ fuel → ∃ rds,
      do_local_search fuel ops sol D (some d) st iter mi = .ok (some (to_solution rds)) ∧
      Sound D (some d) C L (fun _ => True) ((blocks sol).map wrap) rds ∧
      totalR D rds ≤ totalR D (from_solution sol D (some d)) ∧
      (mi = none ∨ mi = some 0 → ∀ op ∈ ops, OpOptimal st rds op) := by
  obtain ⟨m, hm⟩ := sound_bdd D (some d) C L (fun _ => True) ((blocks sol).map wrap)
  have hn' : (customers ((blocks sol).map wrap).flatten).Nodup := by
    rw [customers_blocks]; exact hn
  have hfree : DepotFree (some d) := by
    intro f hf
    simp only [Option.some.injEq] at hf
    subst hf
    exact hd0
  refine C23_generic hm (distinct_sub (distinct_of_nodup (by simp [routeOps, op2opt, op3opt,
    opRelocate, opExchange, op2optstar])) hops) ?_ iter mi hsol
    (sound_init hsol (fun _ => trivial))
  intro op ho
  have := hops op ho
  simp only [routeOps, List.mem_cons, List.not_mem_nil, or_false] at this
  rcases this with rfl | rfl | rfl | rfl | rfl
  · exact op2opt_ok hD st (fun _ _ _ _ _ _ => trivial)
  · exact op3opt_ok hD st (fun _ _ _ _ _ _ => trivial)
  · exact opRelocate_ok st (fun _ _ _ _ _ _ => trivial)
  · exact opExchange_ok hn' st (fun _ _ _ _ _ _ => trivial)
  · exact op2optstar_ok hD hfree (fun _ => ⟨d, rfl⟩) st

/-- C23. The same as `C23_safe` where the triangle inequality does not hold, as with rounded distances, but for the chain move. -/
theorem C23_safe_rounded {D : ℕ → ℕ → ℚ} (hD : Symm D) (hV : MoveSafe D) (h00 : D 0 0 = 0) {d : ℕ → ℚ}
    (hd0 : d 0 = 0) (hd : ∀ n, 0 ≤ d n) {C L : Option ℚ} {ops : List LsOp} (hT : opChain D (some d) C L ∈ ops → Triangle D)
    (hops : ∀ op ∈ ops, op ∈ recordOps D d C L) (st : LSOPT) (iter : ITEROPT) (mi : Option ℕ)
    {sol : List ℕ} (hsol : DepotEnds sol) (hn : (customers sol).Nodup) :
    ∃ F, ∀ fuel, F ≤ fuel → ∃ sol',
      do_local_search fuel ops sol D (some d) st iter mi = .ok (some sol') ∧
      SafeFor D d C L sol sol' := by
  obtain ⟨F, h⟩ := run_record hD hV hd hT hops st iter mi hsol hn
  refine ⟨F, fun fuel hf => ?_⟩
  obtain ⟨rds, h1, h2, h3, -⟩ := h fuel hf
  obtain ⟨bs, -, -, -, h4, -⟩ := sound_solution h00 hd0 hsol h2 h3
  exact ⟨_, h1, h4⟩

/-- C23. With any of the operators 2-opt, 3-opt, relocate, exchange, one point, two point and chain
move, any strategies and any iteration limit, on a metric the search terminates, visits the same
customers, never makes the solution costlier, and keeps it feasible. -/
theorem C23_safe {D : ℕ → ℕ → ℚ} (hD : Symm D) (hT : Triangle D) (h00 : D 0 0 = 0) {d : ℕ → ℚ}
    (hd0 : d 0 = 0) (hd : ∀ n, 0 ≤ d n) {C L : Option ℚ} {ops : List LsOp}
    (hops : ∀ op ∈ ops, op ∈ recordOps D d C L) (st : LSOPT) (iter : ITEROPT) (mi : Option ℕ)
    {sol : List ℕ} (hsol : DepotEnds sol) (hn : (customers sol).Nodup) :
    ∃ F, ∀ fuel, F ≤ fuel → ∃ sol',
      do_local_search fuel ops sol D (some d) st iter mi = .ok (some sol') ∧
      SafeFor D d C L sol sol' :=
  C23_safe_rounded hD (moveSafe_of_triangle hT) h00 hd0 hd (fun _ => hT) hops st iter mi hsol hn

/-- C23. The same for 2-opt, 3-opt, relocate, exchange and 2-opt*, without the triangle inequality. -/
theorem C23_safe_star {D : ℕ → ℕ → ℚ} (hD : Symm D) (h00 : D 0 0 = 0) {d : ℕ → ℚ}
    (hd0 : d 0 = 0) {C L : Option ℚ} {ops : List LsOp}
    (hops : ∀ op ∈ ops, op ∈ routeOps D d C L) (st : LSOPT) (iter : ITEROPT) (mi : Option ℕ)
    {sol : List ℕ} (hsol : DepotEnds sol) (hn : (customers sol).Nodup) :
    ∃ F, ∀ fuel, F ≤ fuel → ∃ sol',
      do_local_search fuel ops sol D (some d) st iter mi = .ok (some sol') ∧
      SafeFor D d C L sol sol' := by
  obtain ⟨F, h⟩ := run_route hD hd0 hops st iter mi hsol hn
  refine ⟨F, fun fuel hf => ?_⟩
  obtain ⟨rds, h1, h2, h3, -⟩ := h fuel hf
  obtain ⟨bs, -, -, -, h4, -⟩ := sound_solution h00 hd0 hsol h2 h3
  exact ⟨_, h1, h4⟩

/-! ## C24 -/

/-- No neighbour of the route is better by more than the tolerance. -/
def NoBetter (D : ℕ → ℕ → ℚ) (Nb : List ℕ → List ℕ → Prop) (r : List ℕ) : Prop :=
  ∀ r', Nb r r' → ¬ (cost D r' + S_EPS < cost D r)

/-- No neighbour of the routes that has the property `Feas` is better by more than the tolerance. -/
def NoBetterG (D : ℕ → ℕ → ℚ) (Nb : List (List ℕ) → List (List ℕ) → Prop)
    (Feas : List (List ℕ) → Prop) (rs : List (List ℕ)) : Prop :=
  ∀ rs', Nb rs rs' → Feas rs' → ¬ (total D rs' + S_EPS < total D rs)

/-- A route of the solution has a record. -/
theorem block_record {rds : List RouteData} {bs : List (List ℕ)}
    (h : rds.map (·.route) = bs.map wrap) {sol' : List ℕ}
    (hb : blocks sol' = bs.filter (· ≠ [])) {b : List ℕ} (hm : b ∈ blocks sol') :
    ∃ i : ℕ, ∃ rd : RouteData, rds[i]? = some rd ∧ rd.route = wrap b ∧ 2 < rd.route.length := by
  rw [hb, List.mem_filter] at hm
  obtain ⟨i, hi, e⟩ := List.getElem_of_mem hm.1
  have hlen : rds.length = bs.length := by simpa using congrArg List.length h
  have hi' : i < rds.length := by omega
  have hb' : b ≠ [] := by simpa using hm.2
  refine ⟨i, rds[i], List.getElem?_eq_getElem hi', ?_, ?_⟩
  · have := congrArg (fun l => l[i]?) h
    simp only [List.getElem?_map, List.getElem?_eq_getElem hi', List.getElem?_eq_getElem hi,
      Option.map_some, Option.some.injEq] at this
    rw [this, e]
  · have := congrArg (fun l => l[i]?) h
    simp only [List.getElem?_map, List.getElem?_eq_getElem hi', List.getElem?_eq_getElem hi,
      Option.map_some, Option.some.injEq] at this
    rw [this, e]
    have := List.length_pos_iff.2 hb'
    simp only [wrap, List.length_cons, List.length_append, List.length_nil]
    omega

theorem optimal_single {st : LSOPT} {rds : List RouteData} {nm : ℕ} {sens : Bool}
    {f : List ℕ → LSOPT → Py (Option (List ℕ × ℚ))}
    (h : OpOptimal st rds ⟨nm, sens, .single f⟩) {i : ℕ} {rd : RouteData} (hi : rds[i]? = some rd)
    (hl : 2 < rd.route.length) : f rd.route st = .ok none := by
  have h := h [i] (by simp) rfl (by simpa using ⟨rd, hi, hl⟩) (Or.inr (by simp))
  have hget : getAll rds [i] = .ok [rd] := by simp [getAll, idx, hi]
  simp only [callOp, hget] at h
  rcases hf : f rd.route st with e | o
  · rw [hf] at h; simp at h
  · rcases o with _ | ⟨r', delta⟩
    · rfl
    · rw [hf] at h; simp at h

theorem optimal_two {st : LSOPT} {rds : List RouteData} {nm : ℕ} {sens : Bool}
    {f : RouteData → RouteData → LSOPT → Py (Option (List RouteData × ℚ))}
    (h : OpOptimal st rds ⟨nm, sens, .multi 0 (onTwo f)⟩) {i j : ℕ} {a b : RouteData}
    (hi : rds[i]? = some a) (hj : rds[j]? = some b) (ha : 2 < a.route.length)
    (hb : 2 < b.route.length) (hij : i ≠ j) (hs : sens = true ∨ i ≤ j) : f a b st = .ok none := by
  have h := h [i, j] (by simp [hij]) rfl (by
    intro r hr
    simp only [List.mem_cons, List.not_mem_nil, or_false] at hr
    rcases hr with rfl | rfl
    · exact ⟨a, hi, ha⟩
    · exact ⟨b, hj, hb⟩) (by
    rcases hs with hs | hs
    · exact Or.inl hs
    · exact Or.inr (by simpa using hs))
  have hget : getAll rds [i, j] = .ok [a, b] := by simp [getAll, idx, hi, hj]
  simpa only [callOp, hget, onTwo] using h

theorem optimal_three {st : LSOPT} {rds : List RouteData} {nm : ℕ}
    {f : RouteData → RouteData → RouteData → LSOPT → Py (Option (List RouteData × ℚ))}
    (h : OpOptimal st rds ⟨nm, true, .multi 1 (onThree f)⟩) {i j k : ℕ} {a b c : RouteData}
    (hi : rds[i]? = some a) (hj : rds[j]? = some b) (hk : rds[k]? = some c)
    (ha : 2 < a.route.length) (hb : 2 < b.route.length) (hc : 2 < c.route.length)
    (hij : i ≠ j) (hik : i ≠ k) (hjk : j ≠ k) : f a b c st = .ok none := by
  have h := h [i, j, k] (by simp [hij, hik, hjk]) rfl (by
    intro r hr
    simp only [List.mem_cons, List.not_mem_nil, or_false] at hr
    rcases hr with rfl | rfl | rfl
    · exact ⟨a, hi, ha⟩
    · exact ⟨b, hj, hb⟩
    · exact ⟨c, hk, hc⟩) (Or.inl rfl)
  have hget : getAll rds [i, j, k] = .ok [a, b, c] := by simp [getAll, idx, hi, hj, hk]
  simpa only [callOp, hget, onThree] using h

theorem ne_of_route {rds : List RouteData} {i j : ℕ} {a b : RouteData} (hi : rds[i]? = some a)
    (hj : rds[j]? = some b) {x y : List ℕ} (hx : a.route = wrap x) (hy : b.route = wrap y)
    (hne : x ≠ y) : i ≠ j := by
  rintro rfl
  rw [hi] at hj
  cases hj
  rw [hx] at hy
  exact hne (by simpa [wrap] using hy)

theorem nb2point_swap {a b : List ℕ} {rs' : List (List ℕ)} (h : Nb2point [a, b] rs') :
    ∃ x y, rs' = [x, y] ∧ Nb2point [b, a] [y, x] := by
  obtain ⟨A, B, E, F, n, m, hA, hB, hE, hF, h1, h2⟩ := h
  simp only [List.cons.injEq, and_true] at h1
  exact ⟨_, _, h2, E, F, A, B, m, n, hE, hF, hA, hB, by rw [h1.1, h1.2], rfl⟩

theorem moveOk_none {D : ℕ → ℕ → ℚ} {Nb Nc : List ℕ → List ℕ → Prop} {best : Bool} {r : List ℕ}
    (h : MoveOkFor D Nb Nc best ((none : Option ℚ).getD 0) r none) : NoBetter D Nc r := by
  intro r' hr' hlt
  refine h r' hr' ?_
  simp only [Option.getD_none]
  linarith

theorem groupOk_none {D : ℕ → ℕ → ℚ} {Nb : List (List ℕ) → List (List ℕ) → Prop}
    {Feas : List (List ℕ) → Prop} {Rec : List RouteData → Prop} {best : Bool} {rds : List RouteData}
    (h : GroupOkFor D Nb Feas Rec best ((none : Option ℚ).getD 0) rds none) :
    NoBetterG D Nb Feas (rds.map (·.route)) := by
  intro r' hr' hf hlt
  refine h r' hr' hf ?_
  simp only [Option.getD_none]
  linarith

theorem ok_inj {α : Type} {x : Py α} {a b : α} (h1 : x = .ok a) (h2 : x = .ok b) : a = b := by
  rw [h1] at h2
  cases h2
  rfl

/-- What is claimed about the routes when the operators on single routes have nothing to improve. -/
def OptRoutes (D : ℕ → ℕ → ℚ) (ops : List LsOp) (sol : List ℕ) : Prop :=
  (op2opt D ∈ ops → ∀ b ∈ blocks sol, NoBetter D Nb2opt (wrap b)) ∧
  (op3opt D ∈ ops → ∀ b ∈ blocks sol,
    NoBetter D (fun r r' => (Nb3opt r r' ∨ Nb2opt r r') ∧ r' ≠ r) (wrap b)) ∧
  (opRelocate D ∈ ops → ∀ b ∈ blocks sol, NoBetter D NbRelocate (wrap b)) ∧
  (opExchange D ∈ ops → ∀ b ∈ blocks sol, NoBetter D NbExchange (wrap b))

theorem optRoutes {D : ℕ → ℕ → ℚ} (hD : Symm D) {d : Option (ℕ → ℚ)} {C L : Option ℚ}
    {B : RouteData → Prop} {R0 : List (List ℕ)} (hn : (customers R0.flatten).Nodup)
    {ops : List LsOp} {st : LSOPT} {rds : List RouteData} (hs : Sound D d C L B R0 rds)
    (hopt : ∀ op ∈ ops, OpOptimal st rds op) {bs : List (List ℕ)}
    (h : rds.map (·.route) = bs.map wrap) {sol' : List ℕ}
    (hb : blocks sol' = bs.filter (· ≠ [])) : OptRoutes D ops sol' := by
  refine ⟨?_, ?_, ?_, ?_⟩
  · intro ho b hm
    obtain ⟨i, rd, h1, h2, h3⟩ := block_record h hb hm
    have h4 := optimal_single (hopt _ ho) h1 h3
    obtain ⟨o, g1, g2⟩ := C12_two_opt hD rd.route st none
    have := ok_inj g1 h4
    subst this
    rw [← h2]
    exact moveOk_none g2
  · intro ho b hm
    obtain ⟨i, rd, h1, h2, h3⟩ := block_record h hb hm
    have h4 := optimal_single (hopt _ ho) h1 h3
    obtain ⟨o, g1, g2⟩ := C13_three_opt hD rd.route st none
    have := ok_inj g1 h4
    subst this
    rw [← h2]
    exact moveOk_none g2
  · intro ho b hm
    obtain ⟨i, rd, h1, h2, h3⟩ := block_record h hb hm
    have h4 := optimal_single (hopt _ ho) h1 h3
    have hmem := List.mem_of_getElem? h1
    obtain ⟨o, g1, g2⟩ := C14_relocate D
      (circuit_of_depots (hs.2.2.1 rd hmem).1 (sound_nodup hs hn rd hmem)) st none
    have := ok_inj g1 h4
    subst this
    rw [← h2]
    exact moveOk_none g2
  · intro ho b hm
    obtain ⟨i, rd, h1, h2, h3⟩ := block_record h hb hm
    have h4 := optimal_single (hopt _ ho) h1 h3
    have hmem := List.mem_of_getElem? h1
    obtain ⟨o, g1, g2⟩ := C15_exchange D
      (circuit_of_depots (hs.2.2.1 rd hmem).1 (sound_nodup hs hn rd hmem)) st none
    have := ok_inj g1 h4
    subst this
    rw [← h2]
    exact moveOk_none g2

/-- C24. Also where the triangle inequality does not hold, as with rounded distances (but for the chain move), without an iteration limit the result is a local optimum: no route, and no two or three
different routes, have a feasible neighbour by any of the used operators that would be better by more
than the tolerance. The blocks of a solution are its routes; as the customers differ, different routes
have different blocks. -/
theorem C24_local_optimum_rounded {D : ℕ → ℕ → ℚ} (hD : Symm D) (hV : MoveSafe D) (h00 : D 0 0 = 0)
    {d : ℕ → ℚ} (hd0 : d 0 = 0) (hd : ∀ n, 0 ≤ d n) {C L : Option ℚ} {ops : List LsOp} (hT : opChain D (some d) C L ∈ ops → Triangle D)
    (hops : ∀ op ∈ ops, op ∈ recordOps D d C L) (st : LSOPT) (iter : ITEROPT)
    {sol : List ℕ} (hsol : DepotEnds sol) (hn : (customers sol).Nodup) :
    ∃ F, ∀ fuel, F ≤ fuel → ∃ sol',
      do_local_search fuel ops sol D (some d) st iter none = .ok (some sol') ∧
      SafeFor D d C L sol sol' ∧ OptRoutes D ops sol' ∧
      (op1point D (some d) C L ∈ ops → ∀ b ∈ blocks sol', ∀ b' ∈ blocks sol', b ≠ b' →
        NoBetterG D Nb1point (fun rs => FitsAll D (some d) C L C_EPS S_EPS rs.tail)
          [wrap b, wrap b']) ∧
      (op2point D (some d) C L ∈ ops → ∀ b ∈ blocks sol', ∀ b' ∈ blocks sol', b ≠ b' →
        NoBetterG D Nb2point (FitsAll D (some d) C L C_EPS 0) [wrap b, wrap b']) ∧
      (opChain D (some d) C L ∈ ops → ∀ b ∈ blocks sol', ∀ b' ∈ blocks sol', ∀ b'' ∈ blocks sol',
        b ≠ b' → b ≠ b'' → b' ≠ b'' →
        NoBetterG D NbChain (fun rs => FitsAll D (some d) C L 0 0 rs.tail)
          [wrap b, wrap b', wrap b'']) := by
  obtain ⟨F, h⟩ := run_record hD hV hd hT hops st iter none hsol hn
  refine ⟨F, fun fuel hf => ?_⟩
  obtain ⟨rds, h1, h2, h3, hopt⟩ := h fuel hf
  obtain ⟨bs, k1, k2, k3, k4, k5⟩ := sound_solution h00 hd0 hsol h2 h3
  have hopt := hopt (Or.inl rfl)
  refine ⟨_, h1, k4, optRoutes hD (by rw [customers_blocks]; exact hn) h2 hopt k1 k5, ?_, ?_, ?_⟩
  · intro ho b hb b' hb' hne
    obtain ⟨i, x, i1, i2, i3⟩ := block_record k1 k5 hb
    obtain ⟨j, y, j1, j2, j3⟩ := block_record k1 k5 hb'
    have hfn := optimal_two (hopt _ ho) i1 j1 i3 j3 (ne_of_route i1 j1 i2 j2 hne) (Or.inl rfl)
    obtain ⟨o, g1, g2⟩ := C16_one_point (L := L) (h2.2.2.1 x (List.mem_of_getElem? i1)).2
      (h2.2.2.1 y (List.mem_of_getElem? j1)).2 st none
    have := ok_inj g1 hfn
    subst this
    have := groupOk_none g2
    simpa only [List.map_cons, List.map_nil, i2, j2] using this
  · intro ho b hb b' hb' hne
    obtain ⟨i, x, i1, i2, i3⟩ := block_record k1 k5 hb
    obtain ⟨j, y, j1, j2, j3⟩ := block_record k1 k5 hb'
    have hij := ne_of_route i1 j1 i2 j2 hne
    rcases Nat.lt_or_gt_of_ne hij with hlt | hlt
    · have hfn := optimal_two (hopt _ ho) i1 j1 i3 j3 hij (Or.inr (by omega))
      obtain ⟨o, g1, g2⟩ := C17_two_point (L := L) (h2.2.2.1 x (List.mem_of_getElem? i1)).2
        (h2.2.2.1 y (List.mem_of_getElem? j1)).2 st none
      have := ok_inj g1 hfn
      subst this
      have := groupOk_none g2
      simpa only [List.map_cons, List.map_nil, i2, j2] using this
    · have hfn := optimal_two (hopt _ ho) j1 i1 j3 i3 (Ne.symm hij) (Or.inr (by omega))
      obtain ⟨o, g1, g2⟩ := C17_two_point (L := L) (h2.2.2.1 y (List.mem_of_getElem? j1)).2
        (h2.2.2.1 x (List.mem_of_getElem? i1)).2 st none
      have := ok_inj g1 hfn
      subst this
      have := groupOk_none g2
      simp only [List.map_cons, List.map_nil, i2, j2] at this
      intro rs' hr hf' hlt'
      obtain ⟨u, v, rfl, hsw⟩ := nb2point_swap hr
      refine this [v, u] hsw ?_ ?_
      · rw [FitsAll, mem2] at hf' ⊢
        exact hf'.symm
      · simp only [total, List.map_cons, List.map_nil, List.sum_cons, List.sum_nil] at hlt' ⊢
        linarith
  · intro ho b hb b' hb' b'' hb'' n1 n2 n3
    obtain ⟨i, x, i1, i2, i3⟩ := block_record k1 k5 hb
    obtain ⟨j, y, j1, j2, j3⟩ := block_record k1 k5 hb'
    obtain ⟨k, z, l1, l2, l3⟩ := block_record k1 k5 hb''
    have hfn := optimal_three (hopt _ ho) i1 j1 l1 i3 j3 l3 (ne_of_route i1 j1 i2 j2 n1)
      (ne_of_route i1 l1 i2 l2 n2) (ne_of_route j1 l1 j2 l2 n3)
    obtain ⟨o, g1, g2⟩ := C21_chain (L := L) (h2.2.2.1 x (List.mem_of_getElem? i1)).2
      (h2.2.2.1 y (List.mem_of_getElem? j1)).2 (h2.2.2.1 z (List.mem_of_getElem? l1)).2 st none
    have := ok_inj g1 hfn
    subst this
    have := groupOk_none g2
    simpa only [List.map_cons, List.map_nil, i2, j2, l2] using this

/-- C24. Without an iteration limit the result is a local optimum: no route, and no two or three
different routes, have a feasible neighbour by any of the used operators that would be better by more
than the tolerance. The blocks of a solution are its routes; as the customers differ, different routes
have different blocks. -/
theorem C24_local_optimum {D : ℕ → ℕ → ℚ} (hD : Symm D) (hT : Triangle D) (h00 : D 0 0 = 0)
    {d : ℕ → ℚ} (hd0 : d 0 = 0) (hd : ∀ n, 0 ≤ d n) {C L : Option ℚ} {ops : List LsOp}
    (hops : ∀ op ∈ ops, op ∈ recordOps D d C L) (st : LSOPT) (iter : ITEROPT)
    {sol : List ℕ} (hsol : DepotEnds sol) (hn : (customers sol).Nodup) :
    ∃ F, ∀ fuel, F ≤ fuel → ∃ sol',
      do_local_search fuel ops sol D (some d) st iter none = .ok (some sol') ∧
      SafeFor D d C L sol sol' ∧ OptRoutes D ops sol' ∧
      (op1point D (some d) C L ∈ ops → ∀ b ∈ blocks sol', ∀ b' ∈ blocks sol', b ≠ b' →
        NoBetterG D Nb1point (fun rs => FitsAll D (some d) C L C_EPS S_EPS rs.tail)
          [wrap b, wrap b']) ∧
      (op2point D (some d) C L ∈ ops → ∀ b ∈ blocks sol', ∀ b' ∈ blocks sol', b ≠ b' →
        NoBetterG D Nb2point (FitsAll D (some d) C L C_EPS 0) [wrap b, wrap b']) ∧
      (opChain D (some d) C L ∈ ops → ∀ b ∈ blocks sol', ∀ b' ∈ blocks sol', ∀ b'' ∈ blocks sol',
        b ≠ b' → b ≠ b'' → b' ≠ b'' →
        NoBetterG D NbChain (fun rs => FitsAll D (some d) C L 0 0 rs.tail)
          [wrap b, wrap b', wrap b'']) :=
  C24_local_optimum_rounded hD (moveSafe_of_triangle hT) h00 hd0 hd (fun _ => hT) hops st iter hsol hn

theorem fits_reverse {D : ℕ → ℕ → ℚ} (hD : Symm D) {d : Option (ℕ → ℚ)} {C L : Option ℚ} {eC eL : ℚ}
    {r : List ℕ} (h : FitsC d C eC r ∧ FitsL D L eL r) :
    FitsC d C eC r.reverse ∧ FitsL D L eL r.reverse := by
  refine ⟨fun f hf => ?_, ?_⟩
  · rw [demand_perm f (List.reverse_perm r)]; exact h.1 f hf
  · unfold FitsL; rw [cost_reverse hD]; exact h.2

theorem nb2optStar_swap {D : ℕ → ℕ → ℚ} (hD : Symm D) {d : Option (ℕ → ℚ)} {C L : Option ℚ}
    {eC eL : ℚ} {a b : List ℕ} {rs' : List (List ℕ)} (h : Nb2optStar [a, b] rs')
    (hf : FitsAll D d C L eC eL rs') :
    ∃ rs'', Nb2optStar [b, a] rs'' ∧ FitsAll D d C L eC eL rs'' ∧ total D rs'' = total D rs' := by
  obtain ⟨A, B, E, F, hA, hB, hE, hF, h1, h2⟩ := h
  simp only [List.cons.injEq, and_true] at h1
  obtain ⟨rfl, rfl⟩ := h1
  rcases h2 with rfl | rfl
  · refine ⟨[E ++ A.reverse, F.reverse ++ B], ⟨E, F, A, B, hE, hF, hA, hB, rfl, Or.inl rfl⟩, ?_, ?_⟩
    · rw [FitsAll, mem2] at hf ⊢
      have k1 := fits_reverse hD hf.1
      have k2 := fits_reverse hD hf.2
      simp only [List.reverse_append, List.reverse_reverse] at k1 k2
      exact ⟨k1, k2⟩
    · have e1 := cost_reverse hD (A ++ E.reverse)
      have e2 := cost_reverse hD (B.reverse ++ F)
      simp only [List.reverse_append, List.reverse_reverse] at e1 e2
      simp only [total, List.map_cons, List.map_nil, List.sum_cons, List.sum_nil, e1, e2]
  · refine ⟨[E ++ B, F.reverse ++ A.reverse], ⟨E, F, A, B, hE, hF, hA, hB, rfl, Or.inr rfl⟩, ?_, ?_⟩
    · rw [FitsAll, mem2] at hf ⊢
      have k1 := fits_reverse hD hf.1
      have k2 := fits_reverse hD hf.2
      simp only [List.reverse_append, List.reverse_reverse] at k1 k2
      exact ⟨k2, k1⟩
    · have e1 := cost_reverse hD (A ++ F)
      have e2 := cost_reverse hD (B.reverse ++ E.reverse)
      simp only [List.reverse_append, List.reverse_reverse] at e1 e2
      simp only [total, List.map_cons, List.map_nil, List.sum_cons, List.sum_nil, e1, e2]
      ring

/-- C24. The same for 2-opt*, that the search tries on each pair of routes in one order only. -/
theorem C24_local_optimum_star {D : ℕ → ℕ → ℚ} (hD : Symm D) (h00 : D 0 0 = 0)
    {d : ℕ → ℚ} (hd0 : d 0 = 0) {C L : Option ℚ} {ops : List LsOp}
    (hops : ∀ op ∈ ops, op ∈ routeOps D d C L) (st : LSOPT) (iter : ITEROPT)
    {sol : List ℕ} (hsol : DepotEnds sol) (hn : (customers sol).Nodup) :
    ∃ F, ∀ fuel, F ≤ fuel → ∃ sol',
      do_local_search fuel ops sol D (some d) st iter none = .ok (some sol') ∧
      SafeFor D d C L sol sol' ∧ OptRoutes D ops sol' ∧
      (op2optstar D (some d) C L ∈ ops → ∀ b ∈ blocks sol', ∀ b' ∈ blocks sol', b ≠ b' →
        NoBetterG D Nb2optStar (FitsAll D (some d) C L C_EPS S_EPS) [wrap b, wrap b']) := by
  obtain ⟨F, h⟩ := run_route hD hd0 hops st iter none hsol hn
  refine ⟨F, fun fuel hf => ?_⟩
  obtain ⟨rds, h1, h2, h3, hopt⟩ := h fuel hf
  obtain ⟨bs, k1, k2, k3, k4, k5⟩ := sound_solution h00 hd0 hsol h2 h3
  have hopt := hopt (Or.inl rfl)
  have hfree : DepotFree (some d) := by
    intro f hf
    simp only [Option.some.injEq] at hf
    subst hf
    exact hd0
  refine ⟨_, h1, k4, optRoutes hD (by rw [customers_blocks]; exact hn) h2 hopt k1 k5, ?_⟩
  intro ho b hb b' hb' hne
  obtain ⟨i, x, i1, i2, i3⟩ := block_record k1 k5 hb
  obtain ⟨j, y, j1, j2, j3⟩ := block_record k1 k5 hb'
  have hij := ne_of_route i1 j1 i2 j2 hne
  have ex : DepotEnds x.route := by rw [i2]; exact depotEnds_wrap b
  have ey : DepotEnds y.route := by rw [j2]; exact depotEnds_wrap b'
  rcases Nat.lt_or_gt_of_ne hij with hlt | hlt
  · have hfn := optimal_two (hopt _ ho) i1 j1 i3 j3 hij (Or.inr (by omega))
    obtain ⟨o, g1, g2⟩ := C18_two_opt_star_partial (C := C) (L := L) hD hfree (fun _ => ⟨d, rfl⟩) ex ey
      st none
    have := ok_inj g1 hfn
    subst this
    have := groupOk_none g2
    simpa only [List.map_cons, List.map_nil, i2, j2] using this
  · have hfn := optimal_two (hopt _ ho) j1 i1 j3 i3 (Ne.symm hij) (Or.inr (by omega))
    obtain ⟨o, g1, g2⟩ := C18_two_opt_star_partial (C := C) (L := L) hD hfree (fun _ => ⟨d, rfl⟩) ey ex
      st none
    have := ok_inj g1 hfn
    subst this
    have := groupOk_none g2
    simp only [List.map_cons, List.map_nil, i2, j2] at this
    intro rs' hr hf' hlt'
    obtain ⟨rs'', q1, q2, q3⟩ := nb2optStar_swap hD hr hf'
    refine this rs'' q1 q2 ?_
    rw [q3]
    simp only [total, List.map_cons, List.map_nil, List.sum_cons, List.sum_nil] at hlt' ⊢
    linarith

/-! ## Cases -/

/-- Five points of the grid and their rectilinear distances. -/
def exX : ℕ → ℤ
  | 0 => 2 | 1 => 3 | 2 => 1 | 3 => 3 | _ => 0
def exY : ℕ → ℤ
  | 0 => 5 | 1 => 5 | 2 => 0 | 3 => 2 | _ => 3
def exM (i j : ℕ) : ℚ := ((exX i - exX j).natAbs + (exY i - exY j).natAbs : ℕ)

theorem exM_symm : Symm exM := by
  intro i j
  unfold exM
  rw [← Int.natAbs_neg (exX i - exX j), ← Int.natAbs_neg (exY i - exY j), neg_sub, neg_sub]

theorem exM_triangle : Triangle exM := by
  intro i j k
  unfold exM
  have h1 := Int.natAbs_add_le (exX i - exX j) (exX j - exX k)
  have h2 := Int.natAbs_add_le (exY i - exY j) (exY j - exY k)
  rw [sub_add_sub_cancel] at h1 h2
  have : (exX i - exX k).natAbs + (exY i - exY k).natAbs ≤
    ((exX i - exX j).natAbs + (exY i - exY j).natAbs) +
      ((exX j - exX k).natAbs + (exY j - exY k).natAbs) := by omega
  exact_mod_cast this

def exOne (n : ℕ) : ℚ := if n = 0 then 0 else 1

example : exM 0 0 = 0 ∧ exOne 0 = 0 ∧ (∀ n, 0 ≤ exOne n) ∧ DepotEnds [0, 1, 2, 0, 3, 4, 0] ∧
    (customers [0, 1, 2, 0, 3, 4, 0]).Nodup :=
  ⟨by decide +kernel, rfl, fun n => by unfold exOne; split_ifs <;> norm_num, by decide, by decide⟩

/-- The search at work, with each iteration strategy. -/
example : do_local_search 20 [op2opt exM, op1point exM (some exOne) (some 3) (some 14)]
    [0, 1, 2, 0, 3, 4, 0] exM (some exOne) .FIRST_ACCEPT .ALL_ACCEPT none
    = .ok (some [0, 4, 2, 0, 1, 3, 0]) := by decide +kernel
example : do_local_search 20 [op2opt exM, op2point exM (some exOne) (some 2) (some 16)]
    [0, 1, 2, 0, 3, 4, 0] exM (some exOne) .BEST_ACCEPT .BEST_ACCEPT none
    = .ok (some [0, 4, 2, 0, 3, 1, 0]) := by decide +kernel
example : do_local_search 20 [opRelocate exM, op2optstar exM (some exOne) (some 3) (some 14)]
    [0, 1, 2, 0, 3, 4, 0] exM (some exOne) .BEST_ACCEPT .REPEATED_ACCEPT none
    = .ok (some [0, 1, 3, 0, 2, 4, 0]) := by decide +kernel

/-- C23. The full claim fails when 2-opt* is used together with an operator that trusts the records:
on a metric, from a feasible solution, the search makes a route longer than the limit, because 2-opt*
records wrong costs (see C18). -/
theorem C23_star_with_records_false :
    ∃ sol', do_local_search 20
      [op2optstar exM (some exOne) (some 3) (some 14), op1point exM (some exOne) (some 3) (some 14)]
      [0, 1, 2, 0, 3, 4, 0] exM (some exOne) .FIRST_ACCEPT .ALL_ACCEPT none = .ok (some sol') ∧
    Feasible exM exOne (some 3) (some 14) [0, 1, 2, 0, 3, 4, 0] ∧
    ¬ Feasible exM exOne (some 3) (some 14) sol' := by
  refine ⟨[0, 1, 0, 3, 4, 2, 0], by decide +kernel, ?_, ?_⟩
  · intro b hb
    have e : blocks [0, 1, 2, 0, 3, 4, 0] = [[1, 2], [3, 4]] := by decide
    rw [e] at hb
    simp only [List.mem_cons, List.not_mem_nil, or_false] at hb
    rcases hb with rfl | rfl
    all_goals
      refine ⟨?_, ?_⟩
      all_goals
        rintro c hc -
        simp only [Option.some.injEq] at hc
        subst hc
        decide +kernel
  · intro h
    have := (h [3, 4, 2] (by decide)).2 14 rfl (by norm_num)
    exact absurd this (by decide +kernel)

/-- C23. The redistribution of a route does not report the change of the cost, and used as an operator
of the search it can make the solution costlier. -/
theorem C23_redistribute_false :
    ∃ (D : ℕ → ℕ → ℚ) (sol' : List ℕ), do_local_search 9 [opRedistribute D (some exOne) none none]
      [0, 1, 0, 2, 0] D (some exOne) .FIRST_ACCEPT .ALL_ACCEPT none = .ok (some sol') ∧
      cost D [0, 1, 0, 2, 0] < cost D sol' :=
  ⟨fun i j => if i = j then 0 else if i = 0 ∨ j = 0 then 1 else 100, [0, 0, 2, 1, 0],
    by decide +kernel, by decide +kernel⟩

end Verif
