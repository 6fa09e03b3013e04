import Verif.Lemmas.MoleJameson
import Verif.Lemmas.Paessens
import Verif.Lemmas.WrenHolliday
import Verif.Props.LocalSearch
import Verif.Props.InterRoute
import Verif.Spec.MoleJameson

/-! # Lemmas for the refinement of Mole & Jameson -/

namespace Verif
open Spec

/-- With the triangle inequality more stops do not make a route cheaper. -/
theorem cost_more_stops {D : ℕ → ℕ → ℚ} (hT : ∀ i j k, D i k ≤ D i j + D j k) {u v : List ℕ} (h : u.Sublist v)
    (a b : ℕ) : cost D (a :: (u ++ [b])) ≤ cost D (a :: (v ++ [b])) := by
  induction h generalizing a with
  | slnil => exact le_refl _
  | @cons u v x h ih =>
    have h1 := ih x
    have h2 : cost D (a :: (u ++ [b])) ≤ D a x + cost D (x :: (u ++ [b])) := by
      cases u with
      | nil => simp only [List.nil_append, cost, add_zero]; exact hT a x b
      | cons y u =>
        simp only [List.cons_append, cost]
        have := hT a x y
        linarith
    simp only [List.cons_append, cost] at h2 ⊢
    linarith
  | @cons_cons u v x h ih =>
    have h1 := ih x
    simp only [List.cons_append, cost]
    linarith

theorem sublist_of_wrap {u v : List ℕ} (h : (wrap u).Sublist (wrap v)) : u.Sublist v := by
  have h1 : (u ++ [0]).Sublist (v ++ [0]) := List.cons_sublist_cons.1 h
  have h2 := h1.reverse
  rw [List.reverse_append, List.reverse_append] at h2
  have h3 := List.reverse_sublist.1 (List.cons_sublist_cons.1 h2)
  exact h3

/-- What is known of a solution that may have empty routes. -/
structure MjPre (N : ℕ) (D : ℕ → ℕ → ℚ) (d : ℕ → ℚ) (C L : Option ℚ) (sol : List ℕ) : Prop where
  ends : DepotEnds sol
  covers : Covers N sol
  feasible : Serviceable N D d C L → Feasible D d C L sol

variable {N : ℕ} {D : ℕ → ℕ → ℚ} {d : ℕ → ℚ} {C L : Option ℚ}

theorem MjPre.nodup {sol : List ℕ} (h : MjPre N D d C L sol) : (customers sol).Nodup :=
  h.covers.nodup_iff.2 ((List.pairwise_lt_range' 1).imp fun h => ne_of_lt h)

theorem squeeze_squeeze_ends {sol : List ℕ} (h : DepotEnds sol) : squeeze (squeeze sol) = squeeze sol := by
  have e : DepotEnds (squeeze sol) := by rw [squeeze_depotEnds h]; exact depotEnds_tour _
  rw [squeeze_depotEnds e, blocks_squeeze, ← squeeze_depotEnds h]

theorem MjPre.solves {sol : List ℕ} (h : MjPre N D d C L sol) :
    without_empty_routes sol = squeeze sol ∧ Solves N D d C L (squeeze sol) := by
  refine ⟨without_empty_routes_eq_squeeze (chain_of_nodup h.nodup), ?_, ?_, squeeze_squeeze_ends h.ends, fun hs => ?_⟩
  · rw [squeeze_depotEnds h.ends]; exact depotEnds_tour _
  · unfold Covers; rw [customers_squeeze]; exact h.covers
  · intro b hb; rw [blocks_squeeze] at hb; exact h.feasible hs b hb

theorem Solves.pre {sol : List ℕ} (h : Solves N D d C L sol) : MjPre N D d C L sol :=
  ⟨h.ends, h.covers, h.feasible⟩

/-- The local search. -/
theorem mj_search (hM : MjDist D) (hd0 : d 0 = 0) (hd : ∀ n, 0 ≤ d n) (mk : Bool) {sol : List ℕ}
    (h : MjPre N D d C L sol) :
    ∃ c, Ends (fun fuel => do_local_search fuel [op1point D (some d) C L, op2opt D] (mjPrepare mk sol) D (some d)
        .BEST_ACCEPT .ALL_ACCEPT none) c ∧ without_empty_routes c = squeeze c ∧
      Solves N D d C L (squeeze c) ∧ cost D (squeeze c) ≤ cost D sol ∧
      (blocks (squeeze c)).length ≤ (blocks sol).length ∧ MjOptimal D d C L (squeeze c) := by
  obtain ⟨w1, w2⟩ := h.solves
  have hends : DepotEnds (mjPrepare mk sol) := by
    unfold mjPrepare
    rw [w1]
    cases mk with
    | true => exact w2.ends
    | false =>
      refine ⟨?_, by simp⟩
      have := w2.ends.1
      simp only [Bool.false_eq_true, if_false]
      rw [List.head?_append_of_ne_nil]
      · exact this
      · intro e; rw [e] at this; simp at this
  have hblocks : blocks (mjPrepare mk sol) = blocks sol := by
    unfold mjPrepare
    rw [w1]
    cases mk with
    | true => exact blocks_squeeze sol
    | false =>
      simp only [Bool.false_eq_true, if_false]
      rw [blocks_concat_zero, blocks_squeeze]
  have hcust : customers (mjPrepare mk sol) = customers sol := by
    rw [← blocks_flatten, hblocks, blocks_flatten]
  have hcost : cost D (mjPrepare mk sol) = cost D sol := by
    rw [← cost_squeeze (hM.self 0) (mjPrepare mk sol), squeeze_depotEnds hends, hblocks, ← squeeze_depotEnds h.ends,
      cost_squeeze (hM.self 0)]
  have hnod : (customers (mjPrepare mk sol)).Nodup := by rw [hcust]; exact h.nodup
  have hops : ∀ op ∈ [op1point D (some d) C L, op2opt D], op ∈ recordOps D d C L := by
    intro op ho
    simp only [List.mem_cons, List.not_mem_nil, or_false] at ho
    rcases ho with rfl | rfl <;> simp [recordOps]
  have hnc : opChain D (some d) C L ∈ [op1point D (some d) C L, op2opt D] → Triangle D := by
    intro ho
    simp only [List.mem_cons, List.not_mem_nil, or_false] at ho
    rcases ho with ho | ho <;> exact absurd (congrArg LsOp.name ho) (by simp [opChain, op1point, op2opt])
  obtain ⟨F1, g1⟩ := C24_local_optimum_rounded (L := L) (C := C) hM.symm hM.safe (hM.self 0) hd0 hd hnc hops .BEST_ACCEPT
    .ALL_ACCEPT hends hnod
  obtain ⟨F2, g2⟩ := run_record (L := L) (C := C) hM.symm hM.safe hd hnc hops .BEST_ACCEPT .ALL_ACCEPT none hends hnod
  obtain ⟨c, e1, ⟨s1, s2, s3, s4⟩, o1, o2, -⟩ := g1 (max F1 F2) (le_max_left _ _)
  obtain ⟨rds, r1, r2, r3, -⟩ := g2 (max F1 F2) (le_max_right _ _)
  have hc : c = to_solution rds := by rw [e1] at r1; simpa using r1
  obtain ⟨bs, k1, k2, k3, k4, k5⟩ := sound_solution (hM.self 0) hd0 hends r2 r3
  have hpre : MjPre N D d C L c := by
    refine ⟨s1, ?_, fun hs => s4 ?_⟩
    · have := h.covers
      unfold Covers at this ⊢
      rw [← hcust] at this
      exact s2.trans this
    · intro b hb; rw [hblocks] at hb; exact h.feasible hs b hb
  obtain ⟨v1, v2⟩ := hpre.solves
  refine ⟨c, ⟨max F1 F2, fun fuel hf => local_search_more hf e1⟩, v1, v2, ?_, ?_, ?_, ?_⟩
  · rw [cost_squeeze (hM.self 0), ← hcost]; exact s3
  · rw [blocks_squeeze, hc, k5]
    refine (List.length_filter_le _ _).trans ?_
    have a1 : rds.length = bs.length := by
      have := congrArg List.length k1
      simpa using this
    have a2 := r2.2.1
    rw [hblocks, List.length_map] at a2
    omega
  · rw [blocks_squeeze]
    intro b hb r' hr'
    exact o1.1 (by simp) b hb r' hr'
  · rw [blocks_squeeze]
    intro b hb b' hb' hne A n B E G e1 e2 hok
    have := o2 (by simp) b hb b' hb' hne [wrap (A ++ B), wrap (E ++ [n] ++ G)]
      ⟨0 :: A, B ++ [0], 0 :: E, G ++ [0], n, by simp, by simp, by simp, by simp, by simp [e1, e2, wrap],
        by simp [wrap]⟩ (by
        intro r hr
        simp only [List.tail_cons, List.mem_singleton] at hr
        rw [hr]
        exact (fits_iff hd0).2 hok)
    simpa only [total, List.map_cons, List.map_nil, List.sum_cons, List.sum_nil, add_zero] using this

theorem mjMin_mem {rds : List RouteData} (h : rds ≠ []) : ∃ rd ∈ rds, mjMin rds = .ok rd ∧
    ∀ x ∈ rds, rd.demand.getD 0 ≤ x.demand.getD 0 := by
  cases rds with
  | nil => exact absurd rfl h
  | cons x rds =>
    suffices H2 : ∀ (rds : List RouteData) (x : RouteData), ∀ y ∈ x :: rds,
        (rds.foldl (fun m x => if x.demand.getD 0 < m.demand.getD 0 then x else m) x).demand.getD 0 ≤
          y.demand.getD 0 by
      suffices H : ∀ (rds : List RouteData) (x : RouteData),
          rds.foldl (fun m x => if x.demand.getD 0 < m.demand.getD 0 then x else m) x ∈ x :: rds from
        ⟨_, H rds x, rfl, H2 rds x⟩
      intro rds
      induction rds with
      | nil => intro x; simp
      | cons y rds ih =>
        intro x
        rw [List.foldl_cons]
        have := ih (if y.demand.getD 0 < x.demand.getD 0 then y else x)
        rcases List.mem_cons.1 this with e | e
        · rw [e]; split_ifs <;> simp
        · simp [e]
    intro rds
    induction rds with
    | nil => intro x y hy; simp only [List.mem_singleton] at hy; rw [hy]; exact le_refl _
    | cons z rds ih =>
      intro x y hy
      rw [List.foldl_cons]
      have h0 := ih (if z.demand.getD 0 < x.demand.getD 0 then z else x)
      have h1 := h0 _ List.mem_cons_self
      rcases List.mem_cons.1 hy with rfl | hy
      · refine h1.trans ?_
        split_ifs with hlt
        · exact hlt.le
        · exact le_refl _
      · rcases List.mem_cons.1 hy with rfl | hy
        · refine h1.trans ?_
          split_ifs with hlt
          · exact le_refl _
          · exact not_lt.1 hlt
        · exact h0 y (by simp [hy])

/-- The route with the smallest demand cannot be distributed to the others, as the code does it. -/
def MjStuck (D : ℕ → ℕ → ℚ) (d : ℕ → ℚ) (C L : Option ℚ) (sol : List ℕ) : Prop :=
  ∃ rd ∈ from_solution sol D (some d), (∀ x ∈ from_solution sol D (some d), rd.demand.getD 0 ≤ x.demand.getD 0) ∧
    do_redistribute_move rd ((from_solution sol D (some d)).erase rd) D (some d) C L .FIRST_ACCEPT none 0 = .ok none

/-- The records of a solution. -/
theorem from_solution_routes {sol : List ℕ} (h : DepotEnds sol) :
    (from_solution sol D (some d)).map (·.route) = (blocks sol).map wrap := by
  simp only [from_solution, from_routes, sol2routes_depotEnds sol h, List.map_map]
  exact List.map_congr_left fun b _ => rfl

theorem total_sub_le (hT : ∀ i j k, D i k ≤ D i j + D j k) {a b : List RouteData}
    (ha : ∀ rd ∈ a, ∃ u, rd.route = wrap u) (hb : ∀ rd ∈ b, ∃ u, rd.route = wrap u)
    (h : List.Forall₂ (fun rd rd' => rd.route.Sublist rd'.route) a b) :
    total D (a.map (·.route)) ≤ total D (b.map (·.route)) := by
  induction h with
  | nil => exact le_refl _
  | @cons x y a b hxy _ ih =>
    obtain ⟨u, hu⟩ := ha x (by simp)
    obtain ⟨v, hv⟩ := hb y (by simp)
    have := ih (fun z hz => ha z (by simp [hz])) (fun z hz => hb z (by simp [hz]))
    simp only [total, List.map_cons, List.sum_cons] at this ⊢
    rw [hu, hv] at hxy ⊢
    have h2 := cost_more_stops hT (sublist_of_wrap hxy) 0 0
    simp only [wrap] at h2 ⊢
    linarith

/-- The receiving routes. -/
theorem mjReceivers_spec {sol : List ℕ} (h00 : D 0 0 = 0) (hd0 : d 0 = 0) (h : DepotEnds sol) (mk : Bool)
    {rd : RouteData} (hrd : rd ∈ from_solution sol D (some d)) :
    (∃ b ∈ blocks sol, rd = .of_route D (some d) (wrap b)) ∧
    (∀ x ∈ mjReceivers mk (from_solution sol D (some d)) rd, (∃ u, x.route = wrap u) ∧ Book D (some d) C x) ∧
    (from_solution sol D (some d)).Perm (rd :: (from_solution sol D (some d)).erase rd) := by
  have hall : ∀ x ∈ from_solution sol D (some d), ∃ b ∈ blocks sol, x = .of_route D (some d) (wrap b) := by
    intro x hx
    simp only [from_solution, from_routes, List.mem_map] at hx
    obtain ⟨r, hr, rfl⟩ := hx
    rw [sol2routes_depotEnds sol h, List.mem_map] at hr
    obtain ⟨b, hb, rfl⟩ := hr
    exact ⟨b, hb, rfl⟩
  refine ⟨hall rd hrd, ?_, List.perm_cons_erase hrd⟩
  intro x hx
  have key : x ∈ (from_solution sol D (some d)).erase rd ∨ x = RouteData.new := by
    unfold mjReceivers at hx
    cases mk with
    | true => exact .inl hx
    | false => simpa using hx
  rcases key with hx | rfl
  · obtain ⟨b, _, rfl⟩ := hall x (List.mem_of_mem_erase hx)
    exact ⟨⟨b, rfl⟩, book_of_route D d C _⟩
  · exact ⟨⟨[], rfl⟩, by simp [RouteData.new, cost, h00], fun _ => ⟨d, rfl, by simp [RouteData.new, demand, hd0]⟩⟩

theorem cost_nonneg_mj (hD : ∀ i j, 0 ≤ D i j) : ∀ l : List ℕ, 0 ≤ cost D l
  | [] => by simp
  | [_] => by simp
  | a :: b :: t => by
    have := cost_nonneg_mj hD (b :: t)
    have := hD a b
    rw [cost_cons_cons]
    linarith

/-- What the redistribution of the smallest route does. -/
theorem mj_redistribute (hM : MjDist D) (hd0 : d 0 = 0) (mk : Bool) {sol : List ℕ} (h : Solves N D d C L sol)
    {rd : RouteData} (hrd : rd ∈ from_solution sol D (some d)) :
    ∃ r, do_redistribute_move rd (mjReceivers mk (from_solution sol D (some d)) rd) D (some d) C L .FIRST_ACCEPT
        none 0 = .ok r ∧ ∀ rds x, r = some (rds, x) → ((∀ i j k, D i k ≤ D i j + D j k) → 0 ≤ x) ∧ (2 ≤ N → (∀ n, 0 ≤ d n) →
          MjPre N D d C L (to_solution rds) ∧
          (blocks (to_solution rds)).length + 1 ≤ (blocks sol).length + (if mk then 0 else 1) ∧
          cost D (to_solution rds) ≤ cost D sol + x) := by
  obtain ⟨⟨b, hb, rfl⟩, q1, q2⟩ := mjReceivers_spec (C := C) (hM.self 0) hd0 h.ends mk hrd
  have hdw : ∀ u : List ℕ, DepotEnds (wrap u) := fun u => ⟨rfl, List.getLast?_concat (l := 0 :: u)⟩
  obtain ⟨r, e, hr⟩ := C20_redistribute_partial (D := D) (d := some d) (C := C) (L := L) (st := .FIRST_ACCEPT)
    (bd := none) (level := 0) (by omega) (rd1 := .of_route D (some d) (wrap b))
    (routes := mjReceivers mk (from_solution sol D (some d)) (.of_route D (some d) (wrap b))) (cs := b) rfl
    (book_of_route D d C _)
    (fun x hx => by
      obtain ⟨⟨u, hu⟩, bk⟩ := q1 x hx
      exact ⟨hu ▸ hdw u, by rw [hu]; simp [wrap], bk⟩) (.inr ⟨rfl, rfl⟩)
  refine ⟨r, e, fun rds x hx => ?_⟩
  obtain ⟨routes', rds', rfl, -, f2, ⟨g1, g2, g3, g4, g5⟩, -⟩ := hr rds x hx
  have f2 := f2 (by omega)
  subst f2
  have hlen := g1.length_eq
  have hw : ∀ y ∈ rds', ∃ u, y.route = wrap u := by
    intro y hy
    obtain ⟨i, hi, rfl⟩ := List.getElem_of_mem hy
    have hs := g1.get (by omega) hi
    obtain ⟨⟨u, hu⟩, -⟩ := q1 _ (List.getElem_mem (by omega : i < _))
    refine wrap_of_depotEnds (g3 _ hy).1 ?_
    have := hs.length_le
    simp only [List.get_eq_getElem] at this
    rw [hu] at this
    simp only [wrap, List.length_cons, List.length_append, List.length_nil] at this
    omega
  refine ⟨fun hT => ?_, fun hN hd => ?_⟩
  · have := total_sub_le hT (fun y hy => (q1 y hy).1) hw g1
    linarith
  · obtain ⟨X, hX, hrec⟩ : ∃ X : List (List ℕ), X = (if mk then [] else [[]]) ∧
        (mjReceivers mk (from_solution sol D (some d)) (.of_route D (some d) (wrap b))).map (·.route) =
        ((from_solution sol D (some d)).erase (.of_route D (some d) (wrap b))).map (·.route) ++ X.map wrap := by
      cases mk
      · exact ⟨[[]], rfl, by simp [mjReceivers, RouteData.new, wrap]⟩
      · exact ⟨[], rfl, by simp [mjReceivers]⟩
    have hperm : ((blocks sol ++ X).map wrap).Perm (wrap b ::
        (mjReceivers mk (from_solution sol D (some d)) (.of_route D (some d) (wrap b))).map (·.route)) := by
      rw [hrec, List.map_append, ← from_solution_routes (D := D) (d := d) h.ends, ← List.cons_append]
      exact (q2.map _).append_right _
    have hXl : X.length = if mk then 0 else 1 := by rw [hX]; cases mk <;> rfl
    have hXe : ∀ u ∈ X, u = [] := by rw [hX]; cases mk <;> simp
    have hXt : total D (X.map wrap) = 0 := by rw [hX]; cases mk <;> simp [total, wrap, hM.self]
    have hXc : X.flatten = [] := by rw [hX]; cases mk <;> rfl
    clear hX hrec
    generalize mjReceivers mk (from_solution sol D (some d)) (.of_route D (some d) (wrap b)) = rest at *
    obtain ⟨bs, hbs⟩ : ∃ bs : List (List ℕ), rds'.map (·.route) = bs.map wrap := by
      clear g1 g2 g3 g4 g5 hlen hx hr
      induction rds' with
      | nil => exact ⟨[], rfl⟩
      | cons y t ih =>
        obtain ⟨bs, e⟩ := ih fun z hz => hw z (by simp [hz])
        obtain ⟨u, hu⟩ := hw y (by simp)
        exact ⟨u :: bs, by simp [hu, e]⟩
    have hts : to_solution (⟨[0, 0], 0, some 0⟩ :: rds') = tour ([] :: bs) :=
      to_solution_wraps _ _ (by simp [hbs, wrap])
    have hcw : ∀ cs : List (List ℕ), customers ((cs.map wrap).flatten) = customers cs.flatten := by
      intro cs
      induction cs with
      | nil => rfl
      | cons c t ih =>
        simp only [customers, wrap, List.map_cons, List.flatten_cons, List.filter_append, List.cons_append,
          List.append_assoc] at ih ⊢
        rw [List.filter_cons_of_neg (by simp), List.filter_append, List.filter_cons_of_neg (by simp),
          List.nil_append, ih]
    have hcust : (customers (tour ([] :: bs))).Perm (customers sol) := by
      have a1 : customers (tour ([] :: bs)) = customers bs.flatten := by
        rw [customers_tour]
        show [] ++ bs.flatMap customers = List.filter _ bs.flatten
        rw [List.filter_flatten, List.flatMap]
        rfl
      have a2 : (customers (rds'.map (·.route)).flatten).Perm (customers (b ++ (rest.map (·.route)).flatten)) :=
        g2.filter _
      rw [hbs, hcw] at a2
      have a3 : (customers ((blocks sol ++ X).map wrap).flatten).Perm (customers (wrap b :: rest.map (·.route)).flatten) :=
        hperm.flatten.filter _
      rw [hcw, List.flatten_append, hXc, List.append_nil, blocks_flatten] at a3
      have a5 : customers (customers sol) = customers sol := by simp [customers]
      rw [a5] at a3
      have a4 : customers (wrap b :: rest.map (·.route)).flatten = customers (b ++ (rest.map (·.route)).flatten) := by
        simp only [customers, wrap, List.flatten_cons, List.filter_append, List.cons_append]
        rw [List.filter_cons_of_neg (by simp), List.filter_append]
        simp
      rw [a1]
      rw [a4] at a3
      exact a2.trans a3.symm
    have hmem : ∀ y ∈ rest, y.route ∈ (blocks sol ++ X).map wrap := by
      intro y hy
      rw [hperm.mem_iff]
      exact List.mem_cons_of_mem _ (List.mem_map.2 ⟨y, hy, rfl⟩)
    have hlb : bs.length + 1 = (blocks sol).length + X.length := by
      have h1 := hperm.length_eq
      have h2 := congrArg List.length hbs
      simp only [List.length_map, List.length_append, List.length_cons] at h1 h2
      omega
    have hfree : ∀ u ∈ blocks sol ++ X, u.count 0 = 0 := by
      intro u hu
      rcases List.mem_append.1 hu with hu | hu
      · exact List.count_eq_zero.2 fun hh => (mem_blocks sol u hu).2 0 hh rfl
      · rw [hXe u hu]; rfl
    have hz : ∀ u ∈ bs, ∀ x ∈ u, x ≠ 0 := by
      have hcount : (rds'.map (·.route)).flatten.count 0 = bs.length * 2 := by
        rw [g2.count_eq, List.count_append]
        have hb0 : b.count 0 = 0 := List.count_eq_zero.2 fun hh => (mem_blocks sol b hb).2 0 hh rfl
        rw [hb0, zero_add]
        have : ∀ l : List RouteData, (∀ y ∈ l, y.route ∈ (blocks sol ++ X).map wrap) →
            (l.map (·.route)).flatten.count 0 = l.length * 2 := by
          intro l
          induction l with
          | nil => intro _; rfl
          | cons y l ih =>
            intro hl
            obtain ⟨u, hu, e⟩ := List.mem_map.1 (hl y (by simp))
            have hu0 : u.count 0 = 0 := hfree u hu
            rw [List.map_cons, List.flatten_cons, List.count_append, ih fun z hz => hl z (by simp [hz]), ← e]
            simp [wrap, hu0]
            omega
        rw [this rest hmem]
        have := congrArg List.length hbs
        simp only [List.length_map] at this
        omega
      rw [hbs] at hcount
      have key : ∀ bs : List (List ℕ), (bs.map wrap).flatten.count 0 = bs.length * 2 → ∀ u ∈ bs, u.count 0 = 0 := by
        have ge : ∀ bs : List (List ℕ), bs.length * 2 ≤ (bs.map wrap).flatten.count 0 := by
          intro bs
          induction bs with
          | nil => simp
          | cons u bs ih =>
            rw [List.map_cons, List.flatten_cons, List.count_append]
            simp only [wrap, List.count_cons, List.count_append, List.length_cons]
            simp
            omega
        intro bs
        induction bs with
        | nil => intro _ u hu; simp at hu
        | cons v bs ih =>
          intro hc u hu
          rw [List.map_cons, List.flatten_cons, List.count_append] at hc
          have h1 := ge bs
          have h2 : (wrap v).count 0 = v.count 0 + 2 := by simp [wrap]
          rw [h2, List.length_cons] at hc
          rcases List.mem_cons.1 hu with rfl | hu
          · omega
          · exact ih (by omega) u hu
      intro u hu x hx e
      have := key bs hcount u hu
      rw [List.count_eq_zero] at this
      exact this (e ▸ hx)
    have hblk : blocks (tour ([] :: bs)) = bs.filter (· ≠ []) := by
      rw [blocks_tour, List.flatMap_cons]
      show [] ++ _ = _
      rw [List.nil_append]
      clear hbs hts hcust hlb
      induction bs with
      | nil => rfl
      | cons u t ih =>
        rw [List.flatMap_cons, ih (fun x hx => hz x (by simp [hx])), List.filter_cons,
          blocks_zerofree u (hz u (by simp))]
        by_cases h : u = [] <;> simp [h]
    rw [hts]
    refine ⟨⟨depotEnds_tour _, ?_, fun hs => ?_⟩, ?_, ?_⟩
    · have := h.covers
      unfold Covers at this ⊢
      exact hcust.trans this
    · intro u hu
      rw [hblk] at hu
      rw [← fits_iff hd0]
      refine g5 ?_ _ ?_
      · intro r hr
        obtain ⟨y, hy, rfl⟩ := List.mem_map.1 hr
        obtain ⟨v, hv, e⟩ := List.mem_map.1 (hmem y hy)
        rw [← e]
        rcases List.mem_append.1 hv with hv | hv
        · exact (fits_iff hd0).2 (h.feasible hs v hv)
        · rw [hXe v hv]
          have h1 := (fits_iff hd0).2 (hs 1 le_rfl (by omega))
          refine ⟨fun f hf c hc hc0 => ?_, fun c hc hc0 => ?_⟩
          · refine le_trans ?_ (h1.1 f hf c hc hc0)
            injection hf with hf
            have := hd 1
            subst hf
            simp only [wrap, List.nil_append, List.cons_append, demand_cons, demand_nil, hd0]
            linarith
          · refine le_trans ?_ (h1.2 c hc hc0)
            have a1 := hM.nonneg 0 1
            have a2 := hM.nonneg 1 0
            have a3 := hM.self 0
            simp only [wrap, List.nil_append, List.cons_append, cost]
            linarith
      · rw [hbs]
        exact List.mem_map.2 ⟨u, (List.mem_filter.1 hu).1, rfl⟩
    · rw [hblk]
      have := List.length_filter_le (fun u : List ℕ => decide (u ≠ [])) bs
      omega
    · have e1 : cost D sol = total D ((blocks sol).map wrap) := by
        rw [← cost_tour, ← squeeze_depotEnds h.ends, h.noEmpty]
      have e2 : total D ((blocks sol ++ X).map wrap) = total D (wrap b :: rest.map (·.route)) :=
        (hperm.map _).sum_eq
      rw [List.map_append, total_append, hXt, total_cons] at e2
      rw [cost_tour, List.map_cons, total_cons, ← hbs, g4, e1]
      have a1 : cost D (wrap []) = 0 := by simp [wrap, cost, hM.self]
      have a2 := cost_nonneg_mj hM.nonneg (wrap b)
      linarith

/-- The cost of a solution with whole distances is whole. -/
theorem cost_whole {E : ℕ → ℕ → ℤ} (h : ∀ i j, D i j = E i j) : ∀ l : List ℕ, ∃ z : ℤ, cost D l = z
  | [] => ⟨0, by simp⟩
  | [_] => ⟨0, by simp⟩
  | a :: b :: t => by
    obtain ⟨z, hz⟩ := cost_whole h (b :: t)
    exact ⟨E a b + z, by rw [cost_cons_cons, hz, h]; push_cast; rfl⟩

/-- The refinement. -/
theorem mjRefine_spec (hN : 2 ≤ N) (hM : MjDist D) (hd0 : d 0 = 0) (hd : ∀ n, 0 ≤ d n) (mk : Bool) {sol : List ℕ}
    (h : MjPre N D d C L sol) :
    ∃ c, Ends (fun fuel => mjRefine D d C L mk fuel fuel sol) c ∧ without_empty_routes c = c ∧ Solves N D d C L c ∧
      (blocks c).length ≤ (blocks sol).length ∧ (mk = false → cost D c ≤ cost D sol) ∧ MjOptimal D d C L c ∧ (mk = true → MjStuck D d C L c) := by
  suffices H : ∀ (n : ℕ) (sol : List ℕ), (if mk then (blocks sol).length else ⌊cost D sol⌋₊) = n → MjPre N D d C L sol →
      ∃ c, (∃ F, ∀ f1 f2, F ≤ f1 → F ≤ f2 → mjRefine D d C L mk f1 f2 sol = .ok (some c)) ∧
      Solves N D d C L c ∧ (blocks c).length ≤ (blocks sol).length ∧ (mk = false → cost D c ≤ cost D sol) ∧
      MjOptimal D d C L c ∧ (mk = true → MjStuck D d C L c) by
    obtain ⟨c, ⟨F, e⟩, h1, h2⟩ := H _ sol rfl h
    exact ⟨c, ⟨F, fun fuel hf => e fuel fuel hf hf⟩, without_empty_self h1, h1, h2⟩
  intro n
  induction n using Nat.strong_induction_on with
  | _ n ih =>
    intro sol hn h
    obtain ⟨c, ⟨F, e⟩, s1, s2, s3, s4, s5⟩ := mj_search hM hd0 hd mk h
    simp only at e
    have hne : from_solution (squeeze c) D (some d) ≠ [] := by
      intro hh
      have h1 := from_solution_routes (D := D) (d := d) s2.ends
      rw [hh] at h1
      have h2 : blocks (squeeze c) = [] := by
        have := congrArg List.length h1
        simp only [List.map_nil, List.length_nil, List.length_map] at this
        exact List.length_eq_zero_iff.1 this.symm
      have h3 := s2.covers
      unfold Covers at h3
      rw [← blocks_flatten, h2] at h3
      have := h3.length_eq
      simp at this
      omega
    obtain ⟨rd, hrd, hmin, hleast⟩ := mjMin_mem hne
    obtain ⟨r, hr, hspec⟩ := mj_redistribute hM hd0 mk s2 hrd
    have hstop : (∀ rds x, r = some (rds, x) → mk = false ∧ 0 ≤ x) →
        ∃ c, (∃ F, ∀ f1 f2, F ≤ f1 → F ≤ f2 → mjRefine D d C L mk f1 f2 sol = .ok (some c)) ∧
        Solves N D d C L c ∧ (blocks c).length ≤ (blocks sol).length ∧ (mk = false → cost D c ≤ cost D sol) ∧
        MjOptimal D d C L c ∧ (mk = true → MjStuck D d C L c) := by
      intro hr'
      refine ⟨squeeze c, ⟨F + 1, fun f1 f2 h1 h2 => ?_⟩, s2, s4, fun _ => s3, s5, fun hmk => ⟨rd, hrd, hleast, ?_⟩⟩
      swap
      · cases r with
        | none => rw [← hr, hmk]; rfl
        | some p => have := (hr' p.1 p.2 rfl).1; rw [hmk] at this; cases this
      obtain ⟨f, rfl⟩ : ∃ f, f2 = f + 1 := ⟨f2 - 1, by omega⟩
      rw [mjRefine, e f1 (by omega)]
      simp only [s1, hmin, hr]
      cases r with
      | none => rfl
      | some p =>
        obtain ⟨rds, x⟩ := p
        have hx := (hr' rds x rfl).2
        simp only
        rw [if_neg]
        simp only [(hr' rds x rfl).1, Bool.false_or, decide_eq_true_eq]
        linarith
    cases r with
    | none => exact hstop (fun _ _ h => by cases h)
    | some p =>
      obtain ⟨rds, x⟩ := p
      obtain ⟨p0, hp⟩ := hspec rds x rfl
      obtain ⟨p1, p2, p3⟩ := hp hN hd
      by_cases hgo : mk = true ∨ x < 0
      · have hless : (if mk then (blocks (to_solution rds)).length else ⌊cost D (to_solution rds)⌋₊) < n := by
          rw [← hn]
          cases mk with
          | true => simp only [if_true] at p2 ⊢; omega
          | false =>
            have hx : x < 0 := by simpa using hgo
            simp only [Bool.false_eq_true, if_false]
            rcases hM.ends with hT | ⟨E, hE⟩
            · exact absurd (p0 hT) (not_le.2 hx)
            · obtain ⟨z1, h1⟩ := cost_whole hE (to_solution rds)
              obtain ⟨z2, h2⟩ := cost_whole hE sol
              have h3 : (z1 : ℚ) < z2 := by rw [← h1, ← h2]; linarith
              have h4 : z1 + 1 ≤ z2 := by exact_mod_cast h3
              have h5 : cost D (to_solution rds) + 1 ≤ cost D sol := by rw [h1, h2]; exact_mod_cast h4
              have h6 := Nat.floor_le_floor h5
              rw [Nat.floor_add_one (cost_nonneg_mj hM.nonneg _)] at h6
              omega
        obtain ⟨c', ⟨F', e'⟩, i1, i2, i3, i4⟩ := ih _ hless (to_solution rds) rfl p1
        refine ⟨c', ⟨max F F' + 1, fun f1 f2 h1 h2 => ?_⟩, i1, ?_, fun hf => ?_, i4⟩
        · obtain ⟨f, rfl⟩ : ∃ f, f2 = f + 1 := ⟨f2 - 1, by omega⟩
          have h3 := e f1 (by omega)
          rw [mjRefine, h3]
          simp only [s1, hmin, hr]
          rw [if_pos (by simpa using hgo)]
          exact e' f1 f (by omega) (by omega)
        · cases mk with
          | true => simp only [if_true] at p2; omega
          | false => simp only [Bool.false_eq_true, if_false] at p2; omega
        · have hx : x < 0 := by simpa [hf] using hgo
          have := i3 hf
          linarith
      · rw [not_or] at hgo
        exact hstop (fun rds' x' hh => by
          injection hh with hh
          injection hh with _ hh
          exact ⟨by simpa using hgo.1, hh ▸ not_lt.1 hgo.2⟩)

end Verif
