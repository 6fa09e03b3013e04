import Verif.Lemmas.PetalTerm
import Verif.Props.Sweep

/-! # Lemmas on the petals that the sweeps generate -/

namespace Verif
open Spec

variable {D : ℕ → ℕ → ℚ} {d : ℕ → ℚ} {C L : Option ℚ} {tsp : Router} {nodes : List ℕ} {fwd : Bool}

theorem swTest_keep_pt {s s' : SwState} (h : swTest d C L tsp s = .ok s') :
    s'.routes = s.routes ∧ s'.cur = s.cur ∧ s'.pos = s.pos ∧ s'.routed = s.routed := by
  unfold swTest at h
  by_cases h1 : s.complete = true
  · rw [if_pos h1] at h
    cases h
    exact ⟨rfl, rfl, rfl, rfl⟩
  · rw [if_neg h1] at h
    cases hn : s.node with
    | none =>
      rw [hn] at h
      simp only at h
      by_cases h2 : (truthy C || exceeds L 0 s.ub) = true
      · rw [if_pos h2] at h
        cases h
      · rw [if_neg h2] at h
        cases h
        exact ⟨rfl, rfl, rfl, rfl⟩
    | some n =>
      rw [hn] at h
      simp only at h
      by_cases h2 : exceeds C C_EPS (s.cur.demand + d n) = true
      · rw [if_pos h2] at h
        cases h
        exact ⟨rfl, rfl, rfl, rfl⟩
      · rw [if_neg h2] at h
        by_cases h3 : exceeds L 0 s.ub = true
        · rw [if_pos h3] at h
          cases h
          exact ⟨rfl, rfl, rfl, rfl⟩
        · rw [if_neg h3] at h
          cases h
          exact ⟨rfl, rfl, rfl, rfl⟩

theorem swRoute_keep_pt {fuel : ℕ} {s s' : SwState} (h : swRoute d C L fwd nodes tsp fuel s = .ok (some s')) :
    s'.routes = s.routes := by
  unfold swRoute at h
  simp only at h
  split_ifs at h with h1
  · split at h
    · cases h
    · cases h
    · split_ifs at h with h2
      · split at h
        · cases h; rfl
        · cases h
        · cases h; rfl
      · cases h
        rfl
  · cases h
    rfl

theorem swAdd_keep_pt {s s' : SwState} (h : swAdd D d C L s = .ok s') : s'.routes = s.routes := by
  unfold swAdd at h
  cases hn : s.node with
  | none =>
    rw [hn] at h
    cases h
    rfl
  | some n =>
    rw [hn] at h
    simp only at h
    by_cases hr : s.routed n = true
    · rw [if_pos hr] at h
      cases h
      rfl
    · rw [if_neg hr] at h
      cases hp : swPrev s.cur.route with
      | error e => rw [hp] at h; cases h
      | ok prev =>
        rw [hp] at h
        cases h
        rfl

theorem swMove_keep_pt {fuel : ℕ} {s s' : SwState} (h : swMove fwd nodes fuel s = .ok (some s')) :
    s'.routes = s.routes ∧ s'.cur = s.cur := by
  unfold swMove at h
  split at h
  · cases h
  · cases h
  · cases h; exact ⟨rfl, rfl⟩
  · cases h; exact ⟨rfl, rfl⟩

theorem swStore_keep_pt (alt : Bool) (total : ℕ) (s : SwState) :
    (∀ r, swStore alt total s = .done r → s.routes <+: r) ∧
    (∀ s', swStore alt total s = .next s' → s.routes <+: s'.routes) := by
  have hpre : s.routes <+: (if decide (1 < s.cur.node_set.length) = true then s.routes ++ [s.cur] else s.routes) := by
    split_ifs
    · exact List.prefix_append _ _
    · exact List.prefix_rfl
  unfold swStore
  simp only
  constructor
  · intro r h
    split_ifs at h with h1 h2 h3 h4 h5 <;> cases h <;> first | exact List.prefix_append _ _ | exact List.prefix_rfl
  · intro s' h
    split_ifs at h with h1 h2 h3 h4 h5 <;> cases h <;> first | exact List.prefix_append _ _ | exact List.prefix_rfl

/-- The routes found so far are among the routes of the sweep. -/
theorem sweepLoop_prefix {alt : Bool} {inner : ℕ} : ∀ (fuel : ℕ) {s : SwState} {routes : List SwRoute},
    sweepLoop D d C L fwd nodes tsp alt inner fuel s = .ok (some routes) → s.routes <+: routes
  | 0, s, routes, h => by
    unfold sweepLoop at h
    cases h
  | fuel + 1, s, routes, h => by
    unfold sweepLoop at h
    have hhead : ∀ x, swHead d C L fwd nodes tsp alt inner s = .ok (some x) →
        (∀ r, x = .done r → s.routes <+: r) ∧ (∀ s', x = .next s' → s.routes <+: s'.routes) := by
      intro x hx
      unfold swHead at hx
      cases ht : swTest d C L tsp s with
      | error e => rw [ht] at hx; cases hx
      | ok s1 =>
        rw [ht] at hx
        simp only at hx
        have e1 := (swTest_keep_pt ht).1
        rw [← e1]
        split_ifs at hx
        · split at hx
          · cases hx
          · cases hx
          · rename_i s2 hr
            cases hx
            have := swStore_keep_pt alt nodes.length s2
            rw [← swRoute_keep_pt hr]
            exact this
        · cases hx
          exact ⟨by simp, by intro s' h; cases h; exact List.prefix_rfl⟩
    split at h
    · cases h
    · cases h
    · rename_i r hx
      cases h
      exact (hhead _ hx).1 _ rfl
    · rename_i s1 hx
      have h1 := (hhead _ hx).2 _ rfl
      split at h
      · cases h
      · rename_i s2 ha
        split at h
        · cases h
        · cases h
        · rename_i s3 hm
          have := sweepLoop_prefix fuel h
          rw [(swMove_keep_pt hm).1, swAdd_keep_pt ha] at this
          exact h1.trans this

theorem tsp_one (htsp : TspRoutine D tsp) {n : ℕ} (hn : n ≠ 0) : tsp [0, n] = (wrap [n], cost D (wrap [n])) := by
  obtain ⟨u, hu, h⟩ := htsp [n] (by simp) (by simp; exact hn.symm)
  rw [List.perm_singleton] at hu
  rw [hu] at h
  exact h

/-- A route handed out by the sweep serves the first customer alone. -/
theorem sweep_single {fuel start : ℕ} {routes : List SwRoute} (htsp : TspRoutine D tsp) {n : ℕ} (hn : n ≠ 0)
    (hst : nodes[start]? = some n) (hok : RouteOk D d C L [n])
    (h : do_one_sweep fuel D d C L tsp nodes start fwd true = .ok (some routes)) :
    ∃ rd ∈ routes, rd.route = wrap [n] := by
  have hlt : start < nodes.length := by
    by_contra hh
    rw [List.getElem?_eq_none (by omega)] at hst
    cases hst
  have hnode : nodes[start] = n := by
    rw [List.getElem?_eq_getElem hlt] at hst
    exact Option.some.inj hst
  have ht := tsp_one htsp hn
  have hC : exceeds C C_EPS (0 + d n) = false := by
    rw [exceeds_iff]
    have := hok.1
    simpa [demand] using this
  have hL : exceeds L S_EPS (cost D (wrap [n])) = false := (exceeds_iff _ _ _).2 hok.2
  simp only [do_one_sweep, idx_lt hlt, hnode] at h
  cases fuel with
  | zero => simp [sweepLoop] at h
  | succ fuel =>
    rw [sweepLoop] at h
    -- the first iteration adds the customer
    have hhead : ∃ ub, swHead d C L fwd nodes tsp true (fuel + 1)
        { routes := [], routed := fun n => n == 0, routed_cnt := 0, cur := .new, ub := 0,
          complete := false, pos := start, node := some n } = .ok (some (.next
        { routes := [], routed := fun n => n == 0, routed_cnt := 0, cur := .new, ub := ub,
          complete := false, pos := start, node := some n })) := by
      unfold swHead swTest
      simp only [SwRoute.new, hC, Bool.false_eq_true, if_false, List.singleton_append, ht, hL]
      by_cases hub : exceeds L 0 0 = true
      · rw [if_pos hub]
        exact ⟨cost D (wrap [n]), by simp⟩
      · rw [if_neg hub]
        exact ⟨0, by simp⟩
    obtain ⟨ub, hhead⟩ := hhead
    rw [hhead] at h
    simp only at h
    have hadd : ∃ s2 : SwState, swAdd D d C L
        { routes := [], routed := fun n => n == 0, routed_cnt := 0, cur := .new, ub := ub,
          complete := false, pos := start, node := some n } = .ok s2 ∧ s2.cur.node_set = [0, n] := by
      have hr : (n == 0) = false := by simpa using hn
      have hds : ODS.dictSet [0] n = [0, n] := by simp [ODS.dictSet, hn]
      unfold swAdd
      simp only [hr, Bool.false_eq_true, if_false]
      have : swPrev SwRoute.new.route = .ok 0 := rfl
      rw [this]
      simp only
      refine ⟨_, rfl, hds⟩
    obtain ⟨s2, hadd, hs2⟩ := hadd
    rw [hadd] at h
    simp only at h
    split at h
    · cases h
    · cases h
    rename_i s3 hm
    have hs3 : s3.cur.node_set = [0, n] := by rw [(swMove_keep_pt hm).2, hs2]
    -- the second iteration stores the route
    cases fuel with
    | zero => simp [sweepLoop] at h
    | succ fuel =>
      rw [sweepLoop] at h
      have key : ∀ x, swHead d C L fwd nodes tsp true (fuel + 1 + 1) s3 = .ok (some x) →
          (∀ r, x = .done r → ∃ rd ∈ r, rd.route = wrap [n]) ∧
          (∀ s', x = .next s' → ∃ rd ∈ s'.routes, rd.route = wrap [n]) := by
        intro x hx
        unfold swHead at hx
        cases hte : swTest d C L tsp s3 with
        | error e => rw [hte] at hx; cases hx
        | ok s4 =>
          rw [hte] at hx
          have hs4 : s4.cur.node_set = [0, n] := by rw [(swTest_keep_pt hte).2.1, hs3]
          simp only [hs4, List.length_cons, List.length_nil, Bool.true_and] at hx
          rw [if_pos (by simp)] at hx
          have hr : swRoute d C L fwd nodes tsp (fuel + 1 + 1) s4 = .ok (some { s4 with
              cur := { s4.cur with route := wrap [n], cost := cost D (wrap [n]) }, ub := cost D (wrap [n]) }) := by
            unfold swRoute
            simp only [hs4, ht]
            unfold ensureL
            simp only [hL, if_true]
            split_ifs
            · simp at *
            · rfl
            · rfl
          rw [hr] at hx
          cases hx
          unfold swStore
          simp only [hs4, List.length_cons, List.length_nil]
          constructor
          · intro r h
            split_ifs at h with q1 q2 q3 <;> cases h <;>
              first
              | (refine ⟨_, List.mem_append_right _ (List.mem_singleton_self _), ?_⟩; rfl)
              | (exfalso; simp at q2)
          · intro s' h
            split_ifs at h with q1 q2 q3
            cases h
            refine ⟨_, List.mem_append_right _ (List.mem_singleton_self _), ?_⟩
            rfl
      split at h
      · cases h
      · cases h
      · rename_i r hx
        cases h
        exact (key _ hx).1 _ rfl
      · rename_i s5 hx
        obtain ⟨rd, hrd, he⟩ := (key _ hx).2 _ rfl
        split at h
        · cases h
        · rename_i s6 ha
          split at h
          · cases h
          · cases h
          · rename_i s7 hm'
            have := sweepLoop_prefix fuel h
            rw [(swMove_keep_pt hm').1, swAdd_keep_pt ha] at this
            exact ⟨rd, this.subset hrd, he⟩

/-- All the petals. -/
def PtSets.all (g : PtSets) : List Petal := g.restricted ++ g.reduced ++ g.extended

/-- The routes of one sweep are added. -/
theorem addRoutes_spec {N : ℕ} (hsym : Symm D) {ratio : Option ℚ} {C_t : ℚ} : ∀ {sws : List SwRoute} {g : PtSets},
    (∀ p ∈ g.all, GoodPetal N D d C L p) →
    (∀ rd ∈ sws, ∃ u, rd.route = wrap u ∧ rd.cost = cost D (wrap u) ∧ u ≠ [] ∧ u.Nodup ∧
      (∀ n ∈ u, 1 ≤ n ∧ n < N) ∧ RouteOk D d C L u) →
    ∃ g', ptAddRoutes ratio C C_t sws g = .ok g' ∧ (∀ p ∈ g'.all, GoodPetal N D d C L p) ∧
      (∀ p ∈ g.all, p ∈ g'.all) ∧
      ∀ rd ∈ sws, ∀ u, rd.route = wrap u → ∃ p ∈ g'.all, ∃ u', Turned u u' ∧ p.route = wrap u'
  | [], g, hg, _ => ⟨g, rfl, hg, fun _ h => h, by simp⟩
  | sw :: sws, g, hg, h => by
    obtain ⟨u, h1, h2, h3, h4, h5, h6⟩ := h sw (List.mem_cons_self ..)
    have hrest := fun rd' hm => h rd' (List.mem_cons_of_mem _ hm)
    obtain ⟨ns, hns, hmem⟩ := C06_nodeset u (fun x hx => by have := h5 x hx; omega)
    obtain ⟨u', hu', hno, _, _⟩ := C08_record u { route := sw.route, cost := sw.cost, demand := some sw.demand } h1
    unfold ptAddRoutes
    rw [hno, h1, hns]
    simp only
    have hcost : cost D (wrap u') = cost D (wrap u) := by
      rcases hu' with rfl | rfl
      · rfl
      · rw [← cost_reverse hsym (wrap u)]
        simp [wrap]
    have hmem' : ∀ n, n ∈ u' ↔ n ∈ u := by
      intro n
      rcases hu' with rfl | rfl <;> simp
    have hgp : GoodPetal N D d C L { nodes := ns, route := wrap u', cost := sw.cost } := by
      refine ⟨u', rfl, by rw [hcost]; exact h2, ?_, ?_, ?_, ⟨?_, by rw [hcost]; exact h6.2⟩, ?_⟩
      · rintro rfl
        rcases hu' with rfl | h
        · exact h3 rfl
        · exact h3 (by simpa using h.symm)
      · rcases hu' with rfl | rfl
        · exact h4
        · exact List.nodup_reverse.2 h4
      · intro n hn
        exact h5 n ((hmem' n).1 hn)
      · rcases hu' with rfl | rfl
        · exact h6.1
        · rw [demand_reverse]
          exact h6.1
      · intro n
        rw [hmem', hmem]
    have hfin : ∀ {g1 g' : PtSets}, (∃ p ∈ g1.all, p.route = wrap u') → (∀ p ∈ g1.all, p ∈ g'.all) →
        (∀ rd ∈ sws, ∀ u, rd.route = wrap u → ∃ p ∈ g'.all, ∃ u', Turned u u' ∧ p.route = wrap u') →
        ∀ rd ∈ sw :: sws, ∀ u, rd.route = wrap u → ∃ p ∈ g'.all, ∃ u', Turned u u' ∧ p.route = wrap u' := by
      intro g1 g' ⟨p, hp, he⟩ hs hr rd hrd w hw
      rcases List.mem_cons.1 hrd with rfl | hrd
      · rw [h1] at hw
        have := wrap_inj hw
        subst this
        exact ⟨p, hs p hp, u', hu', he⟩
      · exact hr rd hrd w hw
    by_cases hc : wrap u' ∈ g.routes
    · rw [if_pos hc]
      obtain ⟨g', q1, q2, q3, q4⟩ := addRoutes_spec hsym (ratio := ratio) (C_t := C_t) hg hrest
      obtain ⟨p, hp, he⟩ := List.mem_map.1 hc
      exact ⟨g', q1, q2, q3, hfin ⟨p, hp, he⟩ q3 q4⟩
    · rw [if_neg hc]
      generalize hg1 : (if ptClass ratio C C_t sw.demand = 1 then
          { g with restricted := g.restricted ++ [{ nodes := ns, route := wrap u', cost := sw.cost }] }
           else if ptClass ratio C C_t sw.demand = 2 then
            { g with reduced := g.reduced ++ [{ nodes := ns, route := wrap u', cost := sw.cost }] }
           else { g with extended := g.extended ++ [{ nodes := ns, route := wrap u', cost := sw.cost }] } : PtSets) = g1
      have hg1' : ∀ p, p ∈ g1.all ↔ p ∈ g.all ∨ p = { nodes := ns, route := wrap u', cost := sw.cost } := by
        intro p
        subst hg1
        split_ifs <;> simp only [PtSets.all, List.mem_append, List.mem_singleton] <;> tauto
      obtain ⟨g', q1, q2, q3, q4⟩ := addRoutes_spec hsym (ratio := ratio) (C_t := C_t) (g := g1) (by
        intro p hp
        rcases (hg1' p).1 hp with h | rfl
        · exact hg p h
        · exact hgp) hrest
      refine ⟨g', q1, q2, fun p hp => q3 p ((hg1' p).2 (Or.inl hp)), hfin ⟨_, (hg1' _).2 (Or.inr rfl), rfl⟩ q3 q4⟩

/-- The sweeps end, the petals are right, each customer alone is a petal, and so is each route of a sweep. -/
theorem generate_spec {N : ℕ} (hsym : Symm D) (hperm : nodes.Perm (List.range' 1 (N - 1))) (hd : ∀ n, 0 ≤ d n)
    (htsp : TspRoutine D tsp) (hser : Serviceable N D d C L) {ratio : Option ℚ} {C_t : ℚ} :
    ∀ {starts : List ℕ} {g : PtSets}, (∀ s ∈ starts, s < nodes.length) →
    (∀ p ∈ g.all, GoodPetal N D d C L p) →
    ∃ g', Ends (fun fuel => ptGenerate fuel D d C L tsp nodes ratio C_t starts g) g' ∧
      (∀ p ∈ g'.all, GoodPetal N D d C L p) ∧ (∀ p ∈ g.all, p ∈ g'.all) ∧
      (∀ s ∈ starts, ∀ n, nodes[s]? = some n → ∃ p ∈ g'.all, p.route = wrap [n]) ∧
      (∀ s ∈ starts, ∀ routes, Ends (fun fuel => do_one_sweep fuel D d C L tsp nodes s true true) routes →
        ∀ rd ∈ routes, ∀ u, rd.route = wrap u → ∃ p ∈ g'.all, ∃ u', Turned u u' ∧ p.route = wrap u')
  | [], g, _, hg => ⟨g, ⟨0, fun _ _ => rfl⟩, hg, fun _ h => h, by simp, by simp⟩
  | start :: starts, g, hs, hg => by
    have hnn : (0 :: nodes).Nodup := by
      rw [List.nodup_cons]
      refine ⟨fun h => ?_, hperm.nodup_iff.2 List.nodup_range'⟩
      have := List.mem_range'_1.1 (hperm.mem_iff.1 h)
      omega
    have hin : ∀ n ∈ nodes, 1 ≤ n ∧ n < N := by
      intro n hn
      have := List.mem_range'_1.1 (hperm.mem_iff.1 hn)
      omega
    have hst := hs start (List.mem_cons_self ..)
    obtain ⟨us, routes, ⟨F, hF⟩, e1, _, e3⟩ := C30_alternatives true hnn hd htsp
      (fun n hn => hser n (hin n hn).1 (hin n hn).2) hst
    have hrts : ∀ rd ∈ routes, ∃ u, rd.route = wrap u ∧ rd.cost = cost D (wrap u) ∧ u ≠ [] ∧ u.Nodup ∧
        (∀ n ∈ u, 1 ≤ n ∧ n < N) ∧ RouteOk D d C L u := by
      intro rd hrd
      have : (rd.route, rd.cost) ∈ us.map (fun u => (wrap u, cost D (wrap u))) := by
        rw [← e1]
        exact List.mem_map_of_mem hrd
      obtain ⟨u, hu, he⟩ := List.mem_map.1 this
      obtain ⟨h1, h2, h3, h4⟩ := e3 u hu
      have he' := Prod.mk.inj he
      exact ⟨u, he'.1.symm, he'.2.symm, h1, h2, fun n hn => hin n (h3 n hn), h4⟩
    obtain ⟨g1, q1, q2, q3, q4⟩ := addRoutes_spec hsym (ratio := ratio) (C_t := C_t) hg hrts
    obtain ⟨g', ⟨F', hF'⟩, r1, r2, r3, r4⟩ := generate_spec hsym hperm hd htsp hser (starts := starts)
      (fun s h => hs s (List.mem_cons_of_mem _ h)) q2
    have hun : ∀ routes', Ends (fun fuel => do_one_sweep fuel D d C L tsp nodes start true true) routes' →
        routes' = routes := by
      intro routes' ⟨F1, hF1⟩
      have h1 := hF1 (max F F1) (le_max_right _ _)
      simp only at h1
      rw [hF (max F F1) (le_max_left _ _)] at h1
      cases h1
      rfl
    refine ⟨g', ⟨max F F', fun fuel hf => ?_⟩, r1, fun p hp => r2 p (q3 p hp), ?_, ?_⟩
    · unfold ptGenerate
      simp only [hF fuel (by omega), q1]
      exact hF' fuel (by omega)
    · intro s hsm n hn
      rcases List.mem_cons.1 hsm with rfl | hsm
      · have hnm : n ∈ nodes := List.mem_of_getElem? hn
        obtain ⟨rd, hrd, he⟩ := sweep_single htsp (by have := hin n hnm; omega) hn
          (hser n (hin n hnm).1 (hin n hnm).2) (hF F (le_refl _))
        obtain ⟨p, hp, u', hu', hpe⟩ := q4 rd hrd [n] he
        refine ⟨p, r2 p hp, ?_⟩
        rcases hu' with rfl | rfl
        · exact hpe
        · simpa using hpe
      · exact r3 s hsm n hn
    · intro s hsm routes' hr rd hrd u hu
      rcases List.mem_cons.1 hsm with rfl | hsm
      · rw [hun routes' hr] at hrd
        obtain ⟨p, hp, u', hu', hpe⟩ := q4 rd hrd u hu
        exact ⟨p, r2 p hp, u', hu', hpe⟩
      · exact r4 s hsm routes' hr rd hrd u hu

end Verif
