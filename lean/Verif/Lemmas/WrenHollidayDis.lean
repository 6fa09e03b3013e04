import Verif.Lemmas.WrenHollidayPair
import Verif.Props.Sweep
import Verif.Props.RouteData
import Verif.Props.LocalSearch
import Verif.Props.WrenHolliday

/-! # Lemmas about the procedure DISENTANGLE -/

namespace Verif

open Spec

/-! ## One sweep -/

theorem sweepSol_tour {D : ℕ → ℕ → ℚ} {us : List (List ℕ)} {routes : List SwRoute}
    (e : routes.map (fun rd => (rd.route, rd.cost)) = us.map (fun u => (wrap u, cost D (wrap u))))
    (hz : ∀ u ∈ us, u ≠ [] ∧ ∀ x ∈ u, x ≠ 0) (hnd : us.flatten.Nodup) : sweepSol routes = tour us := by
  have e' : ∀ (routes : List SwRoute) (us : List (List ℕ)),
      routes.map (fun rd => (rd.route, rd.cost)) = us.map (fun u => (wrap u, cost D (wrap u))) →
      routes.flatMap (fun rd => rd.route.dropLast) ++ [0] = tour us := by
    intro routes
    induction routes with
    | nil =>
      intro us e
      cases us with
      | nil => rfl
      | cons u us => simp at e
    | cons rd rs ih =>
      intro us e
      cases us with
      | nil => simp at e
      | cons u us =>
        simp only [List.map_cons, List.cons.injEq, Prod.mk.injEq] at e
        have hw : (wrap u).dropLast = 0 :: u := by
          rw [wrap, ← List.cons_append, List.dropLast_concat]
        rw [List.flatMap_cons, e.1.1, hw, List.append_assoc, ih us e.2, tour]
        rfl
  unfold sweepSol
  rw [e' routes us e, without_empty_routes_eq_squeeze (chain_of_nodup ?_), squeeze_tour hz]
  rw [customers_flatten hz]
  exact hnd

/-- A sweep in one direction from one start. -/
theorem sweepOne_spec {D : ℕ → ℕ → ℚ} {d : ℕ → ℚ} {C L : Option ℚ} {nodes : List ℕ} {start : ℕ} (N : ℕ) (cw : Bool)
    (hnn : (0 :: nodes).Nodup) (hd : ∀ n, 0 ≤ d n) (hser : ∀ n ∈ nodes, RouteOk D d C L [n])
    (hs : start < nodes.length) :
    ∃ us : List (List ℕ), us.flatten.Perm nodes ∧ [] ∉ us ∧ (∀ u ∈ us, RouteOk D d C L u) ∧
      ∃ F seen, ∀ fuel, F ≤ fuel → sweep_init fuel N D d C L (sweptOrder D) nodes false (if cw then .cw else .ccw)
        (.list [start]) = .ok (some (some (tour us), seen)) := by
  obtain ⟨us, routes, ⟨F, e⟩, e1, e2, e3, e4⟩ := C30_sweep (!cw) hnn hd (sweptOrder_ok D) hser hs
  rw [List.nodup_cons] at hnn
  have hz : ∀ u ∈ us, u ≠ [] ∧ ∀ x ∈ u, x ≠ 0 := by
    refine fun u hu => ⟨fun e => e3 (e ▸ hu), fun x hx h0 => hnn.1 ?_⟩
    rw [← h0]
    exact e2.mem_iff.1 (List.mem_flatten.2 ⟨u, hu, hx⟩)
  have es := sweepSol_tour e1 hz (e2.nodup_iff.2 hnn.2)
  refine ⟨us, e2, e3, e4, F, [none, some (tour us)], fun fuel hf => ?_⟩
  have e5 : ∀ x, sweepDirs (if cw then .cw else .ccw) = .ok x → x = [!cw] := by cases cw <;> simp [sweepDirs]
  have e6 : sweepDirs (if cw then .cw else .ccw) = .ok [!cw] := by cases cw <;> rfl
  rw [sweep_init, e6]
  simp only [sweepStarts, List.flatMap_cons, List.map_cons, List.map_nil, List.flatMap_nil, List.append_nil,
    sweepRuns, e fuel hf, es]
  simp [keepBetter, is_better_sol]

theorem from_solution_tour {D : ℕ → ℕ → ℚ} {d : ℕ → ℚ} {C L : Option ℚ} {us : List (List ℕ)} (hd0 : d 0 = 0)
    (hz : ∀ u ∈ us, u ≠ [] ∧ ∀ x ∈ u, x ≠ 0) (hok : ∀ u ∈ us, RouteOk D d C L u) :
    (∀ rd ∈ from_solution (tour us) D (some d), GoodRd D (some d) C rd ∧ Fits D (some d) C L rd.route) ∧
      (from_solution (tour us) D (some d)).map (·.route) = us.map wrap := by
  obtain ⟨-, h2, h3⟩ := C06_from_to_solution (tour us) D d (depotEnds_tour us)
  rw [blocks_tour_of_routes us hz] at h2
  refine ⟨fun rd hrd => ?_, h2⟩
  have hm : rd.route ∈ us.map wrap := by
    rw [← h2]; exact List.mem_map.2 ⟨rd, hrd, rfl⟩
  obtain ⟨u, hu, e⟩ := List.mem_map.1 hm
  obtain ⟨g1, g2, -⟩ := h3 rd hrd
  refine ⟨⟨⟨u, e.symm⟩, g1, fun _ => ⟨d, rfl, g2⟩⟩, ?_⟩
  rw [← e]
  exact (fits_iff hd0).2 (hok u hu)

theorem served_of_routes {rds : List RouteData} {us : List (List ℕ)} (h : rds.map (·.route) = us.map wrap) :
    served rds = us.flatten := by
  have : served rds = (rds.map (·.route)).flatMap interior := by simp [served, List.flatMap_map]
  rw [this, h, List.flatMap_map]
  simp [interior_wrap, List.flatMap_def]

/-! ## The start of the sweep -/

theorem argmaxGo_spec (l : List ℚ) : ∀ (xs : List ℚ) (best : ℕ) (v : ℚ) (i : ℕ), l.drop i = xs → l[best]? = some v →
    (∀ k x, k < i → l[k]? = some x → x ≤ v) →
    ∃ w, l[argmaxGo xs best v i]? = some w ∧ ∀ x ∈ l, x ≤ w := by
  intro xs
  induction xs with
  | nil =>
    intro best v i h1 h2 h3
    refine ⟨v, h2, fun x hx => ?_⟩
    obtain ⟨k, hk, rfl⟩ := List.getElem_of_mem hx
    have : l.length ≤ i := by simpa using h1
    exact h3 k _ (by omega) (List.getElem?_eq_getElem hk)
  | cons x xs ih =>
    intro best v i h1 h2 h3
    have hx : l[i]? = some x := by
      have := congrArg List.head? h1
      simpa [List.head?_drop] using this
    have ht : l.drop (i + 1) = xs := by
      have := congrArg List.tail h1
      simpa [List.tail_drop] using this
    rw [argmaxGo]
    by_cases hv : v < x
    · rw [if_pos hv]
      refine ih i x (i + 1) ht hx fun k y hk hy => ?_
      rcases Nat.lt_succ_iff_lt_or_eq.1 hk with hk | rfl
      · exact (h3 k y hk hy).trans hv.le
      · rw [hx] at hy; injection hy with hy; rw [hy]
    · rw [if_neg hv]
      refine ih best v (i + 1) ht h2 fun k y hk hy => ?_
      rcases Nat.lt_succ_iff_lt_or_eq.1 hk with hk | rfl
      · exact h3 k y hk hy
      · rw [hx] at hy; injection hy with hy; rw [← hy]; exact not_lt.1 hv

theorem npArgmax_spec {l : List ℚ} (h : l ≠ []) :
    ∃ k w, npArgmax l = .ok k ∧ l[k]? = some w ∧ ∀ x ∈ l, x ≤ w := by
  cases l with
  | nil => exact absurd rfl h
  | cons a l =>
    obtain ⟨w, h1, h2⟩ := argmaxGo_spec (a :: l) l 0 a 1 rfl rfl (by
      intro k x hk hx
      obtain rfl : k = 0 := by omega
      simp at hx
      rw [hx])
    exact ⟨_, w, rfl, h1, h2⟩

theorem ediff_length (e : ℚ) : ∀ l : List ℚ, l ≠ [] → (ediff e l).length = l.length
  | [], h => absurd rfl h
  | [_], _ => rfl
  | x :: y :: t, _ => by simp [ediff, ediff_length e (y :: t) (by simp)]

theorem whSeed_spec (S : WhSweep) {et : List ℕ} (h : et ≠ []) : ∃ k, whSeed S et = .ok k ∧ k < et.length := by
  have hl := List.length_pos_iff.2 h
  have h0 : idx (et.map S.phi) 0 = .ok (S.phi et[0]) := by
    rw [idx_of_lt (by simpa using hl)]; simp
  have h1 : idxNeg (et.map S.phi) 1 = .ok (S.phi et[et.length - 1]) := by
    simp only [idxNeg, List.length_map]
    rw [if_neg (by omega), idx_of_lt (by simp; omega)]
    simp
  rw [whSeed, h0, h1]
  simp only
  have hne : et.map S.phi ≠ [] := by simpa using h
  have hel := ediff_length (S.phi et[0] + 2 * S.pi - S.phi et[et.length - 1]) (et.map S.phi) hne
  obtain ⟨k, w, e1, e2, -⟩ := npArgmax_spec (l := ediff (S.phi et[0] + 2 * S.pi - S.phi et[et.length - 1]) (et.map S.phi))
    (by intro h'; rw [h'] at hel; simp at hel; omega)
  refine ⟨k, e1, ?_⟩
  have := (List.getElem?_eq_some_iff.1 e2).1
  rw [hel, List.length_map] at this
  exact this

/-! ## The ranges -/

theorem phiRange_one {pi x : ℚ} (hp : 0 < pi) (h1 : -pi ≤ x) (h2 : x ≤ pi) :
    ∃ r, phiRange pi [x] = some r ∧ r.negMax ≤ r.negMin ∧ r.posMax ≤ r.posMin := by
  have e : phiRange pi [x] = some (phiPos pi (phiNeg pi ⟨0, -pi, pi, 0⟩ x) x) := by
    simp [phiRange, phiLoop, phiCross]
  refine ⟨_, e, ?_⟩
  have a1 : (0 : ℚ) ≠ -pi := by intro h; linarith
  have a2 : -pi ≠ (0 : ℚ) := by intro h; linarith
  have a3 : (0 : ℚ) ≠ pi := by intro h; linarith
  have a4 : pi ≠ (0 : ℚ) := by intro h; linarith
  rcases lt_trichotomy x 0 with h | h | h
  · have b1 : x ≤ 0 := h.le
    have b2 : ¬ (0 ≤ x) := not_le.2 h
    simp only [phiPos, phiNeg, if_pos b1, if_neg b2, ne_eq, a1, a2, not_false_eq_true, if_true]
    rw [max_eq_right h1, min_eq_right b1]
    exact ⟨le_rfl, hp.le⟩
  · subst h
    simp only [phiPos, phiNeg, le_refl, if_true, ne_eq, a1, a2, a3, a4, not_false_eq_true]
    rw [max_eq_right h1, min_self, max_self, min_eq_right h2]
    exact ⟨le_rfl, le_rfl⟩
  · have b1 : ¬ (x ≤ 0) := not_le.2 h
    have b2 : 0 ≤ x := h.le
    simp only [phiPos, phiNeg, if_neg b1, if_pos b2, ne_eq, a3, a4, not_false_eq_true, if_true]
    rw [max_eq_right b2, min_eq_right h2]
    exact ⟨by linarith, le_rfl⟩

theorem whRange_wrap (S : WhSweep) {rd : RouteData} {cs : List ℕ} (h : rd.route = wrap cs) :
    whRange S rd = phiRange S.pi (cs.map S.phi) := by
  rw [whRange]
  by_cases he : rd.is_empty = true
  · rw [if_pos he, (is_empty_wrap h).1 he]; rfl
  · have : rd.route.tail.dropLast = cs := by rw [h]; exact interior_wrap cs
    rw [if_neg he, this]

theorem tangled_three {S : WhSweep} (hS : AnglesOk S) {cs1 cs2 : List ℕ}
    (h : whTangled (phiRange S.pi (cs1.map S.phi)) (phiRange S.pi (cs2.map S.phi)) = true) :
    cs1 ≠ [] ∧ cs2 ≠ [] ∧ 3 ≤ (cs1 ++ cs2).length := by
  have h1 : cs1 ≠ [] := by rintro rfl; simp [phiRange, whTangled] at h
  have h2 : cs2 ≠ [] := by rintro rfl; simp [phiRange, whTangled] at h
  refine ⟨h1, h2, ?_⟩
  by_contra hlt
  rw [List.length_append] at hlt
  have l1 := List.length_pos_iff.2 h1
  have l2 := List.length_pos_iff.2 h2
  obtain ⟨a, rfl⟩ := List.length_eq_one_iff.1 (by omega : cs1.length = 1)
  obtain ⟨b, rfl⟩ := List.length_eq_one_iff.1 (by omega : cs2.length = 1)
  obtain ⟨r1, e1, m1, p1⟩ := phiRange_one hS.1 (hS.2 a).1 (hS.2 a).2
  obtain ⟨r2, e2, m2, p2⟩ := phiRange_one hS.1 (hS.2 b).1 (hS.2 b).2
  rw [List.map_cons, List.map_nil, List.map_cons, List.map_nil, e1, e2] at h
  simp only [whTangled, phiOverlap, Bool.or_eq_true, Bool.and_eq_true, decide_eq_true_eq] at h
  rcases h with h | h
  · linarith [h.1, h.2]
  · linarith [h.1, h.2]

/-! ## The rebuilding -/

theorem rebuild_spec {N : ℕ} {S : WhSweep} (hn : S.nodes.Perm (List.range' 1 (N - 1))) {D : ℕ → ℕ → ℚ} {d : ℕ → ℚ}
    {C L : Option ℚ} (hd : ∀ n, 0 ≤ d n) (hd0 : d 0 = 0) (hser : Serviceable N D d C L) {rd1 rd2 : RouteData}
    {cs1 cs2 : List ℕ} (h1 : rd1.route = wrap cs1) (h2 : rd2.route = wrap cs2) (hnd : (cs1 ++ cs2).Nodup)
    (hsub : ∀ n ∈ cs1 ++ cs2, 1 ≤ n ∧ n < N) (h3 : 3 ≤ (cs1 ++ cs2).length) :
    ∃ et, (∃ F, ∀ fuel, F ≤ fuel → whRebuild fuel N S D d C L rd1 rd2 = .ok (some et)) ∧
      (∀ rd ∈ et, GoodRd D (some d) C rd ∧ Fits D (some d) C L rd.route) ∧
      (served et).Perm (cs1 ++ cs2) ∧ et ≠ [] := by
  have hmem : ∀ n, n ∈ S.nodes ↔ 1 ≤ n ∧ n < N := by
    intro n
    rw [hn.mem_iff, List.mem_range'_1]; omega
  have hSnd : S.nodes.Nodup := hn.nodup_iff.2 ((List.pairwise_lt_range' 1).imp fun h => ne_of_lt h)
  have e1 : rd1.route.dropLast = 0 :: cs1 := by rw [h1, wrap, ← List.cons_append, List.dropLast_concat]
  have e2 : rd2.route.tail.dropLast = cs2 := by rw [h2]; exact interior_wrap cs2
  have hperm : (S.nodes.filter fun n => decide (n ∈ 0 :: cs1 ++ cs2)).Perm (cs1 ++ cs2) := by
    refine (List.perm_ext_iff_of_nodup (hSnd.filter _) hnd).2 fun n => ?_
    rw [List.mem_filter, decide_eq_true_eq, List.cons_append, List.mem_cons]
    constructor
    · rintro ⟨a, b⟩
      have := (hmem n).1 a
      exact b.resolve_left (by omega)
    · exact fun h => ⟨(hmem n).2 (hsub n h), .inr h⟩
  unfold whRebuild
  simp only [e1, e2]
  generalize S.nodes.filter (fun n => decide (n ∈ 0 :: cs1 ++ cs2)) = et at hperm
  have hl := hperm.length_eq
  have het : et ≠ [] := by rintro rfl; simp at hl; simp at h3; omega
  obtain ⟨k, ek, hk⟩ := whSeed_spec S het
  rw [ek]
  simp only
  have hread : S.read et = et := by rw [WhSweep.read, if_neg (by omega)]
  rw [hread]
  have hin : ∀ n ∈ et, 1 ≤ n ∧ n < N := fun n hn => hsub n (hperm.mem_iff.1 hn)
  obtain ⟨us, p1, p2, p3, F, seen, p4⟩ := sweepOne_spec (D := D) (d := d) (C := C) (L := L) (nodes := et) N true (by
    rw [List.nodup_cons]
    exact ⟨fun h => by have := hin 0 h; omega, hperm.nodup_iff.2 hnd⟩) hd
    (fun n hn => hser n (hin n hn).1 (hin n hn).2) hk
  have hz : ∀ u ∈ us, u ≠ [] ∧ ∀ x ∈ u, x ≠ 0 := by
    refine fun u hu => ⟨fun e => p2 (e ▸ hu), fun x hx h0 => ?_⟩
    have := hin x (p1.mem_iff.1 (List.mem_flatten.2 ⟨u, hu, hx⟩))
    omega
  obtain ⟨g1, g2⟩ := from_solution_tour (D := D) (C := C) (L := L) hd0 hz p3
  refine ⟨from_solution (tour us) D (some d), ⟨F, fun fuel hf => ?_⟩, g1, ?_, ?_⟩
  · have := p4 fuel hf
    simp only [if_true] at this
    rw [this]
  · rw [served_of_routes g2]; exact p1.trans hperm
  · intro h
    rw [h] at g2
    have : us = [] := by simpa using g2.symm
    subst this
    have := p1.length_eq
    simp at this
    exact het (List.length_eq_zero_iff.1 this.symm)

end Verif
