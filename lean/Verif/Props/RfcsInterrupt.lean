import Verif.Lemmas.RfcsInterrupt
import Verif.Props.Rfcs

/-! # C79: interrupts of the partition of a giant tour -/

namespace Verif

open Spec

theorem seg_take {g : List ℕ} {i l : ℕ} (hl : l ≤ g.length) : seg g i l = (g.rotate (i + 1)).take l := by
  rw [← seg_full, show g.length = l + (g.length - l) by omega, seg_add, List.take_left' (by simp)]

/-- An interrupt at any time from the first return of the TSP routine on carries all the customers, each one once: either one
route of all of them, or two or more routes of which each one follows the giant tour and would have kept the limits in the order
that the TSP routine had found. As long as the rows still to do are more than the customers on any route that keeps the limits, it is the
one route of all. -/
theorem C79_partial {N : ℕ} {D : ℕ → ℕ → ℚ} {d : ℕ → ℚ} {C L : Option ℚ} {const : ℚ} {g tour' : List ℕ}
    {popt : Router} (hN : 3 ≤ N) (hg : g.Perm (List.range' 1 (N - 1))) (ht : GiantTour g tour')
    (hp : TspRoutine D popt) (hm : GrowsLonger popt) (hc : 0 ≤ const) (hs : Serviceable N D d C L) {p : RfPoint}
    (hr : p.rows < g.length) (hst : ¬ (p.rows = 0 ∧ p.cells = 0 ∧ p.step = .before)) :
    ∃ us, (∀ fuel, N ≤ fuel → rf_interrupted fuel N d C L tour' const popt p = .ok (some (tour us))) ∧
      Solves N D d none none (tour us) ∧ Segments g us ∧
      (us = [g.rotate 1] ∨ 2 ≤ us.length ∧ ∀ u ∈ us, SegmentOk d C L popt u) ∧
      ((∀ k l, l ≤ g.length → SegmentOk d C L popt ((g.rotate k).take l) → l < g.length - p.rows) →
        us = [g.rotate 1]) := by
  have hlen : g.length = N - 1 := by rw [hg.length_eq]; simp
  have hgn0 : (0 :: g).Nodup := by
    refine (hg.cons 0).nodup_iff.2 ?_
    have : (0 :: List.range' 1 (N - 1)) = List.range' 0 (N - 1 + 1) := by rw [List.range'_succ]
    rw [this]; exact (List.pairwise_lt_range' (s := 0) (n := N - 1 + 1) (step := 1)).imp fun h => ne_of_lt h
  have hring := segE_ring (d := d) (C := C) (L := L) hgn0 (by omega) hm hc
  obtain ⟨hrl, rest, hrest⟩ := GiantTour_len ht (List.nodup_cons.1 hgn0).2 (by omega)
  have hcust : ∀ x ∈ g, 1 ≤ x ∧ x < N := by
    intro x hx
    have := hg.mem_iff.1 hx
    rw [List.mem_range'_1] at this
    omega
  have hsing : ∀ x ∈ g, SegmentOk d C L popt [x] := by
    intro x hx
    have h1 := hcust x hx
    have h2 := hs x h1.1 h1.2
    refine ⟨h2.1, ?_⟩
    obtain ⟨w, hw1, hw2⟩ := grown_route hp [x] (by simp; omega) (by simp)
    rw [hw2, List.perm_singleton.1 hw1]
    exact h2.2
  obtain ⟨t, called, k, v, tg, c1, c2, c3, c4, c5⟩ := rfCut_ok (d := d) (C := C) (L := L) (const := const) (rest := rest) hp hgn0
    (by omega) hm hc (fun x hx => (hsing x hx).1) hr
  have hcalled : called = true := by
    cases hb : called with
    | true => rfl
    | false => exact absurd (c5.1 hb) hst
  have hcut := cutE_ring hring p.rows k
  have hdone := fw_done hcut (by omega : g.length ≤ N) c3
  have hrel := NextRel.fw (N := N) c2
  have hrow : ∀ i l, i < g.length → cutE g.length p.rows k (segE g d C L const popt) i l < ⊤ → i ≤ p.rows :=
    fun i l hi h => cutE_row hi h
  have hone : ∀ i < p.rows, cutE g.length p.rows k (segE g d C L const popt) i 1 < ⊤ := by
    intro i hi
    unfold cutE
    rw [Nat.mod_eq_of_lt (by omega), if_pos (.inl hi), segE_ok (by omega) (fun k h1 h2 => by
      have : k = 1 := by omega
      subst this
      rw [seg_succ, seg_zero, List.nil_append]
      refine hsing _ ?_
      unfold ringAt
      rw [List.getD_eq_getElem _ _ (Nat.mod_lt _ (by omega))]
      exact List.getElem_mem _)]
    exact WithTop.coe_lt_top _
  have hrun : ∀ fuel, rf_interrupted fuel N d C L tour' const popt p =
      rfWalk rfAppend rfAsIs (g ++ rest) g.length (rfArgmin N fun i => (fw N t).dist i i) (fw N t).next fuel
        (rfArgmin N fun i => (fw N t).dist i i) [0] := by
    intro fuel
    unfold rf_interrupted
    simp only [hrl]
    rw [hrest, c1]
    simp only
    rw [if_pos hcalled]
  have hne : ∀ (ls : List ℕ) i, (∀ l ∈ ls, 1 ≤ l) → [] ∉ segs g i ls := by
    intro ls
    induction ls with
    | nil => intro i _; simp [segs]
    | cons l t ih =>
      intro i h
      rw [segs, List.mem_cons, not_or]
      refine ⟨?_, ih _ fun x hx => h x (List.mem_cons_of_mem _ hx)⟩
      intro e
      have := congrArg List.length e
      have := h l List.mem_cons_self
      simp at *
      omega
  have hsol : ∀ us, Segments g us → Solves N D d none none (tour us) := by
    intro us ⟨h1, k, hk⟩
    refine (solves_tour ?_ h1 (fun _ _ => ⟨fun c hc => by simp at hc, fun c hc => by simp at hc⟩)).1
    rw [hk]
    exact (List.rotate_perm g k).trans hg
  by_cases hex : ∃ i0 < g.length, ∃ l0 : List ℕ, (∀ l ∈ l0, 1 ≤ l) ∧ l0.sum = g.length ∧
      ringCost (cutE g.length p.rows k (segE g d C L const popt)) i0 l0 < ⊤
  · obtain ⟨i0, hi0, l0, a1, a2, a3⟩ := hex
    obtain ⟨hb, ls, f1, f2, f3, f4, -⟩ := fw_best hcut (by omega : g.length ≤ N) c3 hi0 a1 a2 a3
    have hdist : (fun i => (fw N t).dist i i) = fun i => (fw N tg).dist i i := by rw [hrel.1]
    rw [hdist] at hrun
    generalize rfArgmin N (fun i => (fw N tg).dist i i) = b at hb f1 f4 hrun
    have hlb : ringLen g.length b b = g.length := by unfold ringLen; rw [if_neg (by omega)]; omega
    have hbu : b ≤ p.rows := by
      cases ls with
      | nil => exact f1.elim
      | cons l t => exact hrow b l hb (ringCost_split f4).1
    obtain ⟨ls', e1, e2, e3, e4⟩ := cut_follow hcut (by omega : g.length ≤ N) hr hrow hone hdone hb hbu hrel.2 ls b hb f1 f2
      (by rw [hlb]; exact f3) f4
    rw [hlb] at e3
    obtain ⟨s1, s2, s3⟩ := ringCost_segs ls' b (lt_of_le_of_lt (ringCost_mono (cutE_ge _ _ _ _) ls' b) e4)
    have hlsl : ls'.length ≤ N := by
      have : ls'.length ≤ ls'.sum := List.length_le_sum_of_one_le ls' e2
      omega
    have hseg : Segments g (segs g b ls') := ⟨hne ls' b e2, b + 1, by rw [segs_flatten, e3, seg_full]⟩
    refine ⟨segs g b ls', ?_, hsol _ hseg, hseg, .inr ⟨?_, s3 e2⟩, ?_⟩
    · intro fuel hf
      rw [hrun, rfWalk_keep ls' b hb e1 (fun l hl => ⟨e2 l hl, (s2 l hl).le⟩) fuel [0] (by omega), tour_flatMap]
    · rw [segs_length]
      by_contra hcon
      have : ls'.length = 0 ∨ ls'.length = 1 := by omega
      rcases this with h | h
      · rw [List.length_eq_zero_iff.1 h] at e3; simp at e3; omega
      · obtain ⟨l, rfl⟩ := List.length_eq_one_iff.1 h
        have := s2 l (by simp)
        simp at e3
        omega
    · intro hshort
      exfalso
      obtain ⟨l, hl, hl2⟩ := long_segment hrow ls' b hb e4 (by omega)
      have hall : ∀ (ls : List ℕ) (i : ℕ), l ∈ ls → ∃ j, seg g j l ∈ segs g i ls := by
        intro ls
        induction ls with
        | nil => intro i h; simp at h
        | cons a ls ih =>
          intro i h
          rw [segs]
          rcases List.mem_cons.1 h with rfl | h
          · exact ⟨i, List.mem_cons_self⟩
          · obtain ⟨j, hj⟩ := ih (i + a) h
            exact ⟨j, List.mem_cons_of_mem _ hj⟩
      obtain ⟨j, hj⟩ := hall ls' b hl
      have hok := s3 e2 _ hj
      have hlg := (s2 l hl).le
      rw [seg_take hlg] at hok
      have := hshort (j + 1) l hlg hok
      omega
  · have hdiag : ∀ i < N, (fw N t).dist i i = ⊤ := by
      intro i hi
      rw [hrel.1]
      have h1 := (hdone i i hi hi).lb
      by_contra hcon
      have h2 := lt_of_le_of_lt h1 (lt_top_iff_ne_top.2 hcon)
      have hin := (ringTab_lt h2).1
      rw [ringTab_len hin hin, show ringLen g.length i i = g.length by unfold ringLen; rw [if_neg (by omega)]; omega] at h2
      obtain ⟨ls, q1, q2, q3⟩ := ringBest_attained (E := cutE g.length p.rows k (segE g d C L const popt)) g.length i
      exact hex ⟨i, hin, ls, q1, q2, by rw [q3]; exact h2⟩
    have harg := rfArgmin_top (fun i => (fw N t).dist i i) N hdiag
    have hnext : (fw N t).next 0 0 = 0 := by
      rw [TopSame.fw t 0 0 (hdiag 0 (by omega)), c4]
    have hseg : Segments g [g.rotate 1] := by
      refine ⟨?_, 1, by simp⟩
      intro h
      have := congrArg List.length (List.mem_singleton.1 h)
      simp at this
      omega
    refine ⟨[g.rotate 1], ?_, hsol _ hseg, hseg, .inl rfl, fun _ => rfl⟩
    intro fuel hf
    have hl0 : ringLen g.length 0 0 = g.length := by unfold ringLen; rw [if_neg (by omega)]; omega
    rw [hrun, harg, rfWalk_keep [g.length] 0 (by omega) ⟨by rw [hnext]; omega, by rw [hnext, hl0], .inl ⟨hnext, rfl⟩⟩
      (fun l hl => by rw [List.mem_singleton.1 hl]; omega) fuel [0] (by simp; omega), tour_flatMap, segs, segs, seg_full]

/-- An interrupt before the TSP routine has returned for the first time carries nothing: it is lost, as an error about a name
without a value is raised in the place of it. -/
theorem C79_false_first {N : ℕ} {D : ℕ → ℕ → ℚ} {d : ℕ → ℚ} {C L : Option ℚ} {const : ℚ} {g tour' : List ℕ}
    {popt : Router} (hN : 3 ≤ N) (hg : g.Perm (List.range' 1 (N - 1))) (ht : GiantTour g tour')
    (hp : TspRoutine D popt) (hm : GrowsLonger popt) (hc : 0 ≤ const) (hs : Serviceable N D d C L) {fuel : ℕ} :
    rf_interrupted fuel N d C L tour' const popt ⟨0, 0, .before⟩ = .error .nameError := by
  have hlen : g.length = N - 1 := by rw [hg.length_eq]; simp
  have hgn0 : (0 :: g).Nodup := by
    refine (hg.cons 0).nodup_iff.2 ?_
    have : (0 :: List.range' 1 (N - 1)) = List.range' 0 (N - 1 + 1) := by rw [List.range'_succ]
    rw [this]; exact (List.pairwise_lt_range' (s := 0) (n := N - 1 + 1) (step := 1)).imp fun h => ne_of_lt h
  have hring := segE_ring (d := d) (C := C) (L := L) hgn0 (by omega) hm hc
  obtain ⟨hrl, rest, hrest⟩ := GiantTour_len ht (List.nodup_cons.1 hgn0).2 (by omega)
  have hone : ∀ x ∈ g, Within C C_EPS (demand d [x]) := by
    intro x hx
    have := hg.mem_iff.1 hx
    rw [List.mem_range'_1] at this
    exact (hs x (by omega) (by omega)).1
  obtain ⟨t, called, k, v, tg, c1, c2, c3, c4, c5⟩ := rfCut_ok (d := d) (C := C) (L := L) (const := const) (rest := rest) hp hgn0
    (by omega) hm hc hone (p := ⟨0, 0, .before⟩) (by simp; omega)
  have hcalled : called = false := c5.2 ⟨rfl, rfl, rfl⟩
  unfold rf_interrupted
  simp only [hrl]
  rw [hrest, c1]
  simp only
  rw [hcalled, if_neg (by simp)]
  have hcut := cutE_ring hring 0 k
  have hdone := fw_done hcut (by omega : g.length ≤ N) c3
  have hrel := NextRel.fw (N := N) c2
  have hdiag : ∀ i < N, (fw N t).dist i i = ⊤ := by
    intro i hi
    rw [hrel.1]
    have h1 := (hdone i i hi hi).lb
    by_contra hcon
    have h2 := lt_of_le_of_lt h1 (lt_top_iff_ne_top.2 hcon)
    have hin := (ringTab_lt h2).1
    rw [ringTab_len hin hin, show ringLen g.length i i = g.length by unfold ringLen; rw [if_neg (by omega)]; omega] at h2
    obtain ⟨ls, q1, q2, q3⟩ := ringBest_attained (E := cutE g.length 0 k (segE g d C L const popt)) g.length i
    rw [← q3] at h2
    obtain ⟨l, hl, hl2⟩ := long_segment (fun i l hi h => cutE_row hi h) ls i hin h2 (by omega)
    have : ∀ (ls : List ℕ) (x : ℕ), l ∈ ls → g.length ≤ l → ¬ ringCost (cutE g.length 0 k (segE g d C L const popt)) x ls < ⊤ := by
      intro ls
      induction ls with
      | nil => intro x h; simp at h
      | cons a ls ih =>
        intro x h hla hfin
        obtain ⟨z1, z2⟩ := ringCost_split hfin
        rcases List.mem_cons.1 h with rfl | h
        · rw [hcut.full _ _ hla] at z1; exact lt_irrefl _ z1
        · exact ih _ h hla z2
    exact this ls i hl (by omega) h2
  rw [rfArgmin_top (fun i => (fw N t).dist i i) N hdiag, TopSame.fw t 0 0 (hdiag 0 (by omega)), c4]
  have hroute := rfRoute_keep (g := g) (rest := rest) (i := 0) (l := g.length) (by omega) le_rfl g.length 0 (g.length + 1)
    (by omega) (by omega)
  rw [Nat.zero_add, Nat.mod_self, Nat.zero_add, Nat.zero_mod] at hroute
  rw [show wrap (seg g 0 0) = [0, 0] from rfl] at hroute
  rw [hroute]

/-! ## What is not so -/

/-- Five nodes on a line, three customers on one side of the depot and one on the other. -/
def rfSideX (i : ℕ) : ℚ := [0, 1, 2, 3, -1].getD i 7

def rfSideD (i j : ℕ) : ℚ := if rfSideX i ≤ rfSideX j then rfSideX j - rfSideX i else rfSideX i - rfSideX j

/-- A routine that visits the customers in the order of their numbers. -/
def rfSorted (r : List ℕ) : List ℕ × ℚ :=
  (wrap (r.tail.insertionSort (· ≤ ·)), cost rfSideD (wrap (r.tail.insertionSort (· ≤ ·))))

/-- The solution an interrupt carries may break the limits, although they can be kept. After two rows the one route breaks the
capacity limit. Later there are two routes and the capacity limit is kept, but one of them breaks the cost limit: the order in which
it was found to keep it is not the order in which it is driven. Between the two writes of an entry even an additional route may
appear. -/
theorem C79_false_limits : TspRoutine rfSideD rfSorted ∧
    Serviceable 5 rfSideD (fun _ => 1) (some 3) (some 6) ∧ Feasible rfSideD (fun _ => 1) (some 3) (some 6) [0, 4, 0, 1, 2, 3, 0] ∧
    rf_interrupted 5 5 (fun _ => 1) (some 3) (some 6) [2, 1, 3, 4, 2] 0 rfSorted ⟨2, 0, .before⟩ = .ok (some [0, 1, 3, 4, 2, 0]) ∧
    ¬ Feasible rfSideD (fun _ => 1) (some 3) (some 6) [0, 1, 3, 4, 2, 0] ∧
    rf_interrupted 5 5 (fun _ => 1) (some 3) (some 6) [2, 1, 3, 4, 2] 0 rfSorted ⟨3, 3, .before⟩ =
      .ok (some [0, 4, 0, 2, 1, 3, 0]) ∧
    cost rfSideD [0, 1, 2, 3, 0] = 6 ∧ cost rfSideD [0, 2, 1, 3, 0] = 8 ∧
    rf_interrupted 5 5 (fun _ => 1) (some 3) (some 6) [2, 1, 3, 4, 2] 0 rfSorted ⟨3, 2, .torn⟩ =
      .ok (some [0, 4, 0, 2, 0, 1, 3, 0]) := by
  refine ⟨?_, ?_, ?_, by decide +kernel, ?_, by decide +kernel, by decide +kernel, by decide +kernel, by decide +kernel⟩
  · intro t _ _
    exact ⟨t.insertionSort (· ≤ ·), List.perm_insertionSort _ t, rfl⟩
  · intro n h1 h2
    have : n = 1 ∨ n = 2 ∨ n = 3 ∨ n = 4 := by omega
    rcases this with rfl | rfl | rfl | rfl <;>
      exact ⟨fun c hc _ => by simp only [Option.some.injEq] at hc; subst hc; decide +kernel,
        fun c hc _ => by simp only [Option.some.injEq] at hc; subst hc; decide +kernel⟩
  · intro b hb
    have hbl : blocks [0, 4, 0, 1, 2, 3, 0] = [[4], [1, 2, 3]] := by decide
    rw [hbl] at hb
    simp only [List.mem_cons, List.not_mem_nil, or_false] at hb
    rcases hb with rfl | rfl <;>
      exact ⟨fun c hc _ => by simp only [Option.some.injEq] at hc; subst hc; decide +kernel,
        fun c hc _ => by simp only [Option.some.injEq] at hc; subst hc; decide +kernel⟩
  · intro h
    have hbl : blocks [0, 1, 3, 4, 2, 0] = [[1, 3, 4, 2]] := by decide
    have := (h [1, 3, 4, 2] (by rw [hbl]; simp)).1 3 rfl (by norm_num)
    exact absurd this (by decide +kernel)

/-! ## A case -/

/-- The hypotheses of the theorems hold for the line, and after two rows and a part of the third one the interrupt carries three routes. -/
example : (∃ us, (∀ fuel, 5 ≤ fuel → rf_interrupted fuel 5 (fun _ => 1) (some 2) (some 4) [1, 2, 3, 4, 1] 0
        (sweptOrder rfLineD) ⟨2, 1, .torn⟩ = .ok (some (tour us))) ∧
      Solves 5 rfLineD (fun _ => 1) none none (tour us) ∧ Segments [1, 2, 3, 4] us) ∧
    rf_interrupted 5 5 (fun _ => 1) (some 2) (some 4) [1, 2, 3, 4, 1] 0 (sweptOrder rfLineD) ⟨2, 1, .torn⟩ =
      .ok (some [0, 3, 0, 4, 1, 0, 2, 0]) ∧
    rf_interrupted 5 5 (fun _ => 1) (some 2) (some 4) [1, 2, 3, 4, 1] 0 (sweptOrder rfLineD) ⟨3, 1, .torn⟩ =
      .ok (some [0, 3, 4, 0, 1, 0, 2, 0]) ∧
    rf_interrupted 5 5 (fun _ => 1) (some 2) (some 4) [1, 2, 3, 4, 1] 0 (sweptOrder rfLineD) ⟨0, 0, .before⟩ =
      .error .nameError := by
  have hnn : ∀ a b, 0 ≤ rfLineD a b := fun a b => by rw [rfLineD_eq]; exact abs_nonneg _
  have htri : ∀ a b c, rfLineD a c ≤ rfLineD a b + rfLineD b c := fun a b c => by
    rw [rfLineD_eq, rfLineD_eq, rfLineD_eq]; exact abs_sub_le _ _ _
  have hser : Serviceable 5 rfLineD (fun _ => 1) (some 2) (some 4) := by
    intro n h1 h2
    have : n = 1 ∨ n = 2 ∨ n = 3 ∨ n = 4 := by omega
    rcases this with rfl | rfl | rfl | rfl <;>
      exact ⟨fun c hc _ => by simp only [Option.some.injEq] at hc; subst hc; decide +kernel,
        fun c hc _ => by simp only [Option.some.injEq] at hc; subst hc; decide +kernel⟩
  have hg : GiantTour [1, 2, 3, 4] [1, 2, 3, 4, 1] := .inr rfl
  obtain ⟨us, h1, h2, h3, -⟩ := C79_partial (D := rfLineD) (d := fun _ => 1) (C := some 2) (L := some 4) (const := 0)
    (p := ⟨2, 1, .torn⟩) (by omega) (by decide : [1, 2, 3, 4].Perm (List.range' 1 4)) hg (sweptOrder_ok rfLineD)
    (growsLonger_swept hnn htri).1 le_rfl hser (by simp) (by simp)
  exact ⟨⟨us, h1, h2, h3⟩, by decide +kernel, by decide +kernel,
    C79_false_first (D := rfLineD) (g := [1, 2, 3, 4]) (by omega) (by decide) hg (sweptOrder_ok rfLineD)
      (growsLonger_swept hnn htri).1 le_rfl hser⟩

end Verif
