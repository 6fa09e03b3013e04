import Verif.Lemmas.PetalScp
import Verif.Lemmas.Sweep
import Verif.Lemmas.MoleJamesonRefine
import Verif.Props.RouteData

/-! # Lemmas on the petals and the solutions made of them -/

namespace Verif
open Spec

variable {N : ℕ} {D : ℕ → ℕ → ℚ} {d : ℕ → ℚ} {C L : Option ℚ}

/-- The customers of a petal in the order of its route. -/
def Petal.custs (p : Petal) : List ℕ := p.route.tail.dropLast

theorem good_custs {p : Petal} (h : GoodPetal N D d C L p) :
    p.route = wrap p.custs ∧ p.cost = cost D (wrap p.custs) ∧ p.custs ≠ [] ∧ p.custs.Nodup ∧
      (∀ n ∈ p.custs, 1 ≤ n ∧ n < N) ∧ RouteOk D d C L p.custs ∧ ∀ n, n ∈ p.nodes ↔ n ∈ p.custs := by
  obtain ⟨u, h1, h2⟩ := h
  have : p.custs = u := by
    unfold Petal.custs
    rw [h1]
    simp [wrap]
  rw [this]
  exact ⟨h1, h2⟩

theorem wrap_inj {u v : List ℕ} (h : wrap u = wrap v) : u = v := by
  unfold wrap at h
  simpa using h

theorem count_custs {ps : List Petal} (hg : ∀ p ∈ ps, GoodPetal N D d C L p) (n : ℕ) :
    (ps.map Petal.custs).flatten.count n = (ps.filter fun p => decide (n ∈ p.nodes)).length := by
  induction ps with
  | nil => rfl
  | cons p ps ih =>
    have hp := good_custs (hg p (List.mem_cons_self ..))
    rw [List.map_cons, List.flatten_cons, List.count_append, ih fun q hq => hg q (List.mem_cons_of_mem _ hq),
      List.filter_cons]
    by_cases h : n ∈ p.nodes
    · have h' := (hp.2.2.2.2.2.2 n).1 h
      rw [List.count_eq_one_of_mem hp.2.2.2.1 h']
      simp [h]
      omega
    · have h' : n ∉ p.custs := fun x => h ((hp.2.2.2.2.2.2 n).2 x)
      rw [List.count_eq_zero.2 h']
      simp [h]

/-- Petals that serve each customer once. -/
theorem coverBy_iff {ps : List Petal} (hg : ∀ p ∈ ps, GoodPetal N D d C L p) :
    CoverBy N ps ↔ (ps.map Petal.custs).flatten.Perm (List.range' 1 (N - 1)) := by
  have hmem : ∀ n ∈ (ps.map Petal.custs).flatten, 1 ≤ n ∧ n < N := by
    intro n hn
    obtain ⟨u, hu, hnu⟩ := List.mem_flatten.1 hn
    obtain ⟨p, hp, rfl⟩ := List.mem_map.1 hu
    exact (good_custs (hg p hp)).2.2.2.2.1 n hnu
  constructor
  · intro h
    have hnd : (ps.map Petal.custs).flatten.Nodup := by
      rw [List.nodup_iff_count_le_one]
      intro n
      by_cases hn : n ∈ (ps.map Petal.custs).flatten
      · rw [count_custs hg, h n (hmem n hn).1 (hmem n hn).2]
      · rw [List.count_eq_zero.2 hn]
        omega
    rw [List.perm_ext_iff_of_nodup hnd List.nodup_range']
    intro n
    rw [List.mem_range'_1]
    constructor
    · intro hn
      have := hmem n hn
      omega
    · intro hn
      rw [← List.count_pos_iff, count_custs hg, h n (by omega) (by omega)]
      omega
  · intro h n h1 h2
    rw [← count_custs hg, h.count_eq]
    exact List.count_eq_one_of_mem List.nodup_range' (List.mem_range'_1.2 (by omega))

theorem cost_custs {ps : List Petal} (hg : ∀ p ∈ ps, GoodPetal N D d C L p) :
    (ps.map (·.cost)).sum = cost D (tour (ps.map Petal.custs)) := by
  rw [cost_tour_sum, List.map_map]
  congr 1
  apply List.map_congr_left
  intro p hp
  exact (good_custs (hg p hp)).2.1

/-- Routes of petals can be chosen. -/
theorem choose_petals : ∀ {ps : List Petal} {us : List (List ℕ)}, (∀ p ∈ ps, GoodPetal N D d C L p) →
    us.Nodup → (∀ u ∈ us, ∃ p ∈ ps, p.route = wrap u) →
    ∃ X : List Bool, X.length = ps.length ∧ ((pick ps X).map Petal.custs).Perm us
  | [], us, _, _, h => by
    refine ⟨[], rfl, ?_⟩
    have : us = [] := by
      rcases us with _ | ⟨u, us⟩
      · rfl
      · obtain ⟨p, hp, _⟩ := h u (List.mem_cons_self ..)
        simp at hp
    simp [this]
  | p :: ps, us, hg, hnd, h => by
    have hp := good_custs (hg p (List.mem_cons_self ..))
    by_cases hm : p.custs ∈ us
    · obtain ⟨X, h1, h2⟩ := choose_petals (ps := ps) (us := us.erase p.custs)
        (fun q hq => hg q (List.mem_cons_of_mem _ hq)) (hnd.erase _) (by
          intro u hu
          obtain ⟨q, hq, he⟩ := h u (List.mem_of_mem_erase hu)
          rcases List.mem_cons.1 hq with rfl | hq
          · rw [hp.1] at he
            have := wrap_inj he
            subst this
            exact absurd hu hnd.not_mem_erase
          · exact ⟨q, hq, he⟩)
      refine ⟨true :: X, by simp [h1], ?_⟩
      rw [pick_cons]
      exact (h2.cons _).trans (List.perm_cons_erase hm).symm
    · obtain ⟨X, h1, h2⟩ := choose_petals (ps := ps) (us := us)
        (fun q hq => hg q (List.mem_cons_of_mem _ hq)) hnd (by
          intro u hu
          obtain ⟨q, hq, he⟩ := h u hu
          rcases List.mem_cons.1 hq with rfl | hq
          · rw [hp.1] at he
            exact absurd (wrap_inj he ▸ hu) hm
          · exact ⟨q, hq, he⟩)
      exact ⟨false :: X, by simp [h1], by rw [pick_cons]; exact h2⟩

theorem cover_routes {ps : List Petal} {us : List (List ℕ)} (hg : ∀ p ∈ ps, GoodPetal N D d C L p)
    (h : PetalCover N ps us) : us.Nodup := by
  have hne : ∀ u ∈ us, u ≠ [] := by
    intro u hu
    obtain ⟨p, hp, he⟩ := h.1 u hu
    have := good_custs (hg p hp)
    rw [this.1] at he
    exact wrap_inj he ▸ this.2.2.1
  have hnd : us.flatten.Nodup := h.2.nodup_iff.2 List.nodup_range'
  rw [List.nodup_flatten] at hnd
  refine hnd.2.imp_of_mem ?_
  intro u v hu _ hd e
  subst e
  obtain ⟨x, hx⟩ := List.exists_mem_of_ne_nil u (hne u hu)
  exact hd hx hx

theorem PartSol.feasible {us : List (List ℕ)} (h : PartSol N D d C L us) : Feasible D d C L (tour us) := by
  intro b hb
  rw [blocks_tour, List.mem_flatMap] at hb
  obtain ⟨u, hu, hb⟩ := hb
  rw [blocks_zerofree u (fun x hx => by have := h.range u hu x hx; omega)] at hb
  by_cases e : u = []
  · rw [if_pos e] at hb
    simp at hb
  · rw [if_neg e, List.mem_singleton] at hb
    subst hb
    exact h.ok b hu

theorem PartSol.customers {us : List (List ℕ)} (h : PartSol N D d C L us) : customers (tour us) = us.flatten := by
  rw [customers_tour, List.flatMap_def]
  congr 1
  conv_rhs => rw [← List.map_id us]
  refine List.map_congr_left fun u hu => ?_
  exact List.filter_eq_self.2 fun x hx => by
    have := h.range u hu x hx
    simp
    omega

/-- Removing visits keeps routes within the limits. -/
theorem routeOk_sublist (hd : ∀ n, 0 ≤ d n) (hT : Triangle D) {u v : List ℕ} (h : v.Sublist u)
    (hu : RouteOk D d C L u) : RouteOk D d C L v :=
  ⟨within_mono hu.1 (demand_sublist hd h), within_mono hu.2 (cost_more_stops hT h 0 0)⟩

theorem forall₂_sublist_mem {vs us : List (List ℕ)} (h : List.Forall₂ List.Sublist vs us) {v : List ℕ}
    (hv : v ∈ vs) : ∃ u ∈ us, v.Sublist u := by
  induction h with
  | nil => simp at hv
  | cons h1 _ ih =>
    rcases List.mem_cons.1 hv with rfl | hv
    · exact ⟨_, List.mem_cons_self .., h1⟩
    · obtain ⟨u, hu, hs⟩ := ih hv
      exact ⟨u, List.mem_cons_of_mem _ hu, hs⟩

/-- What the removal of repeated visits makes of the routes of petals. -/
theorem multi_petals {ps : List Petal} (hN : 1 ≤ N) (hd : ∀ n, 0 ≤ d n) (hT : Triangle D)
    (hg : ∀ p ∈ ps, GoodPetal N D d C L p) :
    ∃ us all, remove_multiserved N D (ps.map (·.route)) = .ok (us.map wrap, all) ∧ PartSol N D d C L us ∧
      us.length = ps.length ∧ (all = true → us.flatten.Perm (List.range' 1 (N - 1))) ∧
      (CoverBy N ps → all = true ∧ us = ps.map Petal.custs) := by
  have hr : ps.map (·.route) = (ps.map Petal.custs).map wrap := by
    rw [List.map_map]
    apply List.map_congr_left
    intro p hp
    exact (good_custs (hg p hp)).1
  obtain ⟨ms, us, all, h1, h2, h3, h4, h5, h6, h7, h8, h9⟩ := remove_multiserved_spec (N := N) (D := D)
    (us := ps.map Petal.custs) hN (by
      intro u hu
      obtain ⟨p, hp, rfl⟩ := List.mem_map.1 hu
      exact (good_custs (hg p hp)).2.2.2.1) (by
      intro u hu
      obtain ⟨p, hp, rfl⟩ := List.mem_map.1 hu
      exact (good_custs (hg p hp)).2.2.2.2.1)
  have hsub : ∀ u ∈ us, ∃ p ∈ ps, u.Sublist p.custs := by
    intro u hu
    obtain ⟨w, hw, hs⟩ := forall₂_sublist_mem h7 hu
    obtain ⟨p, hp, rfl⟩ := List.mem_map.1 hw
    exact ⟨p, hp, hs⟩
  have hrange : ∀ u ∈ us, ∀ n ∈ u, 1 ≤ n ∧ n < N := by
    intro u hu n hn
    obtain ⟨p, hp, hs⟩ := hsub u hu
    exact (good_custs (hg p hp)).2.2.2.2.1 n (hs.subset hn)
  have hfl : ∀ n ∈ us.flatten, 1 ≤ n ∧ n < N := by
    intro n hn
    obtain ⟨u, hu, hnu⟩ := List.mem_flatten.1 hn
    exact hrange u hu n hnu
  refine ⟨us, all, by rw [hr]; exact h1, ⟨h8, hrange, ?_⟩, ?_, ?_, ?_⟩
  · intro u hu
    obtain ⟨p, hp, hs⟩ := hsub u hu
    exact routeOk_sublist hd hT hs (good_custs (hg p hp)).2.2.2.2.2.1
  · rw [h7.length_eq, List.length_map]
  · intro ha
    rw [List.perm_ext_iff_of_nodup h8 List.nodup_range']
    intro n
    rw [List.mem_range'_1]
    constructor
    · intro hn
      have := hfl n hn
      omega
    · intro hn
      exact (h9 n).2 (h2.1 ha n (List.mem_range'_1.2 hn))
  · intro hc
    rw [coverBy_iff hg] at hc
    refine ⟨h2.2 fun n hn => hc.mem_iff.2 hn, ?_⟩
    have hms : ms = [] := by
      rw [List.eq_nil_iff_forall_not_mem]
      intro n hn
      have h10 := (h4 n).1 hn
      have := List.nodup_iff_count_le_one.1 (hc.nodup_iff.2 List.nodup_range') n
      omega
    subst hms
    exact h5

end Verif
