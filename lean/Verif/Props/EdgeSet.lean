import Verif.Lemmas.EdgeSet
import Verif.Props.CvrpOps

/-! # Property C73: the edges of a solution (`sol2edgeset`) -/

namespace Verif
open Spec

/-- C73. By default the set has exactly the steps of the solution, as they are driven. -/
theorem C73_directed_partial (sol : List ℕ) (x y : ℕ) : (x, y) ∈ sol2edgeset true sol ↔ Step sol x y := mem_edgeset_true

/-- C73. Without the flag every step is written from its smaller end to its larger end, and nothing else is in the set. -/
theorem C73_ordered_partial (sol : List ℕ) (x y : ℕ) : (x, y) ∈ sol2edgeset false sol ↔ x ≤ y ∧ (Step sol x y ∨ Step sol y x) := mem_edgeset_false

example : (3, 1) ∈ sol2edgeset true [0, 3, 1, 0, 2, 0] ∧ (1, 3) ∈ sol2edgeset false [0, 3, 1, 0, 2, 0] := by decide

/-- C73. The flag has the opposite meaning of the one documented: with it the two directions of a route give two different sets, without it they
give the same set. -/
theorem C73_flag_false : (∃ sol : List ℕ, Complete 3 sol ∧ (2, 1) ∈ sol2edgeset true sol ∧ sol2edgeset true sol ≠ sol2edgeset true sol.reverse) ∧
    ∀ sol : List ℕ, sol2edgeset false sol = sol2edgeset false sol.reverse := by
  refine ⟨⟨[0, 2, 1, 0], ⟨by decide, by unfold Covers; decide, by decide⟩, by decide, by decide⟩, fun sol => ?_⟩
  ext ⟨x, y⟩
  rw [mem_edgeset_false, mem_edgeset_false, step_reverse, step_reverse, or_comm (a := Step sol y x)]

theorem complete_good {N : ℕ} {s : List ℕ} (h : Complete N s) : GoodRoutes (blocks s) ∧ s = tour (blocks s) := by
  refine ⟨⟨fun b hb => (mem_blocks s b hb).1, fun b hb => (mem_blocks s b hb).2, ?_⟩, ?_⟩
  · rw [blocks_flatten]
    exact h.covers.nodup_iff.2 List.nodup_range'
  · rw [← squeeze_depotEnds h.ends, h.noEmpty]

theorem good_nodup_list {bs : List (List ℕ)} (h : GoodRoutes bs) : bs.Nodup := by
  have key : ∀ bs : List (List ℕ), (∀ b ∈ bs, b ≠ []) → bs.flatten.Nodup → bs.Nodup := by
    intro bs
    induction bs with
    | nil => intro _ _; exact List.nodup_nil
    | cons b bs ih =>
      intro hne hnd
      rw [List.flatten_cons, List.nodup_append] at hnd
      refine List.nodup_cons.2 ⟨fun hm => ?_, ih (fun c hc => hne c (by simp [hc])) hnd.2.1⟩
      obtain ⟨x, hx⟩ := List.exists_mem_of_ne_nil b (hne b (by simp))
      exact hnd.2.2 x hx x (List.mem_flatten.2 ⟨b, hm, hx⟩) rfl
  exact key bs h.ne h.nodup

theorem steps_sameRoutes {bs cs : List (List ℕ)} (h : List.Forall₂ (fun c b => c = b ∨ c = b.reverse) bs cs) (x y : ℕ) :
    (Step (tour bs) x y ∨ Step (tour bs) y x) ↔ (Step (tour cs) x y ∨ Step (tour cs) y x) := by
  have key : ∀ {bs cs : List (List ℕ)}, List.Forall₂ (fun c b => c = b ∨ c = b.reverse) bs cs → ∀ x y,
      Step (tour bs) x y → Step (tour cs) x y ∨ Step (tour cs) y x := by
    intro bs cs h x y hs
    obtain ⟨b, hb, hs⟩ := step_tour.1 hs
    obtain ⟨c, hc, hbc⟩ : ∃ c ∈ cs, b = c ∨ b = c.reverse := by
      clear hs
      revert hb
      clear * - h
      intro hb
      induction h with
      | nil => simp at hb
      | cons h1 _ ih =>
        rcases List.mem_cons.1 hb with rfl | hb
        · exact ⟨_, by simp, h1⟩
        · obtain ⟨c, hc, h2⟩ := ih hb
          exact ⟨c, by simp [hc], h2⟩
    rcases hbc with rfl | rfl
    · exact .inl (step_tour.2 ⟨_, hc, hs⟩)
    · refine .inr (step_tour.2 ⟨c, hc, ?_⟩)
      rw [← step_reverse]
      have : (wrap c).reverse = wrap c.reverse := by simp [wrap]
      rw [this]
      exact hs
  have hsym : List.Forall₂ (fun c b => c = b ∨ c = b.reverse) cs bs := by
    refine (List.Forall₂.flip h).imp ?_
    rintro a b (h | h)
    · exact .inl h.symm
    · exact .inr (by rw [h, List.reverse_reverse])
  exact ⟨fun h1 => h1.elim (key h x y) fun h2 => (key h y x h2).symm, fun h1 => h1.elim (key hsym x y) fun h2 => (key hsym y x h2).symm⟩

/-- C73. Two complete solutions of a problem have the same set of directed edges exactly when they have the same routes, driven in the same
direction, in any order. -/
theorem C73_routes_partial (N : ℕ) (s t : List ℕ) (hs : Complete N s) (ht : Complete N t) :
    sol2edgeset true s = sol2edgeset true t ↔ (blocks s).Perm (blocks t) := by
  obtain ⟨gs, es⟩ := complete_good hs
  obtain ⟨gt, et⟩ := complete_good ht
  constructor
  · intro h
    have h' : ∀ x y, Step (tour (blocks s)) x y ↔ Step (tour (blocks t)) x y := by
      intro x y
      rw [← es, ← et, ← mem_edgeset_true, ← mem_edgeset_true, h]
    exact (List.perm_ext_iff_of_nodup (good_nodup_list gs) (good_nodup_list gt)).2 fun b =>
      ⟨fun hb => same_sub gs gt h' hb, fun hb => same_sub gt gs (fun x y => (h' x y).symm) hb⟩
  · intro h
    rw [es, et]
    ext ⟨x, y⟩
    rw [mem_edgeset_true, mem_edgeset_true, step_tour, step_tour]
    simp only [h.mem_iff]

example : Complete 5 [0, 1, 2, 0, 4, 3, 0] ∧ Complete 5 [0, 4, 3, 0, 1, 2, 0] ∧
    (blocks [0, 1, 2, 0, 4, 3, 0]).Perm (blocks [0, 4, 3, 0, 1, 2, 0]) :=
  ⟨⟨by decide, by unfold Covers; decide, by decide⟩, ⟨by decide, by unfold Covers; decide, by decide⟩, by decide⟩

/-- C73. Two complete solutions of a problem have the same set of undirected edges exactly when they have the same routes up to the order of the
routes and the direction of each. -/
theorem C73_undirected_partial (N : ℕ) (s t : List ℕ) (hs : Complete N s) (ht : Complete N t) :
    sol2edgeset false s = sol2edgeset false t ↔ SameRoutes (blocks s) (blocks t) := by
  obtain ⟨gs, es⟩ := complete_good hs
  obtain ⟨gt, et⟩ := complete_good ht
  constructor
  · intro h
    have h' : ∀ x y, (Step (tour (blocks s)) x y ∨ Step (tour (blocks s)) y x) ↔ (Step (tour (blocks t)) x y ∨ Step (tour (blocks t)) y x) := by
      intro x y
      rw [← es, ← et]
      have h1 := @mem_edgeset_false s x y
      have h2 := @mem_edgeset_false s y x
      have h3 := @mem_edgeset_false t x y
      have h4 := @mem_edgeset_false t y x
      rw [h] at h1 h2
      rcases Nat.le_total x y with hxy | hxy
      · have := h1.symm.trans h3
        simpa [hxy] using this
      · have := h2.symm.trans h4
        have : (Step s y x ∨ Step s x y) ↔ (Step t y x ∨ Step t x y) := by simpa [hxy] using this
        rw [or_comm, this, or_comm]
    -- the routes of `t`, turned into the direction they have in `s`
    set f : List ℕ → List ℕ := fun b => if b ∈ blocks s then b else b.reverse with hf
    have hfm : ∀ b ∈ blocks t, f b ∈ blocks s := by
      intro b hb
      rcases nb_sub gt gs (fun x y => (h' x y).symm) hb with h1 | h1
      · simp only [hf, if_pos h1, h1]
      · by_cases h2 : b ∈ blocks s
        · simp only [hf, if_pos h2, h2]
        · simp only [hf, if_neg h2, h1]
    have hfx : ∀ b x, x ∈ f b ↔ x ∈ b := by
      intro b x
      simp only [hf]
      split
      · rfl
      · exact List.mem_reverse
    refine ⟨(blocks t).map f, ?_, ?_⟩
    · refine (List.perm_ext_iff_of_nodup ?_ (good_nodup_list gs)).2 fun c => ⟨fun hc => ?_, fun hc => ?_⟩
      · refine (good_nodup_list gt).map_on fun b hb c hc e => ?_
        obtain ⟨x, hx⟩ := List.exists_mem_of_ne_nil b (gt.ne b hb)
        exact good_unique gt hb hc hx ((hfx c x).1 (e ▸ (hfx b x).2 hx))
      · obtain ⟨b, hb, rfl⟩ := List.mem_map.1 hc
        exact hfm b hb
      · obtain ⟨x, hx⟩ := List.exists_mem_of_ne_nil c (gs.ne c hc)
        have hxt : x ∈ (blocks t).flatten := by
          rw [blocks_flatten]
          refine (hs.covers.trans ht.covers.symm).mem_iff.1 ?_
          rw [← blocks_flatten]
          exact List.mem_flatten.2 ⟨c, hc, hx⟩
        obtain ⟨b, hb, hxb⟩ := List.mem_flatten.1 hxt
        refine List.mem_map.2 ⟨b, hb, good_unique gs (hfm b hb) hc ((hfx b x).2 hxb) hx⟩
    · rw [List.forall₂_map_left_iff]
      refine List.forall₂_same.2 fun b _ => ?_
      simp only [hf]
      split
      · exact .inl rfl
      · exact .inr rfl
  · rintro ⟨cs, hp, h2⟩
    rw [es, et]
    ext ⟨x, y⟩
    rw [mem_edgeset_false, mem_edgeset_false, ← steps_sameRoutes h2]
    have : ∀ x y, Step (tour (blocks s)) x y ↔ Step (tour cs) x y := by
      intro x y
      rw [step_tour, step_tour]
      simp only [hp.mem_iff]
    rw [this, this]

/-- C73. So the undirected edges are compared just as the normalized solutions are. -/
theorem C73_normalized_partial (N : ℕ) (s t : List ℕ) (hs : Complete N s) (ht : Complete N t) :
    sol2edgeset false s = sol2edgeset false t ↔ normalize_solution s = normalize_solution t := by
  have hne : ∀ {u : List ℕ}, Complete N u → u ≠ [] := by
    rintro _ h rfl
    have := h.ends
    simp [DepotEnds] at this
  rw [C73_undirected_partial N s t hs ht, C08_canonical s t (hne hs) (hne ht) fun b hb => good_nodup (complete_good ht).1 hb]

/-- C73. The cost of a complete solution is the sum of the distances over its set of directed edges, whatever the distances are. -/
theorem C73_cost_partial (N : ℕ) (D : ℕ → ℕ → ℚ) (s : List ℕ) (hs : Complete N s) : ∑ e ∈ sol2edgeset true s, D e.1 e.2 = cost D s := by
  obtain ⟨gs, es⟩ := complete_good hs
  rw [es]
  exact sum_edges_tour D _ gs

/-- C73. A complete solution has as many directed edges as steps: none is lost in the set. -/
theorem C73_count_partial (N : ℕ) (s : List ℕ) (hs : Complete N s) : (sol2edgeset true s).card + 1 = s.length := by
  have h := C73_cost_partial N (fun _ _ => 1) s hs
  have key : ∀ l : List ℕ, l ≠ [] → cost (fun _ _ => (1 : ℚ)) l + 1 = l.length := by
    intro l
    induction l with
    | nil => intro h; exact absurd rfl h
    | cons a l ih =>
      intro _
      cases l with
      | nil => simp [cost]
      | cons b l =>
        have := ih (by simp)
        rw [cost, List.length_cons]
        push_cast
        rw [← this]
        ring
  have hne : s ≠ [] := by
    rintro rfl
    have := hs.ends
    simp [DepotEnds] at this
  have h2 := key s hne
  rw [← h] at h2
  simp only [Finset.sum_const, nsmul_eq_mul, mul_one] at h2
  exact_mod_cast h2

example : Complete 4 [0, 3, 1, 0, 2, 0] ∧ (sol2edgeset true [0, 3, 1, 0, 2, 0]).card = 5 := ⟨⟨by decide, by unfold Covers; decide, by decide⟩, by decide⟩

/-- C73. With the undirected edges a route with one customer is counted once: the sum is less than the cost, also for symmetric distances. -/
theorem C73_single_false : ∃ (D : ℕ → ℕ → ℚ) (s : List ℕ), (∀ i j, D i j = D j i) ∧ Complete 3 s ∧
    ∑ e ∈ sol2edgeset false s, D e.1 e.2 < cost D s ∧ (sol2edgeset false s).card + 1 < s.length :=
  ⟨fun i j => if i = j then 0 else 1, [0, 1, 0, 2, 0], fun i j => by simp only [eq_comm], ⟨by decide, by unfold Covers; decide, by decide⟩, by decide +kernel, by decide⟩

end Verif
