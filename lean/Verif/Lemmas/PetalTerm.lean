import Verif.Lemmas.PetalEnd
import Mathlib.Data.List.Permutation
import Mathlib.Data.List.Sublists

/-! # Termination of the petal algorithm without a bound on the number of routes -/

namespace Verif
open Spec

variable {a : PtArgs} {d : ℕ → ℚ} {C L : Option ℚ} {allow0 : Bool} {K0 : Option ℕ}

theorem update_keep (s : PtState) (sol : List ℕ) (f : ℚ) (k : ℕ) (feas : Bool) (hK : ptTrue s.K_constraint = false)
    (h3 : s.ptl_set ≤ 3) : s.ptl_set ≤ (ptUpdate a s sol f k feas).1.ptl_set ∧
      (ptUpdate a s sol f k feas).1.forbidden = s.forbidden := by
  unfold ptUpdate
  simp only
  split_ifs with h1 h2 h4 h5 h6
  · exact ⟨le_refl _, rfl⟩
  · exact ⟨by simp [h2], rfl⟩
  · exact ⟨h3, rfl⟩
  · rw [hK] at h5
    simp at h5
  · exact ⟨le_refl _, rfl⟩
  · exact ⟨le_refl _, rfl⟩

theorem store_keep : ∀ {rds : List RouteData} {s s' : PtState}, ptStore s rds = .ok s' →
    s'.ptl_set = s.ptl_set ∧ s'.forbidden = s.forbidden
  | [], s, s', h => by
    unfold ptStore at h
    cases h
    exact ⟨rfl, rfl⟩
  | rd :: rds, s, s', h => by
    unfold ptStore at h
    split at h
    · cases h
    · cases h
    · split_ifs at h with hc
      · obtain ⟨h1, h2⟩ := store_keep h
        exact ⟨h1, h2⟩
      · exact store_keep h

/-- An iteration that does not end the loop finds a new combination or turns to a larger set. -/
theorem iter_progress {s s' : PtState} (hK : ptTrue s.K_constraint = false)
    (hset : 1 ≤ s.ptl_set ∧ s.ptl_set ≤ 3) (h : ptIter a s = .ok (.inl s')) :
    (s.ptl_set ≤ s'.ptl_set ∧ ∃ idxs, idxs ∉ s.forbidden ∧ s'.forbidden = s.forbidden ++ [idxs]) ∨
    (s'.forbidden = s.forbidden ∧ s.ptl_set < s'.ptl_set) := by
  obtain ⟨hc, _⟩ := solve_empty a s hset
  unfold ptIter at h
  simp only at h
  generalize ptCover a s = c at hc h
  by_cases c1 : c.stop = some false
  · rw [if_pos c1] at h
    cases h
  rw [if_neg c1] at h
  obtain ⟨s1, hs1⟩ : ∃ s1 : PtState, s1 = { s with
    ptl_set := c.ptl_set, seen := c.seen, calls := c.calls, iteration := s.iteration + 1
    max_used := if c.stop = some true then s.max_used else max s.max_used c.ptl_set } := ⟨_, rfl⟩
  rw [← hs1] at h
  have e1 : s1.forbidden = s.forbidden ∧ s.ptl_set ≤ s1.ptl_set ∧ s1.ptl_set ≤ 3 ∧ ptTrue s1.K_constraint = false := by
    subst hs1
    exact ⟨rfl, hc.grow, hc.set.2, hK⟩
  have hfound : ∀ (s2 : PtState) (routes : List (List ℕ)) (idxs : List ℤ) (i f : Bool), s2.forbidden = s1.forbidden →
      s2.ptl_set = s1.ptl_set → s2.K_constraint = s1.K_constraint → idxs ∉ s1.forbidden →
      ptFound a i s2 routes idxs f = .ok (.inl s') →
      s.ptl_set ≤ s'.ptl_set ∧ ∃ idxs, idxs ∉ s.forbidden ∧ s'.forbidden = s.forbidden ++ [idxs] := by
    intro s2 routes idxs i f q1 q2 q3 q4 q5
    unfold ptFound at q5
    simp only at q5
    obtain ⟨g1, g2⟩ := update_keep (a := a) { s2 with forbidden := s2.forbidden ++ [idxs] }
      ((routes2sol routes).getD []) (objf ((routes2sol routes).getD []) a.D)
      (((routes2sol routes).getD []).count 0 - 1) f (by rw [← q3] at e1; exact e1.2.2.2) (by
        rw [← q2] at e1
        exact e1.2.2.1)
    generalize ptUpdate a { s2 with forbidden := s2.forbidden ++ [idxs] } ((routes2sol routes).getD [])
      (objf ((routes2sol routes).getD []) a.D) (((routes2sol routes).getD []).count 0 - 1) f = u at g1 g2 q5
    split_ifs at q5 with w1 w2 w3 w4
    any_goals cases q5
    unfold ptImprove at q5
    have hk : s'.ptl_set = u.1.ptl_set ∧ s'.forbidden = u.1.forbidden := by
      split_ifs at q5
      · cases hg : a.gen routes with
        | error e => rw [hg] at q5; cases q5
        | ok rds =>
          rw [hg] at q5
          simp only at q5
          cases hst : ptStore u.1 rds with
          | error e => rw [hst] at q5; cases q5
          | ok s3 =>
            rw [hst] at q5
            cases q5
            exact store_keep hst
      · cases q5
        exact ⟨rfl, rfl⟩
    rw [hk.1, hk.2, g2]
    refine ⟨?_, idxs, by rw [← e1.1]; exact q4, by rw [← e1.1, ← q1]⟩
    have : s2.ptl_set ≤ u.1.ptl_set := g1
    rw [q2] at this
    omega
  unfold ptAfter at h
  simp only at h
  split_ifs at h with c2 c3 c4
  · cases h
  · right
    unfold ptMissing at h
    cases hn : ptNone s1 with
    | inr b => rw [hn] at h; cases h
    | inl s2 =>
      rw [hn] at h
      simp only at h
      split_ifs at h with hi
      all_goals cases h
      unfold ptNone at hn
      split_ifs at hn with q1 q2 q3
      · cases hn
        exact ⟨e1.1, by show s.ptl_set < 2; omega⟩
      · cases hn
        exact ⟨e1.1, by show s.ptl_set < 3; omega⟩
      · rw [e1.2.2.2] at q3
        simp at q3
  · push Not at c3
    left
    cases hm : remove_multiserved a.N a.D (c.routes_with_idxs.map (·.1)) with
    | error e => rw [hm] at h; cases h
    | ok r =>
      rw [hm] at h
      exact hfound s1 _ _ _ _ rfl rfl rfl c3.2 h
  · push Not at c3
    left
    exact hfound { s1 with allow_infeasible := false } _ _ _ _ rfl rfl rfl c3.2 h

/-- All the lists without repetition whose members are in a list. -/
def nodupLists {α : Type} (l : List α) : List (List α) := l.sublists.flatMap List.permutations

theorem mem_nodupLists {α : Type} {l u : List α} (hn : u.Nodup) (h : ∀ x ∈ u, x ∈ l) : u ∈ nodupLists l := by
  obtain ⟨v, hv, hs⟩ := (hn.subperm h)
  unfold nodupLists
  rw [List.mem_flatMap]
  exact ⟨v, List.mem_sublists.2 hs, List.mem_permutations.2 hv.symm⟩

/-- The number of relaxed petals is bounded. -/
theorem relaxed_bound {s : PtState} (hs : PtInv a d C L allow0 K0 s) :
    s.relaxed.length ≤ ((nodupLists (List.range a.N)).map wrap).length := by
  rw [← List.length_map (f := fun p : Petal => p.route)]
  refine (hs.fresh.1.subperm ?_).length_le
  intro r hr
  obtain ⟨p, hp, rfl⟩ := List.mem_map.1 hr
  have := good_custs (hs.good p hp)
  rw [this.1]
  exact List.mem_map_of_mem (mem_nodupLists this.2.2.2.1 fun n hn => List.mem_range.2 (this.2.2.2.2.1 n hn).2)

/-- The indices of petals. -/
def ptIndices (a : PtArgs) : List ℤ :=
  (List.range (ptActive a 3).length).map (fun j : ℕ => (j : ℤ)) ++
    (List.range ((nodupLists (List.range a.N)).map wrap).length).map fun j : ℕ => -(j : ℤ) - 1

theorem valid_index {s : PtState} (hs : PtInv a d C L allow0 K0 s) {i : ℤ}
    (hi : (ptAt (ptActive a 3) s.relaxed i).isSome) : i ∈ ptIndices a := by
  unfold ptIndices
  unfold ptAt at hi
  have hb := relaxed_bound hs
  rw [List.mem_append, List.mem_map, List.mem_map]
  by_cases h0 : 0 ≤ i
  · rw [if_pos h0] at hi
    left
    refine ⟨i.toNat, List.mem_range.2 ?_, by omega⟩
    by_contra hlt
    rw [List.getElem?_eq_none (by omega)] at hi
    simp at hi
  · rw [if_neg h0] at hi
    right
    refine ⟨(-i - 1).toNat, List.mem_range.2 ?_, by omega⟩
    by_contra hlt
    rw [List.getElem?_eq_none (by omega)] at hi
    simp at hi

theorem forbidden_bound {s : PtState} (hs : PtInv a d C L allow0 K0 s) (hn : s.forbidden.Nodup) :
    s.forbidden.length ≤ (nodupLists (ptIndices a)).length := by
  refine (hn.subperm ?_).length_le
  intro fc hfc
  obtain ⟨h1, h2⟩ := hs.forb fc hfc
  exact mem_nodupLists h1 fun i hi => valid_index hs (h2 i hi)

theorem loop_ends (hp : PtHyp a d C L allow0) (hK : ptTrue K0 = false) : ∀ (fuel : ℕ) {s : PtState},
    PtInv a d C L allow0 K0 s → s.forbidden.Nodup →
    ((nodupLists (ptIndices a)).length - s.forbidden.length) * 4 + (4 - s.ptl_set) < fuel →
    ∃ r, ptLoop a fuel s = .ok (some r)
  | 0, s, _, _, h => by omega
  | fuel + 1, s, hs, hn, h => by
    obtain ⟨x, h1, h2, h3⟩ := iter_spec hp hs
    unfold ptLoop
    rw [h1]
    cases x with
    | inr r => exact ⟨r, rfl⟩
    | inl s' =>
      have i' := h2 s' rfl
      have hKs : ptTrue s.K_constraint = false := by rw [hs.K.1 hK]; exact hK
      have hset := hs.set
      have hset' := i'.set
      have hpr := iter_progress hKs hs.set h1
      have hn' : s'.forbidden.Nodup := by
        rcases hpr with ⟨_, idxs, q1, q2⟩ | ⟨q1, _⟩
        · rw [q2, List.nodup_append]
          refine ⟨hn, by simp, ?_⟩
          intro x hx y hy
          rw [List.mem_singleton] at hy
          subst hy
          rintro rfl
          exact q1 hx
        · rw [q1]
          exact hn
      have hb := forbidden_bound i' hn'
      refine loop_ends hp hK fuel i' hn' ?_
      rcases hpr with ⟨q0, idxs, q1, q2⟩ | ⟨q1, q2⟩
      · rw [q2, List.length_append, List.length_singleton] at hb ⊢
        omega
      · rw [q1] at hb ⊢
        omega

theorem loop_fuel : ∀ (fuel : ℕ) {s : PtState} {r : PtEnd}, ptLoop a fuel s = .ok (some r) → ∀ m,
    ptLoop a (fuel + m) s = .ok (some r)
  | 0, s, r, h, m => by
    unfold ptLoop at h
    cases h
  | fuel + 1, s, r, h, m => by
    rw [Nat.add_right_comm]
    unfold ptLoop at h ⊢
    cases hi : ptIter a s with
    | error e => rw [hi] at h; cases h
    | ok x =>
      rw [hi] at h
      cases x with
      | inr r' => exact h
      | inl s' => exact loop_fuel fuel h m

end Verif
