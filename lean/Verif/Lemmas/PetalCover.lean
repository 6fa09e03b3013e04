import Verif.Lemmas.PetalSol

/-! # Lemmas on the set covering phase of the petal algorithm -/

namespace Verif
open Spec

/-- The answer of the solver with the petals of a set. -/
def ptSolve (a : PtArgs) (s : PtState) (k t : ℕ) : ScpAnswer :=
  solve_set_covering a.opt a.rlx t a.N (ptActive a k) s.relaxed s.forbidden s.allow_infeasible s.K_constraint

theorem stage_spec (a : PtArgs) (s : PtState) (k : ℕ) (c : PtCov) (hc : c.stop = none) :
    (ptStage a s k c).ptl_set = k ∧ (∀ r ∈ c.seen, r ∈ (ptStage a s k c).seen) ∧
    (∀ p ∈ ptOwn a k, p.route ∈ (ptStage a s k c).seen) ∧
    (((ptStage a s k c).stop = none ∧ ∃ t, ptSolve a s k t =
        .ok (ptStage a s k c).routes_with_idxs (ptStage a s k c).feasible) ∨
     ((ptStage a s k c).stop = some true ∧ (∃ t, ptSolve a s k t = .interrupted) ∧
        (ptStage a s k c).routes_with_idxs = c.routes_with_idxs ∧ (ptStage a s k c).feasible = c.feasible) ∨
     ((ptStage a s k c).stop = some false ∧ (∃ t, ptSolve a s k t = .gurobiError) ∧
        (ptStage a s k c).routes_with_idxs = c.routes_with_idxs ∧ (ptStage a s k c).feasible = c.feasible)) := by
  have h : ptSolve a s k (c.calls + 1) = solve_set_covering a.opt a.rlx (c.calls + 1) a.N (ptActive a k)
    s.relaxed s.forbidden s.allow_infeasible s.K_constraint := rfl
  unfold ptStage
  simp only
  rw [← h]
  cases hs : ptSolve a s k (c.calls + 1) with
  | ok r f => exact ⟨rfl, by intro r hr; simp [hr], by intro p hp; simp; exact Or.inr ⟨p, hp, rfl⟩,
      Or.inl ⟨hc, _, hs⟩⟩
  | interrupted => exact ⟨rfl, by intro r hr; simp [hr], by intro p hp; simp; exact Or.inr ⟨p, hp, rfl⟩,
      Or.inr (Or.inl ⟨rfl, ⟨_, hs⟩, rfl, rfl⟩)⟩
  | gurobiError => exact ⟨rfl, by intro r hr; simp [hr], by intro p hp; simp; exact Or.inr ⟨p, hp, rfl⟩,
      Or.inr (Or.inr ⟨rfl, ⟨_, hs⟩, rfl, rfl⟩)⟩

/-- What holds after the set covering phase. -/
structure CovInv (a : PtArgs) (s : PtState) (c : PtCov) : Prop where
  set : 1 ≤ c.ptl_set ∧ c.ptl_set ≤ 3
  grow : s.ptl_set ≤ c.ptl_set
  seen : ∀ r ∈ s.seen, r ∈ c.seen
  found : c.routes_with_idxs ≠ [] → ∃ k t, 1 ≤ k ∧ k ≤ c.ptl_set ∧
    ptSolve a s k t = .ok c.routes_with_idxs c.feasible
  stopTrue : c.stop = some true → ∃ k t, ptSolve a s k t = .interrupted
  stopFalse : c.stop = some false → ∃ k t, ptSolve a s k t = .gurobiError
  clean : c.stop = some true → a.K.getD 0 ≠ 1 → c.routes_with_idxs = []

theorem CovInv.stage {a : PtArgs} {s : PtState} {c : PtCov} (h : CovInv a s c) {k : ℕ} (hk : 1 ≤ k ∧ k ≤ 3)
    (hkc : c.ptl_set ≤ k) (hs : c.stop = none) (hcl : a.K.getD 0 ≠ 1 → c.routes_with_idxs = [] ∨
      ∀ t, ptSolve a s k t ≠ .interrupted) :
    CovInv a s (ptStage a s k c) := by
  obtain ⟨h1, h2, h2', h3⟩ := stage_spec a s k c hs
  refine ⟨by rw [h1]; exact hk, by rw [h1]; exact h.grow.trans hkc, fun r hr => h2 r (h.seen r hr), ?_, ?_,
    ?_, ?_⟩
  · intro hne
    rw [h1]
    rcases h3 with ⟨h4, t, ht⟩ | ⟨h4, h5, h6, h7⟩ | ⟨h4, h5, h6, h7⟩
    · exact ⟨k, t, hk.1, le_refl _, ht⟩
    all_goals
      rw [h6, h7]
      rw [h6] at hne
      obtain ⟨k', t', h8, h9, h10⟩ := h.found hne
      exact ⟨k', t', h8, by omega, h10⟩
  · intro h9
    rcases h3 with ⟨h4, t, ht⟩ | ⟨h4, ⟨t, h5⟩, h6, h7⟩ | ⟨h4, ⟨t, h5⟩, h6, h7⟩
    · rw [h4] at h9; simp at h9
    · exact ⟨k, t, h5⟩
    · rw [h4] at h9; simp at h9
  · intro h9
    rcases h3 with ⟨h4, t, ht⟩ | ⟨h4, ⟨t, h5⟩, h6, h7⟩ | ⟨h4, ⟨t, h5⟩, h6, h7⟩
    · rw [h4] at h9; simp at h9
    · rw [h4] at h9; simp at h9
    · exact ⟨k, t, h5⟩
  · intro h9 hK
    rcases h3 with ⟨h4, t, ht⟩ | ⟨h4, ⟨t, h5⟩, h6, h7⟩ | ⟨h4, ⟨t, h5⟩, h6, h7⟩
    · rw [h4] at h9; simp at h9
    · rw [h6]
      rcases hcl hK with h | h
      · exact h
      · exact absurd h5 (h t)
    · rw [h4] at h9; simp at h9

theorem solve_empty (a : PtArgs) (s : PtState) (hs : 1 ≤ s.ptl_set ∧ s.ptl_set ≤ 3) :
    CovInv a s (ptCover a s) ∧ ((ptCover a s).stop = none →
      (∃ t, ptSolve a s (ptCover a s).ptl_set t =
        .ok (ptCover a s).routes_with_idxs (ptCover a s).feasible) ∧
      ((ptCover a s).routes_with_idxs = [] → (ptCover a s).ptl_set = 3)) := by
  unfold ptCover
  simp only
  generalize hc0 : PtCov.mk s.ptl_set [] false s.seen s.calls none = c0
  have i0 : CovInv a s c0 := by
    subst hc0
    exact ⟨hs, le_refl _, fun r hr => hr, fun h => absurd rfl h, by simp, by simp, by simp⟩
  have e0 : c0.stop = none ∧ c0.routes_with_idxs = [] ∧ c0.ptl_set = s.ptl_set := by
    subst hc0
    exact ⟨rfl, rfl, rfl⟩
  -- the first stage
  generalize hc1 : (if s.ptl_set = 1 ∧ a.restricted ≠ [] then ptStage a s 1 c0 else c0) = c1
  have i1 : CovInv a s c1 ∧ c1.ptl_set = s.ptl_set ∧ (c1.stop = none → c1.routes_with_idxs ≠ [] →
      c1.ptl_set = 1 ∧ ∃ t, ptSolve a s c1.ptl_set t = .ok c1.routes_with_idxs c1.feasible) := by
    subst hc1
    by_cases h : s.ptl_set = 1 ∧ a.restricted ≠ []
    · rw [if_pos h]
      obtain ⟨h1, h2, h2', h3⟩ := stage_spec a s 1 c0 e0.1
      refine ⟨i0.stage ⟨by omega, by omega⟩ (by rw [e0.2.2]; omega) e0.1 fun _ => Or.inl e0.2.1,
        by rw [h1, h.1], ?_⟩
      intro h4 h5
      rw [h1]
      rcases h3 with ⟨h6, t, ht⟩ | ⟨h6, _⟩ | ⟨h6, _⟩
      · exact ⟨rfl, t, ht⟩
      · rw [h6] at h4; simp at h4
      · rw [h6] at h4; simp at h4
    · rw [if_neg h]
      exact ⟨i0, e0.2.2, fun _ h => absurd e0.2.1 h⟩
  obtain ⟨i1, e1, s1⟩ := i1
  -- the second stage
  generalize hc2 : (if c1.stop = none ∧ ((c1.routes_with_idxs = [] ∧ c1.ptl_set = 1) ∨ c1.ptl_set = 2) then
    ptStage a s 2 c1 else c1) = c2
  have i2 : CovInv a s c2 ∧ (c2.stop = none → c2.ptl_set ≠ 3 →
      (∃ t, ptSolve a s c2.ptl_set t = .ok c2.routes_with_idxs c2.feasible)) := by
    subst hc2
    by_cases h : c1.stop = none ∧ ((c1.routes_with_idxs = [] ∧ c1.ptl_set = 1) ∨ c1.ptl_set = 2)
    · rw [if_pos h]
      obtain ⟨h1, h2, h2', h3⟩ := stage_spec a s 2 c1 h.1
      have hemp : c1.routes_with_idxs = [] := by
        rcases h.2 with ⟨h, _⟩ | h'
        · exact h
        · by_contra hne
          have := (s1 h.1 hne).1
          omega
      refine ⟨i1.stage ⟨by omega, by omega⟩ (by omega) h.1 fun _ => Or.inl hemp, ?_⟩
      intro h4 _
      rw [h1]
      rcases h3 with ⟨h6, t, ht⟩ | ⟨h6, _⟩ | ⟨h6, _⟩
      · exact ⟨t, ht⟩
      · rw [h6] at h4; simp at h4
      · rw [h6] at h4; simp at h4
    · rw [if_neg h]
      refine ⟨i1, fun h1 h3 => ?_⟩
      have hset := i1.set
      have : c1.ptl_set = 1 := by
        by_contra hne
        exact h ⟨h1, Or.inr (by omega)⟩
      have hne : c1.routes_with_idxs ≠ [] := fun he => h ⟨h1, Or.inl ⟨he, this⟩⟩
      exact (s1 h1 hne).2
  obtain ⟨i2, s2⟩ := i2
  have hemp3 : c2.stop = none → c2.ptl_set = 3 → c2.routes_with_idxs = [] := by
    intro h1 h3
    subst hc2
    by_cases h : c1.stop = none ∧ ((c1.routes_with_idxs = [] ∧ c1.ptl_set = 1) ∨ c1.ptl_set = 2)
    · rw [if_pos h] at h3
      have := (stage_spec a s 2 c1 h.1).1
      omega
    · rw [if_neg h] at h1 h3 ⊢
      by_contra hne
      have := (s1 h1 hne).1
      omega
  -- the third stage
  by_cases h : c2.stop = none ∧ (c2.routes_with_idxs = [] ∨ (ptTrue a.K = true ∧ a.K.getD 0 < 2) ∨ c2.ptl_set = 3)
  · rw [if_pos h]
    obtain ⟨h1, h2, h2', h3⟩ := stage_spec a s 3 c2 h.1
    refine ⟨i2.stage ⟨by omega, by omega⟩ i2.set.2 h.1 ?_, ?_⟩
    · intro hK
      refine Or.inl ?_
      rcases h.2 with h4 | ⟨h4, h5⟩ | h4
      · exact h4
      · unfold ptTrue at h4
        have := of_decide_eq_true h4
        omega
      · exact hemp3 h.1 h4
    · intro h4
      rw [h1]
      rcases h3 with ⟨h6, t, ht⟩ | ⟨h6, _⟩ | ⟨h6, _⟩
      · exact ⟨⟨t, ht⟩, fun _ => rfl⟩
      · rw [h6] at h4; simp at h4
      · rw [h6] at h4; simp at h4
  · rw [if_neg h]
    refine ⟨i2, fun h1 => ?_⟩
    have hne : c2.routes_with_idxs ≠ [] := fun he => h ⟨h1, Or.inl he⟩
    have h3 : c2.ptl_set ≠ 3 := fun he => h ⟨h1, Or.inr (Or.inr he)⟩
    exact ⟨s2 h1 h3, fun he => absurd he hne⟩

theorem ptActive_prefix (a : PtArgs) (k : ℕ) : ptActive a k <+: ptActive a 3 := by
  unfold ptActive
  by_cases h1 : k = 1
  · simp [h1, List.append_assoc]
  · by_cases h2 : k = 2
    · simp [h2]
    · simp [h1, h2]

/-- What the answers of the solver tell. -/
theorem ptSolve_cases {a : PtArgs} {s : PtState} {k t : ℕ} {r : List (List ℕ × ℤ)} {f : Bool}
    (h : ptSolve a s k t = .ok r f) :
    (r = [] ∧ f = false ∧ (a.opt t (ptModel a.N (ptActive a k) s.relaxed s.forbidden s.K_constraint) = .infeasible ∨
      a.opt t (ptModel a.N (ptActive a k) s.relaxed s.forbidden s.K_constraint) = .other)) ∨
    ∃ X, r = ptChosen (ptActive a k) s.relaxed X ∧
      ((f = true ∧ a.opt t (ptModel a.N (ptActive a k) s.relaxed s.forbidden s.K_constraint) = .optimal X) ∨
       (f = false ∧ s.allow_infeasible = true ∧
        a.opt t (ptModel a.N (ptActive a k) s.relaxed s.forbidden s.K_constraint) = .infeasible)) := by
  unfold ptSolve solve_set_covering at h
  cases ho : a.opt t (ptModel a.N (ptActive a k) s.relaxed s.forbidden s.K_constraint) with
  | optimal X =>
    rw [ho] at h
    simp only [ScpAnswer.ok.injEq] at h
    exact Or.inr ⟨X, h.1.symm, Or.inl ⟨h.2.symm, rfl⟩⟩
  | timeLimit => rw [ho] at h; simp at h
  | interrupted => rw [ho] at h; simp at h
  | other =>
    rw [ho] at h
    simp only [ScpAnswer.ok.injEq] at h
    exact Or.inl ⟨h.1.symm, h.2.symm, Or.inr rfl⟩
  | infeasible =>
    rw [ho] at h
    simp only at h
    by_cases ha : s.allow_infeasible = true
    · rw [if_pos ha] at h
      cases hr : a.rlx t (ptModel a.N (ptActive a k) s.relaxed s.forbidden s.K_constraint) with
      | optimal X =>
        rw [hr] at h
        simp only [ScpAnswer.ok.injEq] at h
        exact Or.inr ⟨X, h.1.symm, Or.inr ⟨h.2.symm, ha, rfl⟩⟩
      | timeLimit => rw [hr] at h; simp at h
      | interrupted => rw [hr] at h; simp at h
      | infeasible =>
        rw [hr] at h
        simp only [ScpAnswer.ok.injEq] at h
        exact Or.inl ⟨h.1.symm, h.2.symm, Or.inl rfl⟩
      | other =>
        rw [hr] at h
        simp only [ScpAnswer.ok.injEq] at h
        exact Or.inl ⟨h.1.symm, h.2.symm, Or.inl rfl⟩
    · rw [if_neg ha] at h
      simp only [ScpAnswer.ok.injEq] at h
      exact Or.inl ⟨h.1.symm, h.2.symm, Or.inl rfl⟩

end Verif
