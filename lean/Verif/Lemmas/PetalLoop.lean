import Verif.Lemmas.PetalCover

/-! # Lemmas on the main loop of the petal algorithm -/

namespace Verif
open Spec

/-- The sum of the costs of petals. -/
def petalsCost (ps : List Petal) : ℚ := (ps.map (·.cost)).sum

/-- The invariant of the main loop. -/
structure PtInv (a : PtArgs) (d : ℕ → ℚ) (C L : Option ℚ) (allow0 : Bool) (K0 : Option ℕ) (s : PtState) :
    Prop where
  set : 1 ≤ s.ptl_set ∧ s.ptl_set ≤ 3
  good : ∀ p ∈ s.relaxed, GoodPetal a.N a.D d C L p
  forb : ∀ fc ∈ s.forbidden, fc.Nodup ∧ ∀ i ∈ fc, (ptAt (ptActive a 3) s.relaxed i).isSome
  forbBest : ∀ fc ∈ s.forbidden, CoverBy a.N (petalsOf (ptActive a 3) s.relaxed fc) →
    s.best_feasible = true ∧ (a.minimize_K = false →
      ∃ bf, s.best_f = some bf ∧ bf ≤ petalsCost (petalsOf (ptActive a 3) s.relaxed fc))
  noBest : s.best = none → s.best_feasible = false ∧ s.best_f = none
  best : ∀ sol, s.best = some sol → ∃ us, sol = tour us ∧ PartSol a.N a.D d C L us ∧
    s.best_f = some (cost a.D sol) ∧
    (s.best_feasible = true → us.flatten.Perm (List.range' 1 (a.N - 1))) ∧ (allow0 = false → [] ∉ us)
  allow : s.allow_infeasible = true → allow0 = true
  cnt : s.cnt = a.restricted.length + a.reduced.length + a.extended.length + s.relaxed.length
  fresh : (s.relaxed.map (·.route)).Nodup ∧ ∀ p ∈ s.relaxed, p.route ∈ s.seen
  noRelax : a.relaxe = false → s.relaxed = []
  K : (ptTrue K0 = false → s.K_constraint = K0) ∧
    (ptTrue K0 = true → ptTrue s.K_constraint = true ∧ K0.getD 0 ≤ s.K_constraint.getD 0)

variable {a : PtArgs} {d : ℕ → ℚ} {C L : Option ℚ} {allow0 : Bool} {K0 : Option ℕ}

theorem ptStart_inv : PtInv a d C L allow0 K0 (ptStart a allow0 K0) :=
  ⟨⟨le_refl _, by simp [ptStart]⟩, by simp [ptStart], by simp [ptStart], by simp [ptStart], fun _ => ⟨rfl, rfl⟩,
    by simp [ptStart], fun h => h, by simp [ptStart], by simp [ptStart], fun _ => rfl,
    ⟨fun _ => rfl, fun h => ⟨h, le_refl _⟩⟩⟩

theorem active_good (hp : PtHyp a d C L allow0) (k : ℕ) : ∀ p ∈ ptActive a k, GoodPetal a.N a.D d C L p :=
  fun p h => hp.good p ((ptActive_prefix a k).subset h)

/-- The petals chosen by the solver. -/
theorem solve_found {s : PtState} (hp : PtHyp a d C L allow0) (hs : PtInv a d C L allow0 K0 s) {k t : ℕ}
    {r : List (List ℕ × ℤ)} {f : Bool} (h : ptSolve a s k t = .ok r f) :
    ∃ S : List (Petal × ℤ), r = S.map (fun e => (e.1.route, e.2)) ∧
      (∀ p ∈ S.map (·.1), GoodPetal a.N a.D d C L p) ∧ (S.map (·.2)).Nodup ∧
      (∀ i ∈ S.map (·.2), (ptAt (ptActive a 3) s.relaxed i).isSome) ∧
      petalsOf (ptActive a 3) s.relaxed (S.map (·.2)) = S.map (·.1) ∧
      (f = true → CoverBy a.N (S.map (·.1))) ∧ (r ≠ [] → f = false → s.allow_infeasible = true) := by
  rcases ptSolve_cases h with ⟨rfl, rfl, _⟩ | ⟨X, rfl, hX⟩
  · exact ⟨[], rfl, by simp, by simp, by simp, rfl, by simp, by simp⟩
  · obtain ⟨h1, h2, h3⟩ := chosen_spec (relaxed := s.relaxed) (ptActive_prefix a k) X
    refine ⟨chosenOf (ptActive a k) s.relaxed X, ptChosen_eq _ _ _, ?_, h1, fun i hi => (h2 i hi).1, h3, ?_, ?_⟩
    · intro p hpm
      have : (chosenOf (ptActive a k) s.relaxed X).map (·.1) = pick (ptActive a k ++ s.relaxed) X := by
        rw [← entries_fst, pick_map]
        rfl
      rw [this] at hpm
      rcases List.mem_append.1 ((pick_sublist _ _).subset hpm) with h | h
      · exact active_good hp k p h
      · exact hs.good p h
    · intro hf
      rcases hX with ⟨_, hX⟩ | ⟨hX, _⟩
      · have := hp.opt t (ptModel a.N (ptActive a k) s.relaxed s.forbidden s.K_constraint)
        rw [hX] at this
        exact (sat_iff.1 this.1).2.1
      · rw [hX] at hf; simp at hf
    · intro _ hf
      rcases hX with ⟨hX, _⟩ | ⟨_, hX, _⟩
      · rw [hX] at hf; simp at hf
      · exact hX

/-- A solution made of petals is forbidden or not cheaper than the one of the solver. -/
theorem solve_bound {s : PtState} (hp : PtHyp a d C L allow0) {k t : ℕ} {r : List (List ℕ × ℤ)} {f : Bool}
    (h : ptSolve a s k t = .ok r f) {vs : List (List ℕ)}
    (hvs : PetalCover a.N (ptActive a k) vs) (hK : 0 < s.K_constraint.getD 0 → vs.length ≤ s.K_constraint.getD 0) :
    (∃ fc ∈ s.forbidden, CoverBy a.N (petalsOf (ptActive a 3) s.relaxed fc) ∧
      petalsCost (petalsOf (ptActive a 3) s.relaxed fc) = cost a.D (tour vs)) ∨
    ∃ ids, r.map (·.2) = ids ∧ CoverBy a.N (petalsOf (ptActive a 3) s.relaxed ids) ∧
      petalsCost (petalsOf (ptActive a 3) s.relaxed ids) ≤ cost a.D (tour vs) := by
  have hg := active_good hp k
  obtain ⟨X, hX1, hX2⟩ := choose_petals hg (cover_routes hg hvs) hvs.1
  have hgX : ∀ p ∈ pick (ptActive a k) X, GoodPetal a.N a.D d C L p := fun p h => hg p ((pick_sublist _ _).subset h)
  have hcX : CoverBy a.N (pick (ptActive a k) X) := by
    rw [coverBy_iff hgX]
    exact hX2.flatten.trans hvs.2
  have hkX : petalsCost (pick (ptActive a k) X) = cost a.D (tour vs) := by
    unfold petalsCost
    rw [cost_custs hgX, cost_tour_sum, cost_tour_sum]
    exact (hX2.map _).sum_eq
  have hY : (chosenOf (ptActive a k) s.relaxed (X ++ List.replicate s.relaxed.length false)).map (·.1) =
      pick (ptActive a k) X := by
    have : ∀ Z, (chosenOf (ptActive a k) s.relaxed Z).map (·.1) = pick (ptActive a k ++ s.relaxed) Z := by
      intro Z
      rw [← entries_fst, pick_map]
      rfl
    rw [this, pick_append _ _ _ _ hX1, pick_false, List.append_nil]
  generalize hZ : X ++ List.replicate s.relaxed.length false = Y at hY
  have hlY : Y.length = (ptActive a k ++ s.relaxed).length := by
    rw [← hZ]
    simp [hX1]
  obtain ⟨h1, h2, h3⟩ := chosen_spec (relaxed := s.relaxed) (ptActive_prefix a k) Y
  by_cases hsat : (ptModel a.N (ptActive a k) s.relaxed s.forbidden s.K_constraint).Sat Y
  · right
    have ho := hp.opt t (ptModel a.N (ptActive a k) s.relaxed s.forbidden s.K_constraint)
    rcases ptSolve_cases h with ⟨_, _, hX | hX⟩ | ⟨Z, rfl, ⟨_, hX⟩ | ⟨_, _, hX⟩⟩
    · rw [hX] at ho; exact absurd hsat (ho Y)
    · rw [hX] at ho; exact absurd ho id
    · rw [hX] at ho
      obtain ⟨hs1, hs2⟩ := ho
      have hle := hs2 Y hsat
      rw [objective_eq, objective_eq, hY] at hle
      obtain ⟨_, _, h6⟩ := chosen_spec (relaxed := s.relaxed) (ptActive_prefix a k) Z
      refine ⟨_, rfl, ?_, ?_⟩
      · rw [ptChosen_eq, List.map_map]
        show CoverBy a.N (petalsOf _ _ ((chosenOf (ptActive a k) s.relaxed Z).map (·.2)))
        rw [h6]
        exact (sat_iff.1 hs1).2.1
      · rw [ptChosen_eq, List.map_map]
        show petalsCost (petalsOf _ _ ((chosenOf (ptActive a k) s.relaxed Z).map (·.2))) ≤ _
        rw [h6, ← hkX]
        exact hle
    · rw [hX] at ho; exact absurd hsat (ho Y)
  · left
    rw [sat_iff] at hsat
    have : ¬ ∀ fc ∈ s.forbidden, (∀ i ∈ fc, i < ((ptActive a k).length : ℤ)) →
        ¬ ((chosenOf (ptActive a k) s.relaxed Y).map (·.2)).Perm fc := by
      intro hno
      refine hsat ⟨hlY, by rw [hY]; exact hcX, hno, fun h0 => ?_⟩
      have : (chosenOf (ptActive a k) s.relaxed Y).length = vs.length := by
        have e : ((chosenOf (ptActive a k) s.relaxed Y).map (·.1)).length = (pick (ptActive a k) X).length := by rw [hY]
        rw [List.length_map] at e
        rw [e, ← List.length_map (f := Petal.custs), hX2.length_eq]
      rw [this]
      exact hK h0
    push Not at this
    obtain ⟨fc, hfc, _, hperm⟩ := this
    have hpp : (petalsOf (ptActive a 3) s.relaxed fc).Perm (pick (ptActive a k) X) := by
      rw [← hY, ← h3]
      exact (hperm.filterMap _).symm
    refine ⟨fc, hfc, hcX.perm hpp.symm, ?_⟩
    rw [← hkX]
    exact (hpp.map _).sum_eq

/-- What the best solution is worth when the loop is left. -/
theorem bound_best {s u : PtState} (hp : PtHyp a d C L allow0) (hu : PtInv a d C L allow0 K0 u)
    (hN : 2 ≤ a.N) {k t : ℕ} {r : List (List ℕ × ℤ)} {f : Bool} (h : ptSolve a s k t = .ok r f)
    (hrel : u.relaxed = s.relaxed) (hf : ∀ fc ∈ s.forbidden, fc ∈ u.forbidden)
    (hr : r ≠ [] → r.map (·.2) ∈ u.forbidden) {vs : List (List ℕ)} (hvs : PetalCover a.N (ptActive a k) vs)
    (hK : 0 < s.K_constraint.getD 0 → vs.length ≤ s.K_constraint.getD 0) :
    u.best_feasible = true ∧ (a.minimize_K = false → ∃ bf, u.best_f = some bf ∧ bf ≤ cost a.D (tour vs)) := by
  rcases solve_bound hp h hvs hK with ⟨fc, hfc, h1, h2⟩ | ⟨ids, rfl, h1, h2⟩
  · rw [← hrel] at h1 h2
    obtain ⟨h3, h4⟩ := hu.forbBest fc (hf fc hfc) h1
    exact ⟨h3, fun hm => by rw [← h2]; exact h4 hm⟩
  · have hne : r ≠ [] := by
      rintro rfl
      have := h1 1 (le_refl _) (by omega)
      simp [petalsOf] at this
    rw [← hrel] at h1 h2
    obtain ⟨h3, h4⟩ := hu.forbBest _ (hr hne) h1
    refine ⟨h3, fun hm => ?_⟩
    obtain ⟨bf, h5, h6⟩ := h4 hm
    exact ⟨bf, h5, h6.trans h2⟩

/-- Whether a new solution is stored when the number of routes does not count. -/
theorem not_better {s : PtState} {f bf : ℚ} {k : ℕ} (hb : s.best_f = some bf) :
    (ptBetterOrSame s false f k = true → f ≤ bf) ∧ (ptBetterOrSame s false f k = false → bf ≤ f) := by
  unfold ptBetterOrSame
  rw [hb]
  simp only [is_better_sol]
  constructor
  · intro h
    simp at h
    rcases h with h | ⟨_, h⟩
    · exact h.le
    · exact h.le
  · intro h
    simp at h
    exact h.1

/-- The invariant after a solution was looked at. -/
theorem update_inv {s : PtState} (hs : PtInv a d C L allow0 K0 s) {us : List (List ℕ)}
    (hus : PartSol a.N a.D d C L us) (hne : allow0 = false → [] ∉ us) {feas : Bool}
    (hfeas : feas = true → us.flatten.Perm (List.range' 1 (a.N - 1))) {idxs : List ℤ} (hnd : idxs.Nodup)
    (hval : ∀ i ∈ idxs, (ptAt (ptActive a 3) s.relaxed i).isSome)
    (hcov : CoverBy a.N (petalsOf (ptActive a 3) s.relaxed idxs) →
      feas = true ∧ cost a.D (tour us) = petalsCost (petalsOf (ptActive a 3) s.relaxed idxs)) (k : ℕ) :
    let s1 := { s with forbidden := s.forbidden ++ [idxs] }
    let u := ptUpdate a s1 (tour us) (cost a.D (tour us)) k feas
    PtInv a d C L allow0 K0 u.1 ∧ u.1.relaxed = s.relaxed ∧ u.1.forbidden = s.forbidden ++ [idxs] ∧
      (u.2 = true → u.1 = s1 ∧ a.required = none ∧ s.ptl_set ≠ 1 ∧
        (s.ptl_set = 2 → s.best_feasible = true ∧ 10000 < s.cnt) ∧
        (s.best_feasible = true ∨ ptTrue s.K_constraint = false)) := by
  intro s1 u
  have hforb : ∀ fc ∈ s1.forbidden, fc.Nodup ∧ ∀ i ∈ fc, (ptAt (ptActive a 3) s.relaxed i).isSome := by
    intro fc hfc
    rcases List.mem_append.1 hfc with h | h
    · exact hs.forb fc h
    · rw [List.mem_singleton] at h
      subst h
      exact ⟨hnd, hval⟩
  by_cases hst : ((s1.best_feasible && feas && ptBetterOrSame s1 a.minimize_K (cost a.D (tour us)) k) ||
      (!s1.best_feasible && (feas || ptBetterOrSame s1 a.minimize_K (cost a.D (tour us)) k))) = true
  · -- the solution is stored
    have hu : u = ({ s1 with best := some (tour us), best_f := some (cost a.D (tour us)), best_K := k
                             best_feasible := feas }, false) := by
      show ptUpdate _ _ _ _ _ _ = _
      unfold ptUpdate
      simp only
      rw [if_pos hst]
    rw [hu]
    refine ⟨⟨hs.set, hs.good, hforb, ?_, by simp, ?_, hs.allow, hs.cnt, hs.fresh, hs.noRelax, hs.K⟩, rfl, rfl,
      by simp⟩
    · intro fc hfc hc
      show feas = true ∧ _
      rcases List.mem_append.1 hfc with h | h
      · obtain ⟨h1, h2⟩ := hs.forbBest fc h hc
        have hb : s1.best_feasible = true := h1
        rw [hb] at hst
        simp at hst
        refine ⟨hst.1, fun hm => ⟨_, rfl, ?_⟩⟩
        obtain ⟨bf, h3, h4⟩ := h2 hm
        rw [hm] at hst
        exact ((not_better (s := s1) h3).1 hst.2).trans h4
      · rw [List.mem_singleton] at h
        subst h
        obtain ⟨h1, h2⟩ := hcov hc
        exact ⟨h1, fun _ => ⟨_, rfl, h2.le⟩⟩
    · intro sol hsol
      have : tour us = sol := by simpa using hsol
      subst this
      exact ⟨us, rfl, hus, rfl, hfeas, hne⟩
  · -- it is not stored
    have hkeep : ∀ s2 : PtState, s2.forbidden = s1.forbidden → s2.relaxed = s.relaxed → s2.best = s.best →
        s2.best_f = s.best_f → s2.best_feasible = s.best_feasible → s2.allow_infeasible = s.allow_infeasible →
        s2.cnt = s.cnt → s2.seen = s.seen → (1 ≤ s2.ptl_set ∧ s2.ptl_set ≤ 3) →
        ((ptTrue K0 = false → s2.K_constraint = K0) ∧
          (ptTrue K0 = true → ptTrue s2.K_constraint = true ∧ K0.getD 0 ≤ s2.K_constraint.getD 0)) →
        PtInv a d C L allow0 K0 s2 := by
      intro s2 e1 e2 e3 e4 e5 e6 e7 e8 e9 e10
      refine ⟨e9, by rw [e2]; exact hs.good, by rw [e1, e2]; exact hforb, ?_, by rw [e3, e4, e5]; exact hs.noBest,
        by rw [e3, e4, e5]; exact hs.best, by rw [e6]; exact hs.allow, by rw [e7, e2]; exact hs.cnt,
        by rw [e2, e8]; exact hs.fresh, by rw [e2]; exact hs.noRelax, e10⟩
      rw [e1, e2, e4, e5]
      intro fc hfc hc
      rcases List.mem_append.1 hfc with h | h
      · exact hs.forbBest fc h hc
      · rw [List.mem_singleton] at h
        subst h
        obtain ⟨h1, h2⟩ := hcov hc
        rw [h1] at hst
        have hbf : s.best_feasible = true := by
          by_contra hb
          rw [Bool.not_eq_true] at hb
          apply hst
          have : s1.best_feasible = false := hb
          rw [this]
          simp
        refine ⟨hbf, fun hm => ?_⟩
        have hbf1 : s1.best_feasible = true := hbf
        rw [hbf1, hm] at hst
        simp at hst
        cases hb : s.best with
        | none =>
          have := (hs.noBest hb).1
          rw [hbf] at this
          simp at this
        | some sol =>
          obtain ⟨us0, h3, h4, h5, h6⟩ := hs.best sol hb
          refine ⟨_, h5, ?_⟩
          rw [← h2]
          exact (not_better (s := s1) h5).2 hst
    have hKup : ptTrue s1.K_constraint = true → ((ptTrue K0 = false → s1.K_constraint.map (· + 1) = K0) ∧
          (ptTrue K0 = true → ptTrue (s1.K_constraint.map (· + 1)) = true ∧
            K0.getD 0 ≤ (s1.K_constraint.map (· + 1)).getD 0)) := by
      intro hT
      have e : s1.K_constraint = s.K_constraint := rfl
      rw [e] at hT ⊢
      obtain ⟨h1, h2⟩ := hs.K
      constructor
      · intro h0
        rw [h1 h0, h0] at hT
        simp at hT
      · intro h0
        obtain ⟨h3, h4⟩ := h2 h0
        cases hK : s.K_constraint with
        | none => rw [hK] at hT; simp [ptTrue] at hT
        | some x =>
          rw [hK] at h4
          simp only [Option.getD_some] at h4
          simp only [Option.map_some, Option.getD_some, ptTrue, decide_eq_true_eq]
          omega
    have hu : u = ptUpdate a s1 (tour us) (cost a.D (tour us)) k feas := rfl
    unfold ptUpdate at hu
    simp only at hu
    rw [if_neg hst] at hu
    by_cases c1 : s1.ptl_set = 1
    · rw [if_pos c1] at hu
      rw [hu]
      exact ⟨hkeep _ rfl rfl rfl rfl rfl rfl rfl rfl ⟨by simp, by simp⟩ hs.K, rfl, rfl, by simp⟩
    rw [if_neg c1] at hu
    by_cases c2 : (((!s1.best_feasible || decide (s1.cnt ≤ 10000)) && decide (s1.ptl_set = 2))
      || decide (s1.ptl_set < s1.max_used)) = true
    · rw [if_pos c2] at hu
      rw [hu]
      exact ⟨hkeep _ rfl rfl rfl rfl rfl rfl rfl rfl ⟨by simp, by simp⟩ hs.K, rfl, rfl, by simp⟩
    rw [if_neg c2] at hu
    by_cases c3 : (!s1.best_feasible && ptTrue s1.K_constraint) = true
    · rw [if_pos c3] at hu
      rw [hu]
      exact ⟨hkeep _ rfl rfl rfl rfl rfl rfl rfl rfl ⟨by simp, by simp⟩ (hKup (by simp at c3; exact c3.2)), rfl, rfl,
        by simp⟩
    rw [if_neg c3] at hu
    by_cases c4 : (!ptMore a s1.iteration && a.required.isNone) = true
    · rw [if_pos c4] at hu
      rw [hu]
      refine ⟨hkeep _ rfl rfl rfl rfl rfl rfl rfl rfl hs.set hs.K, rfl, rfl, fun _ => ⟨rfl, ?_, c1, ?_, ?_⟩⟩
      · simp at c4
        exact c4.2
      · intro h2
        have h2' : s1.ptl_set = 2 := h2
        simp [h2'] at c2
        exact c2.1
      · simp at c3
        by_cases hb : s.best_feasible = true
        · exact Or.inl hb
        · exact Or.inr (c3 (by simpa using hb))
    · rw [if_neg c4] at hu
      rw [hu]
      exact ⟨hkeep _ rfl rfl rfl rfl rfl rfl rfl rfl hs.set hs.K, rfl, rfl, by simp⟩

/-- The invariant after a relaxed petal was stored. -/
theorem store_inv (hsym : Symm a.D) (hrx : a.relaxe = true) : ∀ {rds : List RouteData} {s : PtState},
    PtInv a d C L allow0 K0 s →
    (∀ rd ∈ rds, ∃ v, rd.route = wrap v ∧ rd.cost = cost a.D (wrap v) ∧ v.Nodup ∧
      (∀ n ∈ v, 1 ≤ n ∧ n < a.N) ∧ RouteOk a.D d C L v) →
    ∃ s', ptStore s rds = .ok s' ∧ PtInv a d C L allow0 K0 s' ∧ s'.forbidden = s.forbidden
  | [], s, hs, _ => ⟨s, rfl, hs, rfl⟩
  | rd :: rds, s, hs, h => by
    obtain ⟨v, h1, h2, h3, h4, h5⟩ := h rd (List.mem_cons_self ..)
    have hrest := fun rd' hm => h rd' (List.mem_cons_of_mem _ hm)
    obtain ⟨ns, hns, hmem⟩ := C06_nodeset v (fun x hx => by have := h4 x hx; omega)
    obtain ⟨v', hv', hno, _, _⟩ := C08_record v rd h1
    unfold ptStore
    rw [hno, h1, hns]
    simp only
    by_cases hc : 2 < (wrap v').length ∧ wrap v' ∉ s.seen
    · rw [if_pos hc]
      have hcost : cost a.D (wrap v') = cost a.D (wrap v) := by
        rcases hv' with rfl | rfl
        · rfl
        · rw [← cost_reverse hsym (wrap v)]
          simp [wrap]
      have hmem' : ∀ n, n ∈ v' ↔ n ∈ v := by
        intro n
        rcases hv' with rfl | rfl <;> simp
      have hgp : GoodPetal a.N a.D d C L { nodes := ns, route := wrap v', cost := rd.cost } := by
        refine ⟨v', rfl, by rw [hcost]; exact h2, ?_, ?_, ?_, ⟨?_, by rw [hcost]; exact h5.2⟩, ?_⟩
        · rintro rfl
          simp [wrap] at hc
        · rcases hv' with rfl | rfl
          · exact h3
          · exact List.nodup_reverse.2 h3
        · intro n hn
          exact h4 n ((hmem' n).1 hn)
        · rcases hv' with rfl | rfl
          · exact h5.1
          · rw [demand_reverse]
            exact h5.1
        · intro n
          rw [hmem', hmem]
      obtain ⟨s', h6, h7, h8⟩ := store_inv hsym hrx (rds := rds)
        (s := { s with relaxed := s.relaxed ++ [{ nodes := ns, route := wrap v', cost := rd.cost }]
                       seen := s.seen ++ [wrap v'], cnt := s.cnt + 1 }) (by
          refine ⟨hs.set, ?_, ?_, ?_, hs.noBest, hs.best, hs.allow, ?_, ⟨?_, ?_⟩, ?_, hs.K⟩
          · intro p hpm
            rcases List.mem_append.1 hpm with h | h
            · exact hs.good p h
            · rw [List.mem_singleton] at h
              rw [h]
              exact hgp
          · intro fc hfc
            refine ⟨(hs.forb fc hfc).1, fun i hi => ?_⟩
            have := (hs.forb fc hfc).2 i hi
            rw [ptAt_append this]
            exact this
          · intro fc hfc
            rw [petalsOf_append (hs.forb fc hfc).2]
            exact hs.forbBest fc hfc
          · have := hs.cnt
            simp only [List.length_append, List.length_singleton]
            omega
          · rw [List.map_append, List.nodup_append]
            refine ⟨hs.fresh.1, by simp, ?_⟩
            intro x hx y hy
            simp only [List.map_cons, List.map_nil, List.mem_singleton] at hy
            subst hy
            rintro rfl
            obtain ⟨q, hq, he⟩ := List.mem_map.1 hx
            exact hc.2 (he ▸ hs.fresh.2 q hq)
          · intro p hpm
            rcases List.mem_append.1 hpm with h | h
            · exact List.mem_append_left _ (hs.fresh.2 p h)
            · rw [List.mem_singleton] at h
              rw [h]
              simp
          · intro hr
            rw [hrx] at hr
            simp at hr) hrest
      exact ⟨s', h6, h7, h8⟩
    · rw [if_neg hc]
      exact store_inv hsym hrx hs hrest

end Verif
