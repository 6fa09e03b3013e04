import Verif.Lemmas.GapLeast
import Verif.Lemmas.GapCount

/-! # The trials with more vehicles than given in the generalized assignment heuristic (C58) -/

namespace Verif
open Spec

theorem gapFeas_mono {N : ℕ} {d : ℕ → ℚ} {c : ℚ} (hc : 0 ≤ c) {k k' : ℕ} (hk : k ≤ k') (h : GapFeas N d c k) : GapFeas N d c k' := by
  obtain ⟨us, h1, h2, h3⟩ := h
  refine ⟨us ++ List.replicate (k' - k) [], by simp [h1]; omega, by simpa [List.flatten_append] using h2, fun u hu => ?_⟩
  rcases List.mem_append.1 hu with hu | hu
  · exact h3 u hu
  · rw [List.eq_of_mem_replicate hu]
    simpa [demand] using hc

theorem gapTurn_same' (a : GapArgs) (b : Bool) (t : GapSt) : ∃ t', (gapTurn a b t = .again t' ∨ gapTurn a b t = .next t') ∧ SameBest t t' := by
  unfold gapTurn
  dsimp only
  split_ifs <;> first
    | exact ⟨_, Or.inr rfl, rfl, rfl, rfl, rfl⟩
    | exact ⟨_, Or.inl rfl, rfl, rfl, rfl, rfl⟩

/-- A trial: it is the last one or not, what is found is kept, something is found if the vehicles are enough, and if they are not
there is a trial with one more. -/
theorem gapIter_given {a : GapArgs} {c : ℚ} (h : GapHyp a) (hC : a.C = some c) (hc : 0 < c) (hL : truthy a.L = false)
    (hinc : a.increase_K = true) (hlate : ∀ t, a.late t = false) (hans : GapAnswers a.opt) {m K : ℕ} (hK : 1 ≤ K) (hKm : K ≤ m)
    (hseeds : SeedsOk a.N m a.seeds) {s : GapSt} (hb : s.trial < a.N) (hm : K + s.incK ≤ m)
    {P : List ℕ → Prop} (hi : GapInv a.D a.minimize_K P s) :
    ∃ t, (gapIter a m K s = .ok (.again t) ∨ gapIter a m K s = .ok (.next t)) ∧
      (s.best_sol.isSome = true → t.best_sol.isSome = true) ∧
      (GapFeas a.N a.d c (K + s.incK) → t.best_sol.isSome = true) ∧
      (¬ GapFeas a.N a.d c (K + s.incK) → K + s.incK + 1 ≤ m → gapIter a m K s = .ok (.again t) ∧ t.incK = s.incK + 1) := by
  obtain ⟨M, hM⟩ := gapProgramme_ok hseeds (K := K + s.incK) (by omega) hm hb
  obtain ⟨costs, hMe, hlen⟩ := gapProgramme_eq hM
  have hadapt : a.adapts = false := by simp [GapArgs.adapts, hL]
  have hsat : (∃ Y, M.Sat Y) ↔ GapFeas a.N a.d c (K + s.incK) := by
    rw [hMe, hC, ← hlen]
    exact gapSat_iff (ne_of_gt hc) hL
  rcases hans s.calls M with ho | ⟨Y, ho⟩
  · have hno : ¬ GapFeas a.N a.d c (K + s.incK) := by
      rw [← hsat]
      rintro ⟨Y, hY⟩
      exact h.solver.infeasible _ _ ho Y hY
    have has : solve_gap a.opt a.rlx s.calls a.N M = .ok none := by
      unfold solve_gap
      rw [ho]
      have : truthy M.L = false := by rw [hMe]; exact hL
      simp [this]
    have hit : gapIter a m K s = .ok (gapTurn a (gapAdapt a m K false { s with calls := s.calls + 1, corrective := true }).2
        (gapAdapt a m K false { s with calls := s.calls + 1, corrective := true }).1) := by
      have hc2 : ∀ t : GapSt, t.corrective = true → (gapAdapt a m K false t).1.corrective = true := by
        intro t ht
        unfold gapAdapt
        dsimp only
        split_ifs <;> first | rfl | exact ht
      unfold gapIter
      rw [hM]
      dsimp only
      rw [has]
      have e : ({ s with calls := s.calls + 1, corrective := s.corrective || ((none : Option (List (List ℕ))).getD []).isEmpty } : GapSt) =
          { s with calls := s.calls + 1, corrective := true } := by simp
      dsimp only [gapTrial]
      rw [e]
      show (if gapMessage a false (gapAdapt a m K false { s with calls := s.calls + 1, corrective := true }).1 = true then _ else _) = _
      rw [if_neg (by unfold gapMessage; rw [hc2 _ rfl]; simp), hlate, if_neg (by simp)]
      rfl
    obtain ⟨t, ht, hsame⟩ := gapTurn_same' a (gapAdapt a m K false { s with calls := s.calls + 1, corrective := true }).2
        (gapAdapt a m K false { s with calls := s.calls + 1, corrective := true }).1
    have hs2 := gapAdapt_same a m K false { s with calls := s.calls + 1, corrective := true }
    by_cases hmore : K + s.incK + 1 ≤ m
    · have had : gapAdapt a m K false { s with calls := s.calls + 1, corrective := true } =
          ({ s with calls := s.calls + 1, incK := s.incK + 1, corrective := true }, false) := by
        unfold gapAdapt
        rw [hadapt, hinc]
        simp [hmore]
      rw [had] at hit
      have ht2 : gapTurn a false { s with calls := s.calls + 1, incK := s.incK + 1, corrective := true } =
          .again { s with calls := s.calls + 1, incK := s.incK + 1, corrective := true } := by
        unfold gapTurn
        have hne : s.trial ≠ a.N := by omega
        simp [hne]
      rw [ht2] at hit
      exact ⟨_, .inl hit, fun hx => hx, fun hx => absurd hx hno, fun _ _ => ⟨hit, rfl⟩⟩
    · refine ⟨t, ?_, fun hx => ?_, fun hx => absurd hx hno, fun _ hx => absurd hx hmore⟩
      · rcases ht with e | e
        · exact .inl (by rw [hit, e])
        · exact .inr (by rw [hit, e])
      · rw [hsame.1, hs2.1]; exact hx
  · have hyes : GapFeas a.N a.d c (K + s.incK) := hsat.1 ⟨Y, (h.solver.optimal _ _ _ ho).1⟩
    have has : solve_gap a.opt a.rlx s.calls a.N M = .ok (some (gapAssign a.N Y)) := by
      unfold solve_gap
      rw [ho]
    have hlenY : (gapAssign a.N Y).length = K + s.incK := by
      have := (h.solver.optimal _ _ _ ho).1.toHard
      rw [hMe] at this
      rw [(gapAssign_hard this).2.1, hlen]
    have hsome : (gapTrial a.N a.d a.C a.L a.tsp (some (gapAssign a.N Y))).isSome = true := by
      rw [gapTrial_noL hL]
      cases hg : gapAssign a.N Y with
      | nil => rw [hg] at hlenY; simp at hlenY; omega
      | cons => rfl
    obtain ⟨p, hp⟩ := Option.isSome_iff_exists.1 hsome
    obtain ⟨sol, f, k⟩ := p
    obtain ⟨s1, hs1⟩ : ∃ s1 : GapSt, s1 = (gapAdapt a m K true { s with calls := s.calls + 1, corrective := s.corrective || ((some (gapAssign a.N Y)).getD []).isEmpty }).1 := ⟨_, rfl⟩
    have hsb : SameBest s s1 := by
      rw [hs1]
      have := gapAdapt_same a m K true { s with calls := s.calls + 1, corrective := s.corrective || ((some (gapAssign a.N Y)).getD []).isEmpty }
      exact this
    have hit : ∃ take, gapIter a m K s = .ok (gapTurn a take (gapStore a (some (sol, f, k)) s1)) := by
      refine ⟨(gapAdapt a m K true { s with calls := s.calls + 1, corrective := s.corrective || ((some (gapAssign a.N Y)).getD []).isEmpty }).2, ?_⟩
      unfold gapIter
      rw [hM]
      dsimp only
      rw [has]
      dsimp only
      rw [hp, hs1]
      simp only [Option.isSome_some]
      rw [if_neg (by simp [gapMessage]), hlate, if_neg (by simp)]
    obtain ⟨take, hit⟩ := hit
    obtain ⟨t, ht, hsame⟩ := gapTurn_same' a take (gapStore a (some (sol, f, k)) s1)
    have hbest : (gapStore a (some (sol, f, k)) s1).best_sol.isSome = true := by
      unfold gapStore
      dsimp only
      by_cases hb : is_better_sol s1.best_f s1.best_K (some f) (some (k : ℚ)) a.minimize_K = true
      · rw [if_pos hb]; rfl
      · rw [if_neg hb]
        show s1.best_sol.isSome = true
        cases hn : s1.best_sol with
        | some => rfl
        | none =>
          have hf := ((gapInv_same hi hsb).none hn).2.1
          rw [hf] at hb
          exact absurd rfl hb
    refine ⟨t, ?_, fun _ => ?_, fun _ => ?_, fun hx => absurd hyes hx⟩
    · rcases ht with e | e
      · exact .inl (by rw [hit, e])
      · exact .inr (by rw [hit, e])
    · rw [hsame.1]; exact hbest
    · rw [hsame.1]; exact hbest

/-- The trials find something if the vehicles are enough in the end. -/
theorem gapSeedLoop_given {a : GapArgs} {c : ℚ} (h : GapHyp a) (hC : a.C = some c) (hc : 0 < c) (hL : truthy a.L = false)
    (hinc : a.increase_K = true) (hlate : ∀ t, a.late t = false) (hans : GapAnswers a.opt) {m K : ℕ} (hK : 1 ≤ K) (hKm : K ≤ m)
    (hseeds : SeedsOk a.N m a.seeds) (hf : GapFeas a.N a.d c m) {P : List ℕ → Prop}
    (hP : ∀ s M c as sol f k, gapProgramme a (K + s.incK) s = .ok M → solve_gap a.opt a.rlx c a.N M = .ok as →
      gapTrial a.N a.d a.C a.L a.tsp as = some (sol, f, k) → P sol ∧ f = cost a.D sol ∧ k = (blocks sol).length) :
    ∀ (fuel : ℕ) {s : GapSt}, GapBnd a m s → K + s.incK ≤ m → GapInv a.D a.minimize_K P s →
    gapSeedLoop a m K fuel s = .ok none ∨ ∃ t, gapSeedLoop a m K fuel s = .ok (some (.next t)) ∧ t.best_sol.isSome = true := by
  intro fuel
  induction fuel with
  | zero => intro s _ _ _; exact Or.inl rfl
  | succ fuel ih =>
    intro s hb hm hi
    obtain ⟨t, h1, h2, h3, h4⟩ := gapIter_given h hC hc hL hinc hlate hans hK hKm hseeds hb.trial hm hi
    have hmore : ∀ o, gapIter a m K s = .ok o → K + o.st.incK ≤ m := by
      intro o ho
      have := gapIter_more (a := a) (m := m) (K := K) (s := s) (by unfold gapMore; rw [if_pos hinc]; omega) ho
      unfold gapMore at this
      rw [if_pos hinc] at this
      omega
    simp only [gapSeedLoop]
    rcases h1 with e | e
    · have hit := gapIter_inv' (hP s) hi e
      have hle := hmore _ e
      rw [e]
      exact ih (gapIter_turned hb e).1 hle hit
    · rw [e]
      refine .inr ⟨t, rfl, ?_⟩
      by_cases hfe : GapFeas a.N a.d c (K + s.incK)
      · exact h3 hfe
      · by_cases hlt : K + s.incK + 1 ≤ m
        · rw [(h4 hfe hlt).1] at e; cases e
        · exact absurd (by rwa [show K + s.incK = m by omega]) hfe

end Verif
