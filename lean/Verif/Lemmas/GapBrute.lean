import Verif.Spec.Gap
import Verif.Lemmas.PetalBrute

/-! # A solver of the generalised assignment problem that tries all the values -/

namespace Verif
open Spec

/-- All the values of the variables. -/
def allRows (n : ℕ) : ℕ → List (List (List Bool))
  | 0 => [[]]
  | k + 1 => (allBools n).flatMap fun r => (allRows n k).map (r :: ·)

theorem mem_allRows {n : ℕ} : ∀ {k : ℕ} {Y : List (List Bool)}, Y ∈ allRows n k ↔ Y.length = k ∧ ∀ r ∈ Y, r.length = n
  | 0, Y => by
    simp only [allRows, List.mem_singleton, List.length_eq_zero_iff]
    exact ⟨fun h => by subst h; simp, fun h => h.1⟩
  | k + 1, Y => by
    simp only [allRows, List.mem_flatMap, List.mem_map]
    constructor
    · rintro ⟨r, hr, Z, hZ, rfl⟩
      have := mem_allRows.1 hZ
      refine ⟨by simp [this.1], fun x hx => ?_⟩
      rcases List.mem_cons.1 hx with rfl | hx
      · exact mem_allBools.1 hr
      · exact this.2 x hx
    · rintro ⟨h1, h2⟩
      cases Y with
      | nil => simp at h1
      | cons r Z =>
        exact ⟨r, mem_allBools.2 (h2 r List.mem_cons_self), Z,
          mem_allRows.2 ⟨by simpa using h1, fun x hx => h2 x (List.mem_cons_of_mem _ hx)⟩, rfl⟩

/-- The test of the constraints that are never relaxed. -/
def gapHardB (M : GapModel) (Y : List (List Bool)) : Bool :=
  decide (Y.length = M.costs.length) && Y.all (fun row => decide (row.length = M.dem.length)) &&
  (!truthy M.C || Y.all fun row => decide (linExpr M.dem row ≤ M.C.getD 0)) &&
  (List.range M.dem.length).all fun j => decide ((Y.filter fun row => decide (row[j]? = some true)).length = 1)

theorem gapHardB_iff {M : GapModel} {Y : List (List Bool)} : gapHardB M Y = true ↔ M.Hard Y := by
  unfold gapHardB
  simp only [Bool.and_eq_true, decide_eq_true_eq, List.all_eq_true, Bool.or_eq_true, Bool.not_eq_true', List.mem_range]
  constructor
  · rintro ⟨⟨⟨h1, h2⟩, h3⟩, h4⟩
    exact ⟨h1, h2, fun h => h3.resolve_left (by simp [h]), h4⟩
  · intro h
    refine ⟨⟨⟨h.vehicles, h.vars⟩, ?_⟩, h.c2⟩
    cases hc : truthy M.C
    · exact Or.inl rfl
    · exact Or.inr (h.c1 hc)

/-- The test of all the constraints. -/
def gapSatB (M : GapModel) (Y : List (List Bool)) : Bool :=
  gapHardB M Y && (!truthy M.L || (M.costs.zip Y).all fun e => decide (linExpr (e.1.map (· * M.mult)) e.2 ≤ M.L.getD 0))

theorem gapSatB_iff {M : GapModel} {Y : List (List Bool)} : gapSatB M Y = true ↔ M.Sat Y := by
  unfold gapSatB
  rw [Bool.and_eq_true, gapHardB_iff]
  simp only [decide_eq_true_eq, List.all_eq_true, Bool.or_eq_true, Bool.not_eq_true']
  constructor
  · rintro ⟨h1, h2⟩
    exact ⟨h1, fun h => h2.resolve_left (by simp [h])⟩
  · intro h
    refine ⟨h.toHard, ?_⟩
    cases hc : truthy M.L
    · exact Or.inl rfl
    · exact Or.inr (h.cl hc)

/-- The least of some values. -/
def pickLeast (f : List (List Bool) → ℚ) : List (List (List Bool)) → GapStatus
  | [] => .infeasible
  | X :: Xs => .optimal (Xs.foldl (fun m Y => if f Y < f m then Y else m) X)

theorem foldl_least (f : List (List Bool) → ℚ) : ∀ (l : List (List (List Bool))) (X : List (List Bool)),
    (l.foldl (fun m Y => if f Y < f m then Y else m) X) ∈ X :: l ∧
      ∀ Y ∈ X :: l, f (l.foldl (fun m Y => if f Y < f m then Y else m) X) ≤ f Y
  | [], X => by simp
  | Z :: l, X => by
    rw [List.foldl_cons]
    obtain ⟨h1, h2⟩ := foldl_least f l (if f Z < f X then Z else X)
    have hm := h2 _ (List.mem_cons_self ..)
    constructor
    · rcases List.mem_cons.1 h1 with h | h
      · rw [h]
        split_ifs <;> simp
      · exact List.mem_cons_of_mem _ (List.mem_cons_of_mem _ h)
    · intro Y hY
      rcases List.mem_cons.1 hY with rfl | hY
      · refine hm.trans ?_
        split_ifs with h
        · exact h.le
        · exact le_refl _
      · rcases List.mem_cons.1 hY with rfl | hY
        · refine hm.trans ?_
          split_ifs with h
          · exact le_refl _
          · exact not_lt.1 h
        · exact h2 Y (List.mem_cons_of_mem _ hY)

/-- The solver; of several best values it takes the first or the last. -/
def gapBrute (last : Bool) : GapSolver := fun _ M =>
  let Ys := (allRows M.dem.length M.costs.length).filter (gapSatB M)
  pickLeast M.objective (if last then Ys.reverse else Ys)

/-- The solver after the relaxation, which breaks the constraints on the route cost as little as it can. -/
def gapBruteRelaxed : GapSolver := fun _ M =>
  pickLeast (fun Y => ((M.costs.zip Y).map fun e => max 0 (linExpr (e.1.map (· * M.mult)) e.2 - M.L.getD 0)).sum)
    ((allRows M.dem.length M.costs.length).filter (gapHardB M))

/-- They answer as they should. -/
theorem gapBrute_right (last : Bool) : GapRight (gapBrute last) gapBruteRelaxed := by
  have hmem : ∀ M Y, Y ∈ (if last then ((allRows M.dem.length M.costs.length).filter (gapSatB M)).reverse
      else (allRows M.dem.length M.costs.length).filter (gapSatB M)) ↔ M.Sat Y := by
    intro M Y
    have : Y ∈ (allRows M.dem.length M.costs.length).filter (gapSatB M) ↔ M.Sat Y := by
      rw [List.mem_filter, mem_allRows, gapSatB_iff]
      exact ⟨fun h => h.2, fun h => ⟨⟨h.vehicles, h.vars⟩, h⟩⟩
    split_ifs
    · rw [List.mem_reverse, this]
    · exact this
  refine ⟨fun t M Y h => ?_, fun t M h => ?_, fun t M Y h => ?_⟩
  · have hm := hmem M
    unfold gapBrute at h
    dsimp only at h
    generalize (if last then _ else _) = l at hm h
    cases l with
    | nil => simp [pickLeast] at h
    | cons X Xs =>
      obtain ⟨h1, h2⟩ := foldl_least M.objective Xs X
      simp only [pickLeast, GapStatus.optimal.injEq] at h
      rw [h] at h1 h2
      exact ⟨(hm _).1 h1, fun Y hY => h2 Y ((hm Y).2 hY)⟩
  · have hm := hmem M
    unfold gapBrute at h
    dsimp only at h
    generalize (if last then _ else _) = l at hm h
    cases l with
    | nil => exact fun Y hY => by simpa using (hm Y).2 hY
    | cons X Xs => simp [pickLeast] at h
  · unfold gapBruteRelaxed at h
    have hm : ∀ Y ∈ (allRows M.dem.length M.costs.length).filter (gapHardB M), M.Hard Y := by
      intro Y hY
      exact gapHardB_iff.1 (List.mem_filter.1 hY).2
    generalize (allRows M.dem.length M.costs.length).filter (gapHardB M) = l at hm h
    cases l with
    | nil => simp [pickLeast] at h
    | cons X Xs =>
      obtain ⟨h1, -⟩ := foldl_least (fun Y => ((M.costs.zip Y).map fun e =>
        max 0 (linExpr (e.1.map (· * M.mult)) e.2 - M.L.getD 0)).sum) Xs X
      simp only [pickLeast, GapStatus.optimal.injEq] at h
      rw [h] at h1
      exact hm _ h1

theorem gapBrute_answers (last : Bool) : GapAnswers (gapBrute last) := by
  intro t M
  unfold gapBrute
  dsimp only
  generalize (if last then _ else _) = l
  cases l with
  | nil => exact Or.inl rfl
  | cons X Xs => exact Or.inr ⟨_, rfl⟩

end Verif
