import Verif.Spec.Petal

/-! # A solver of the set covering problem that tries all the values -/

namespace Verif
open Spec

/-- All the values of the variables. -/
def allBools : ℕ → List (List Bool)
  | 0 => [[]]
  | n + 1 => (allBools n).flatMap fun X => [false :: X, true :: X]

theorem mem_allBools : ∀ {n : ℕ} {X : List Bool}, X ∈ allBools n ↔ X.length = n
  | 0, X => by simp [allBools]
  | n + 1, X => by
    unfold allBools
    rw [List.mem_flatMap]
    constructor
    · rintro ⟨Y, hY, h⟩
      have := mem_allBools.1 hY
      simp at h
      rcases h with rfl | rfl <;> simp [this]
    · intro h
      cases X with
      | nil => simp at h
      | cons b X =>
        refine ⟨X, mem_allBools.2 (by simpa using h), ?_⟩
        cases b <;> simp

/-- The test of the constraints. -/
def satB (M : ScpModel) (X : List Bool) : Bool :=
  decide (X.length = M.sets.length) &&
  (List.range' 1 (M.N - 1)).all (fun i =>
    decide (((M.sets.zip X).filter fun e => decide (i ∈ e.1) && e.2).length = 1)) &&
  M.forbidden.all (fun fc => decide
    ((X.zipIdx.map fun e => if e.1 then (if e.2 ∈ fc then (1 : ℤ) else -1) else 0).sum ≤ (fc.length : ℤ) - 1)) &&
  decide (0 < M.K.getD 0 → X.count true ≤ M.K.getD 0)

theorem satB_iff {M : ScpModel} {X : List Bool} : satB M X = true ↔ M.Sat X := by
  unfold satB
  simp only [Bool.and_eq_true, decide_eq_true_eq, List.all_eq_true]
  constructor
  · rintro ⟨⟨⟨h1, h2⟩, h3⟩, h4⟩
    exact ⟨h1, fun i hi hi' => h2 i (List.mem_range'_1.2 (by omega)), h3, h4⟩
  · intro h
    refine ⟨⟨⟨h.vars, fun i hi => ?_⟩, h.c2⟩, h.c3⟩
    have := List.mem_range'_1.1 hi
    exact h.c1 i (by omega) (by omega)

/-- The solver. -/
def bruteOpt : MipSolver := fun _ M =>
  match (allBools M.sets.length).filter (satB M) with
  | [] => .infeasible
  | X :: Xs => .optimal (Xs.foldl (fun m Y => if M.objective Y < M.objective m then Y else m) X)

theorem foldl_min (f : List Bool → ℚ) : ∀ (l : List (List Bool)) (X : List Bool),
    (l.foldl (fun m Y => if f Y < f m then Y else m) X) ∈ X :: l ∧
      ∀ Y ∈ X :: l, f (l.foldl (fun m Y => if f Y < f m then Y else m) X) ≤ f Y
  | [], X => by simp
  | Z :: l, X => by
    rw [List.foldl_cons]
    obtain ⟨h1, h2⟩ := foldl_min f l (if f Z < f X then Z else X)
    have hm := h2 _ (List.mem_cons_self ..)
    constructor
    · rcases List.mem_cons.1 h1 with h | h
      · rw [h]
        split_ifs <;> simp
      · exact List.mem_cons_of_mem _ (List.mem_cons_of_mem _ h)
    · intro Y hY
      rcases List.mem_cons.1 hY with rfl | hY
      · refine hm.trans ?_
        split_ifs with h
        · exact h.le
        · exact le_refl _
      · rcases List.mem_cons.1 hY with rfl | hY
        · refine hm.trans ?_
          split_ifs with h
          · exact le_refl _
          · exact not_lt.1 h
        · exact h2 Y (List.mem_cons_of_mem _ hY)

/-- It answers as it should. -/
theorem bruteOpt_right : SolverRight bruteOpt := by
  intro t M
  have hmem : ∀ X, X ∈ (allBools M.sets.length).filter (satB M) ↔ M.Sat X := by
    intro X
    rw [List.mem_filter, mem_allBools, satB_iff]
    exact ⟨fun h => h.2, fun h => ⟨h.vars, h⟩⟩
  unfold bruteOpt
  generalize (allBools M.sets.length).filter (satB M) = l at hmem
  cases l with
  | nil => exact fun Y hY => by simpa using (hmem Y).2 hY
  | cons X Xs =>
    obtain ⟨h1, h2⟩ := foldl_min M.objective Xs X
    exact ⟨(hmem _).1 h1, fun Y hY => h2 Y ((hmem Y).2 hY)⟩

/-! ## Few vehicles

The same with the values of at most as many variables as there are vehicles, and the relaxed programme. -/

/-- The values with at most `k` ones. -/
def kBools : ℕ → ℕ → List (List Bool)
  | 0, _ => [[]]
  | n + 1, 0 => (kBools n 0).map (false :: ·)
  | n + 1, k + 1 => (kBools n (k + 1)).map (false :: ·) ++ (kBools n k).map (true :: ·)

theorem mem_kBools : ∀ {n k : ℕ} {X : List Bool}, X ∈ kBools n k ↔ X.length = n ∧ X.count true ≤ k
  | 0, k, X => by
    cases k <;> unfold kBools <;> cases X <;> simp
  | n + 1, 0, X => by
    unfold kBools
    rw [List.mem_map]
    cases X with
    | nil => simp
    | cons b X => cases b <;> simp [mem_kBools]
  | n + 1, k + 1, X => by
    unfold kBools
    rw [List.mem_append, List.mem_map, List.mem_map]
    cases X with
    | nil => simp
    | cons b X => cases b <;> simp [mem_kBools]

/-- The values that keep to the number of vehicles. -/
def kAll (M : ScpModel) : List (List Bool) :=
  if 0 < M.K.getD 0 then kBools M.sets.length (M.K.getD 0) else allBools M.sets.length

theorem mem_kAll {M : ScpModel} {X : List Bool} :
    X ∈ kAll M ↔ X.length = M.sets.length ∧ (0 < M.K.getD 0 → X.count true ≤ M.K.getD 0) := by
  unfold kAll
  split_ifs with h
  · rw [mem_kBools]; simp [h]
  · rw [mem_allBools]; simp [h]

/-- The solver. -/
def kOpt : MipSolver := fun _ M =>
  match (kAll M).filter (satB M) with
  | [] => .infeasible
  | X :: Xs => .optimal (Xs.foldl (fun m Y => if M.objective Y < M.objective m then Y else m) X)

/-- It answers as it should. -/
theorem kOpt_right : SolverRight kOpt := by
  intro t M
  have hmem : ∀ X, X ∈ (kAll M).filter (satB M) ↔ M.Sat X := by
    intro X
    rw [List.mem_filter, mem_kAll, satB_iff]
    exact ⟨fun h => h.2, fun h => ⟨⟨h.vars, h.c3⟩, h⟩⟩
  unfold kOpt
  generalize (kAll M).filter (satB M) = l at hmem
  cases l with
  | nil => exact fun Y hY => by simpa using (hmem Y).2 hY
  | cons X Xs =>
    obtain ⟨h1, h2⟩ := foldl_min M.objective Xs X
    exact ⟨(hmem _).1 h1, fun Y hY => h2 Y ((hmem Y).2 hY)⟩

/-- The test of the constraints other than those of the customers. -/
def othersB (M : ScpModel) (X : List Bool) : Bool :=
  M.forbidden.all (fun fc => decide
    ((X.zipIdx.map fun e => if e.1 then (if e.2 ∈ fc then (1 : ℤ) else -1) else 0).sum ≤ (fc.length : ℤ) - 1))

/-- Fewer wrong customers, or as many and a smaller cost. -/
def relBetter (M : ScpModel) (X Y : List Bool) : Prop :=
  wrongs M X < wrongs M Y ∨ (wrongs M X = wrongs M Y ∧ M.objective X ≤ M.objective Y)

instance (M : ScpModel) (X Y : List Bool) : Decidable (relBetter M X Y) := by unfold relBetter; infer_instance

theorem relBetter_refl (M : ScpModel) (X : List Bool) : relBetter M X X := .inr ⟨rfl, le_refl _⟩

theorem relBetter_trans {M : ScpModel} {X Y Z : List Bool} (h : relBetter M X Y) (h' : relBetter M Y Z) : relBetter M X Z := by
  unfold relBetter at *
  rcases h with h | ⟨h, g⟩ <;> rcases h' with h' | ⟨h', g'⟩
  · exact .inl (h.trans h')
  · exact .inl (h' ▸ h)
  · exact .inl (h ▸ h')
  · exact .inr ⟨h.trans h', g.trans g'⟩

theorem relBetter_total {M : ScpModel} {X Y : List Bool} (h : ¬ relBetter M X Y) : relBetter M Y X := by
  unfold relBetter at *
  rcases Nat.lt_trichotomy (wrongs M X) (wrongs M Y) with g | g | g
  · exact absurd (.inl g) h
  · exact .inr ⟨g.symm, le_of_lt (not_le.1 fun e => h (.inr ⟨g, e⟩))⟩
  · exact .inl g

/-- The solver of the relaxed programme. -/
def kRlx : MipSolver := fun _ M =>
  match (kAll M).filter (othersB M) with
  | [] => .infeasible
  | X :: Xs => .optimal (Xs.foldl (fun m Y => if relBetter M Y m then Y else m) X)

theorem foldl_rel (M : ScpModel) : ∀ (l : List (List Bool)) (X : List Bool),
    (l.foldl (fun m Y => if relBetter M Y m then Y else m) X) ∈ X :: l ∧
      ∀ Y ∈ X :: l, relBetter M (l.foldl (fun m Y => if relBetter M Y m then Y else m) X) Y
  | [], X => by simpa using relBetter_refl M X
  | Z :: l, X => by
    rw [List.foldl_cons]
    obtain ⟨h1, h2⟩ := foldl_rel M l (if relBetter M Z X then Z else X)
    have hm := h2 _ (List.mem_cons_self ..)
    constructor
    · rcases List.mem_cons.1 h1 with h | h
      · rw [h]
        split_ifs <;> simp
      · exact List.mem_cons_of_mem _ (List.mem_cons_of_mem _ h)
    · intro Y hY
      rcases List.mem_cons.1 hY with rfl | hY
      · refine relBetter_trans hm ?_
        split_ifs with h
        · exact h
        · exact relBetter_refl ..
      · rcases List.mem_cons.1 hY with rfl | hY
        · refine relBetter_trans hm ?_
          split_ifs with h
          · exact relBetter_refl ..
          · exact relBetter_total h
        · exact h2 Y (List.mem_cons_of_mem _ hY)

/-- It answers as it should. -/
theorem kRlx_right : RelaxRight kRlx := by
  intro t M
  have hmem : ∀ X, X ∈ (kAll M).filter (othersB M) ↔ SatOthers M X := by
    intro X
    rw [List.mem_filter, mem_kAll]
    unfold othersB
    rw [List.all_eq_true]
    simp only [decide_eq_true_eq]
    exact ⟨fun h => ⟨h.1.1, h.2, h.1.2⟩, fun h => ⟨⟨h.vars, h.c3⟩, h.c2⟩⟩
  unfold kRlx
  generalize (kAll M).filter (othersB M) = l at hmem
  cases l with
  | nil => exact fun Y hY => by simpa using (hmem Y).2 hY
  | cons X Xs =>
    obtain ⟨h1, h2⟩ := foldl_rel M Xs X
    exact ⟨(hmem _).1 h1, fun Y hY => h2 Y ((hmem Y).2 hY)⟩

end Verif
