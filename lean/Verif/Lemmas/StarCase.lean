import Verif.Lemmas.StarRoutes

/-! # Lemmas for the 3-opt* move: the candidates of a solution -/

namespace Verif
open Spec

theorem squeeze_head (l : List ℕ) : (squeeze l).head? = l.head? := by
  induction l with
  | nil => rfl
  | cons a t ih =>
    cases t with
    | nil => rfl
    | cons b t =>
      rw [squeeze]
      split
      · rename_i h
        rw [ih]; simp [h.1, h.2]
      · rfl

theorem squeeze_ne {l : List ℕ} (h : l ≠ []) : squeeze l ≠ [] := by
  intro e
  have := squeeze_head l
  rw [e] at this
  cases l with
  | nil => exact h rfl
  | cons a t => simp at this

theorem squeeze_last (l : List ℕ) : (squeeze l).getLast? = l.getLast? := by
  induction l with
  | nil => rfl
  | cons a t ih =>
    cases t with
    | nil => rfl
    | cons b t =>
      rw [squeeze]
      split
      · rw [ih]; simp [List.getLast?_cons]
      · obtain ⟨x, y, e⟩ := List.exists_cons_of_ne_nil (squeeze_ne (l := b :: t) (by simp))
        rw [e] at ih ⊢
        rw [List.getLast?_cons_cons, ih, List.getLast?_cons_cons]

theorem depotEnds_squeeze {l r : List ℕ} (h : squeeze l = squeeze r) (hr : DepotEnds r) : DepotEnds l := by
  unfold DepotEnds at hr ⊢
  rw [← squeeze_head l, ← squeeze_last l, h, squeeze_head, squeeze_last]
  exact hr

theorem feas_squeeze {D : ℕ → ℕ → ℚ} {d : ℕ → ℚ} {C L : Option ℚ} {l r : List ℕ} (h : squeeze l = squeeze r)
    (hr : Feasible D d C L r) : Feasible D d C L l := by
  unfold Feasible at hr ⊢
  rw [← blocks_squeeze l, h, blocks_squeeze]
  exact hr

/-- The outermost depots seen in a segment. -/
theorem seeList_cases (p : ℕ) (B : List ℕ) :
    (0 ∉ B ∧ seeList (p + 1) B (none, none) = (none, none)) ∨
      ∃ B1 B2 l, S3Split B B1 B2 ∧ seeList (p + 1) B (none, none) = (some l, some (p + B1.length)) ∧ p + 1 ≤ l ∧
        l ≤ p + B.length := by
  by_cases h : 0 ∈ B
  · right
    obtain ⟨a, M, b, rfl, ha, hM, hb⟩ := split_depots h
    refine ⟨a ++ M, b, p + 1 + a.length, ⟨by simp, hb, a, M, rfl, ha, hM⟩, ?_, ?_, ?_⟩
    · rw [seeList_depots _ ha hM hb]
      congr 2
      simp only [List.length_append]
      have : 0 < M.length := List.length_pos_iff.2 (by rintro rfl; exact nomatch hM.1)
      omega
    · omega
    · have : 0 < M.length := List.length_pos_iff.2 (by rintro rfl; exact nomatch hM.1)
      simp only [List.length_append]
      omega
  · exact .inl ⟨h, seeList_zerofree _ h _⟩

theorem s3Split_unique {B B1 B2 B1' B2' : List ℕ} (h : S3Split B B1 B2) (h' : S3Split B B1' B2') : B1 = B1' ∧ B2 = B2' := by
  have e : B2 = B2' := by rw [← h.run [], h'.run]
  subst e
  exact ⟨List.append_cancel_right (h.1.symm.trans h'.1), rfl⟩

theorem split_of_eq {B B1 B2 : List ℕ} (h : B = B1 ++ 0 :: B2) (h2 : 0 ∉ B2) : S3Split B (B1 ++ [0]) B2 := by
  refine ⟨by rw [h]; simp, h2, ?_⟩
  by_cases h1 : 0 ∈ B1
  · obtain ⟨a, r, rfl, ha⟩ := List.eq_append_cons_of_mem h1
    exact ⟨a, wrap r, by simp [wrap], ha, depotEnds_wrap r⟩
  · exact ⟨B1, [0], rfl, h1, rfl, rfl⟩

theorem eq_of_split {B B1 B2 : List ℕ} (h : S3Split B B1 B2) : ∃ B0, B1 = B0 ++ [0] ∧ B = B0 ++ 0 :: B2 := by
  obtain ⟨X, x, e⟩ := exists_snoc h.ne
  have := h.last
  rw [e, List.getLast?_append] at this
  simp only [List.getLast?_singleton, Option.some_or, Option.some.injEq] at this
  subst this
  exact ⟨X, e, by rw [h.1, e]; simp⟩

/-- All there is to know about a candidate. -/
structure S3Case (D : ℕ → ℕ → ℚ) (d : ℕ → ℚ) (C L : Option ℚ) (sol : List ℕ) (c : S3Cand)
    (A B S E B1 B2 S1 S2 : List ℕ) : Prop where
  sol_eq : sol = A ++ (B ++ (S ++ E))
  neA : A ≠ []
  neE : E ≠ []
  tab : S3Tab D d C L A B S E c.t
  pos : ∃ i j k, S3Pos B S c.t i j k
  mem : c.mv ∈ moves3optstar
  h12 : c.mv.idx ∈ [7, 8, 9, 10, 15] → S3Split B B1 B2
  h34 : c.mv.idx ∈ [11, 12, 13, 14, 15] → S3Split S S1 S2
  conc : ∃ new, s3Concat sol c.cuts c.mv.recipe [] = .ok new ∧ squeeze new = squeeze (s3Parts A B S E B1 B2 S1 S2 c.mv.idx).flatten

/-- The candidates of three positions. -/
theorem s3At_case {D : ℕ → ℕ → ℚ} {d : ℕ → ℚ} {C L : Option ℚ} {A B S E : List ℕ} (hA : A ≠ []) (hB : B ≠ [])
    (hS : S ≠ []) (hE : E ≠ []) (hd : DepotEnds (A ++ (B ++ (S ++ E)))) {i j k : ℕ} (hi : i + 1 = A.length)
    (hj : j = i + B.length) (hk : k = j + S.length) {c : S3Cand}
    (hc : c ∈ s3At D C L (s3Sol D d (A ++ (B ++ (S ++ E)))) i j k
      (s3Seen (s3Sol D d (A ++ (B ++ (S ++ E)))).node (i + 1) (j + 1) (none, none))
      (s3Seen (s3Sol D d (A ++ (B ++ (S ++ E)))).node (j + 1) (k + 1) (none, none))) :
    ∃ B1 B2 S1 S2, S3Case D d C L (A ++ (B ++ (S ++ E))) c A B S E B1 B2 S1 S2 := by
  have pB : 0 < B.length := List.length_pos_iff.2 hB
  have pS : 0 < S.length := List.length_pos_iff.2 hS
  have hhead : A.head? = some 0 := by
    have := hd.1
    obtain ⟨a, A', rfl⟩ := List.exists_cons_of_ne_nil hA
    simpa using this
  have hlast : E.getLast? = some 0 := by
    have := hd.2
    rw [← List.append_assoc, ← List.append_assoc] at this
    obtain ⟨E', e, rfl⟩ := exists_snoc hE
    rw [List.getLast?_append] at this
    simpa using this
  have e12 : s3Seen (s3Sol D d (A ++ (B ++ (S ++ E)))).node (i + 1) (j + 1) (none, none) = seeList (i + 1) B (none, none) := by
    refine s3Seen_list B _ _ (by omega) (fun m hm => ?_) _
    simp only [s3Sol]
    rw [List.getD_eq_getElem?_getD, List.getD_eq_getElem?_getD, List.getElem?_append_right (by omega),
      List.getElem?_append_left (by omega)]
    congr 2; omega
  have e34 : s3Seen (s3Sol D d (A ++ (B ++ (S ++ E)))).node (j + 1) (k + 1) (none, none) = seeList (j + 1) S (none, none) := by
    refine s3Seen_list S _ _ (by omega) (fun m hm => ?_) _
    simp only [s3Sol]
    rw [List.getD_eq_getElem?_getD, List.getD_eq_getElem?_getD, List.getElem?_append_right (by omega),
      List.getElem?_append_right (by omega), List.getElem?_append_left (by omega)]
    congr 2; omega
  rw [e12, e34, s3At, List.mem_map] at hc
  obtain ⟨mv, hmv, rfl⟩ := hc
  obtain ⟨m1, m2, m3⟩ := mem_s3Moves.1 hmv
  have q12 : ∃ B1 B2, ((seeList (i + 1) B (none, none)).1 = none ↔ 0 ∉ B) ∧
      (∀ p, (seeList (i + 1) B (none, none)).1 = some p → i + 1 ≤ p ∧ p ≤ j) ∧
      ((seeList (i + 1) B (none, none)).1.isSome = true → S3Split B B1 B2 ∧
        (seeList (i + 1) B (none, none)).2 = some (i + B1.length)) := by
    rcases seeList_cases i B with ⟨h, e⟩ | ⟨B1, B2, l, h, e, b1, b2⟩
    · exact ⟨[], [], by rw [e]; simp [h], by rw [e]; simp, by rw [e]; simp⟩
    · refine ⟨B1, B2, by rw [e]; simp [h.mem'], ?_, ?_⟩
      · rw [e]
        rintro p hp
        simp only [Option.some.injEq] at hp
        omega
      · rw [e]; exact fun _ => ⟨h, rfl⟩
  have q34 : ∃ S1 S2, ((seeList (j + 1) S (none, none)).1 = none ↔ 0 ∉ S) ∧
      (∀ p, (seeList (j + 1) S (none, none)).1 = some p → j + 1 ≤ p ∧ p ≤ k) ∧
      ((seeList (j + 1) S (none, none)).1.isSome = true → S3Split S S1 S2 ∧
        (seeList (j + 1) S (none, none)).2 = some (j + S1.length)) := by
    rcases seeList_cases j S with ⟨h, e⟩ | ⟨B1, B2, l, h, e, b1, b2⟩
    · exact ⟨[], [], by rw [e]; simp [h], by rw [e]; simp, by rw [e]; simp⟩
    · refine ⟨B1, B2, by rw [e]; simp [h.mem'], ?_, ?_⟩
      · rw [e]
        rintro p hp
        simp only [Option.some.injEq] at hp
        omega
      · rw [e]; exact fun _ => ⟨h, rfl⟩
  obtain ⟨B1, B2, x1, x2, x3⟩ := q12
  obtain ⟨S1, S2, y1, y2, y3⟩ := q34
  obtain ⟨t1, t2, t3, t4⟩ := s3Data_tables (D := D) (d := d) (C := C) (L := L) hA hB hS hE hi hj hk hhead hlast x1 y1 rfl
  refine ⟨B1, B2, S1, S2, rfl, hA, hE, ⟨hhead, hB, hS, hlast, t1, t2, t3, t4⟩,
    ⟨i, j, k, by omega, by omega, rfl, x1, y1, x2, y2⟩, m1, fun h => (x3 (m2 h)).1, fun h => (y3 (m3 h)).1, ?_⟩
  have hparts := s3Part_move (B1 := B1) (B2 := B2) (S1 := S1) (S2 := S2) hA hB hE hS hi hj hk
    (lr12 := seeList (i + 1) B (none, none)) (lr34 := seeList (j + 1) S (none, none)) m1
    (fun h => ⟨(x3 (m2 h)).2, (x3 (m2 h)).1.1⟩) (fun h => ⟨(y3 (m3 h)).2, (y3 (m3 h)).1.1⟩)
  obtain ⟨new, g1, g2⟩ := s3Concat_squeeze (A ++ (B ++ (S ++ E))) (s3Cuts i j k (seeList (i + 1) B (none, none))
    (seeList (j + 1) S (none, none))) mv.recipe [] hparts.2
  refine ⟨new, g1, ?_⟩
  have := g2 []
  rw [hparts.1] at this
  simpa using this

/-- The candidates of a solution. -/
def s3Cands (D : ℕ → ℕ → ℚ) (d : ℕ → ℚ) (C L : Option ℚ) (sol : List ℕ) : List S3Cand :=
  s3CandI D C L (s3Sol D d sol) sol.length (pyRange 0 (sol.length - 1))

theorem s3Cands_case {D : ℕ → ℕ → ℚ} {d : ℕ → ℚ} {C L : Option ℚ} {sol : List ℕ} (hd : DepotEnds sol) {c : S3Cand}
    (hc : c ∈ s3Cands D d C L sol) : ∃ A B S E B1 B2 S1 S2, S3Case D d C L sol c A B S E B1 B2 S1 S2 := by
  obtain ⟨i, j, k, hi, hij, hjk, hk, h⟩ := (mem_s3CandI _).1 hc
  have e : sol = sol.take (i + 1) ++ ((sol.drop (i + 1)).take (j - i) ++ ((sol.drop (j + 1)).take (k - j) ++ sol.drop (k + 1))) := by
    have e1 : sol.drop (j + 1) = (sol.drop (j + 1)).take (k - j) ++ sol.drop (k + 1) := by
      have := (List.take_append_drop (k - j) (sol.drop (j + 1))).symm
      rw [List.drop_drop, show j + 1 + (k - j) = k + 1 by omega] at this
      exact this
    have e2 : sol.drop (i + 1) = (sol.drop (i + 1)).take (j - i) ++ sol.drop (j + 1) := by
      have := (List.take_append_drop (j - i) (sol.drop (i + 1))).symm
      rw [List.drop_drop, show i + 1 + (j - i) = j + 1 by omega] at this
      exact this
    rw [← e1, ← e2, List.take_append_drop]
  set A := sol.take (i + 1) with hA
  set B := (sol.drop (i + 1)).take (j - i) with hB
  set S := (sol.drop (j + 1)).take (k - j) with hS
  set E := sol.drop (k + 1) with hE
  have lA : A.length = i + 1 := by rw [hA, List.length_take]; omega
  have lB : B.length = j - i := by rw [hB, List.length_take, List.length_drop]; omega
  have lS : S.length = k - j := by rw [hS, List.length_take, List.length_drop]; omega
  have lE : E.length = sol.length - (k + 1) := by rw [hE, List.length_drop]
  have nA : A ≠ [] := List.length_pos_iff.1 (by omega)
  have nB : B ≠ [] := List.length_pos_iff.1 (by omega)
  have nS : S ≠ [] := List.length_pos_iff.1 (by omega)
  have nE : E ≠ [] := List.length_pos_iff.1 (by omega)
  clear_value A B S E
  subst e
  obtain ⟨B1, B2, S1, S2, g⟩ := s3At_case nA nB nS nE hd lA.symm (by omega) (by omega) h
  exact ⟨A, B, S, E, B1, B2, S1, S2, g⟩

theorem s3Part_unique {A B S E B1 B2 S1 S2 B1' B2' S1' S2' : List ℕ} {m : ℕ} (hm : m < 16)
    (h12 : m ∈ [7, 8, 9, 10, 15] → S3Split B B1 B2) (h34 : m ∈ [11, 12, 13, 14, 15] → S3Split S S1 S2)
    (h12' : m ∈ [7, 8, 9, 10, 15] → S3Split B B1' B2') (h34' : m ∈ [11, 12, 13, 14, 15] → S3Split S S1' S2') :
    s3Parts A B S E B1 B2 S1 S2 m = s3Parts A B S E B1' B2' S1' S2' m := by
  have k12 : m ∈ [7, 8, 9, 10, 15] → B1 = B1' ∧ B2 = B2' := fun h => s3Split_unique (h12 h) (h12' h)
  have k34 : m ∈ [11, 12, 13, 14, 15] → S1 = S1' ∧ S2 = S2' := fun h => s3Split_unique (h34 h) (h34' h)
  clear h12 h34 h12' h34'
  have lt : m = 0 ∨ m = 1 ∨ m = 2 ∨ m = 3 ∨ m = 4 ∨ m = 5 ∨ m = 6 ∨ m = 7 ∨ m = 8 ∨ m = 9 ∨ m = 10 ∨ m = 11 ∨ m = 12 ∨
      m = 13 ∨ m = 14 ∨ m = 15 := by omega
  rcases lt with rfl | rfl | rfl | rfl | rfl | rfl | rfl | rfl | rfl | rfl | rfl | rfl | rfl | rfl | rfl | rfl
  iterate 7 rfl
  iterate 4
    obtain ⟨rfl, rfl⟩ := k12 (by decide)
    rfl
  iterate 4
    obtain ⟨rfl, rfl⟩ := k34 (by decide)
    rfl
  obtain ⟨rfl, rfl⟩ := k12 (by decide)
  obtain ⟨rfl, rfl⟩ := k34 (by decide)
  rfl

theorem s3Moves_get {m : ℕ} (hm : m < 16) : ∃ mv ∈ moves3optstar, mv.idx = m := by
  have lt : m = 0 ∨ m = 1 ∨ m = 2 ∨ m = 3 ∨ m = 4 ∨ m = 5 ∨ m = 6 ∨ m = 7 ∨ m = 8 ∨ m = 9 ∨ m = 10 ∨ m = 11 ∨ m = 12 ∨
      m = 13 ∨ m = 14 ∨ m = 15 := by omega
  rcases lt with rfl | rfl | rfl | rfl | rfl | rfl | rfl | rfl | rfl | rfl | rfl | rfl | rfl | rfl | rfl | rfl <;>
    simp [moves3optstar]

theorem s3Moves_idx {mv : S3Move} (h : mv ∈ moves3optstar) : idx moves3optstar mv.idx = .ok mv ∧ mv.idx < 16 := by
  simp only [moves3optstar, List.mem_cons, List.not_mem_nil, or_false] at h
  rcases h with rfl | rfl | rfl | rfl | rfl | rfl | rfl | rfl | rfl | rfl | rfl | rfl | rfl | rfl | rfl | rfl <;>
    exact ⟨rfl, by decide⟩

/-- Every move on every cut is tried. -/
theorem s3Cands_exists {D : ℕ → ℕ → ℚ} {d : ℕ → ℚ} {C L : Option ℚ} {A B S E B1 B2 S1 S2 : List ℕ} (hA : A ≠ [])
    (hB : B ≠ []) (hS : S ≠ []) (hE : E ≠ []) (hd : DepotEnds (A ++ (B ++ (S ++ E)))) {m : ℕ} (hm : m < 16)
    (h12 : m ∈ [7, 8, 9, 10, 15] → S3Split B B1 B2) (h34 : m ∈ [11, 12, 13, 14, 15] → S3Split S S1 S2) :
    ∃ c ∈ s3Cands D d C L (A ++ (B ++ (S ++ E))), c.mv.idx = m ∧
      S3Case D d C L (A ++ (B ++ (S ++ E))) c A B S E B1 B2 S1 S2 := by
  obtain ⟨mv, hmv, rfl⟩ := s3Moves_get hm
  have pA : 0 < A.length := List.length_pos_iff.2 hA
  have pB : 0 < B.length := List.length_pos_iff.2 hB
  have pS : 0 < S.length := List.length_pos_iff.2 hS
  have pE : 0 < E.length := List.length_pos_iff.2 hE
  obtain ⟨i, hi⟩ : ∃ i, i + 1 = A.length := ⟨A.length - 1, by omega⟩
  set sol := A ++ (B ++ (S ++ E)) with hsol
  have lsol : sol.length = i + 1 + B.length + S.length + E.length := by rw [hsol]; simp; omega
  have e12 : s3Seen (s3Sol D d sol).node (i + 1) (i + B.length + 1) (none, none) = seeList (i + 1) B (none, none) := by
    refine s3Seen_list B _ _ (by omega) (fun m hm => ?_) _
    simp only [s3Sol, hsol]
    rw [List.getD_eq_getElem?_getD, List.getD_eq_getElem?_getD, List.getElem?_append_right (by omega),
      List.getElem?_append_left (by omega)]
    congr 2; omega
  have e34 : s3Seen (s3Sol D d sol).node (i + B.length + 1) (i + B.length + S.length + 1) (none, none) =
      seeList (i + B.length + 1) S (none, none) := by
    refine s3Seen_list S _ _ (by omega) (fun m hm => ?_) _
    simp only [s3Sol, hsol]
    rw [List.getD_eq_getElem?_getD, List.getD_eq_getElem?_getD, List.getElem?_append_right (by omega),
      List.getElem?_append_right (by omega), List.getElem?_append_left (by omega)]
    congr 2; omega
  set lr12 := s3Seen (s3Sol D d sol).node (i + 1) (i + B.length + 1) (none, none) with h12def
  set lr34 := s3Seen (s3Sol D d sol).node (i + B.length + 1) (i + B.length + S.length + 1) (none, none) with h34def
  set c : S3Cand := ⟨s3Data D C L (s3Sol D d sol) i (i + B.length) (i + B.length + S.length) lr12.1 lr34.1,
    s3Cuts i (i + B.length) (i + B.length + S.length) lr12 lr34, mv⟩ with hcdef
  have hc : c ∈ s3At D C L (s3Sol D d sol) i (i + B.length) (i + B.length + S.length) lr12 lr34 := by
    rw [s3At, List.mem_map]
    refine ⟨mv, mem_s3Moves.2 ⟨hmv, fun h => ?_, fun h => ?_⟩, rfl⟩
    · rw [e12]
      rcases seeList_cases i B with ⟨h0, _⟩ | ⟨_, _, l, _, e, _⟩
      · exact absurd (h12 h).mem' h0
      · rw [e]; rfl
    · rw [e34]
      rcases seeList_cases (i + B.length) S with ⟨h0, _⟩ | ⟨_, _, l, _, e, _⟩
      · exact absurd (h34 h).mem' h0
      · rw [e]; rfl
  obtain ⟨B1', B2', S1', S2', g⟩ := s3At_case hA hB hS hE hd hi rfl rfl hc
  refine ⟨c, (mem_s3CandI _).2 ⟨i, i + B.length, i + B.length + S.length, ?_, by omega, by omega, by omega, hc⟩, rfl, ?_⟩
  · rw [pyRange, List.mem_range'_1]; omega
  · obtain ⟨g1, g2, g3, g4, g5, g6, g7, g8, g9⟩ := g
    refine ⟨g1, g2, g3, g4, g5, g6, h12, h34, ?_⟩
    have e := s3Part_unique (A := A) (B := B) (S := S) (E := E) (m := c.mv.idx) (s3Moves_idx hmv).2 h12 h34 g7 g8
    rw [e]; exact g9

theorem s3Parts_perm {A B S E B1 B2 S1 S2 : List ℕ} {m : ℕ} (hm : m < 16) (h12 : m ∈ [7, 8, 9, 10, 15] → S3Split B B1 B2)
    (h34 : m ∈ [11, 12, 13, 14, 15] → S3Split S S1 S2) :
    (s3Parts A B S E B1 B2 S1 S2 m).flatten.Perm (A ++ (B ++ (S ++ E))) := by
  have lt : m = 0 ∨ m = 1 ∨ m = 2 ∨ m = 3 ∨ m = 4 ∨ m = 5 ∨ m = 6 ∨ m = 7 ∨ m = 8 ∨ m = 9 ∨ m = 10 ∨ m = 11 ∨ m = 12 ∨
      m = 13 ∨ m = 14 ∨ m = 15 := by omega
  rw [List.perm_iff_count]
  intro x
  have k12 : m ∈ [7, 8, 9, 10, 15] → B.count x = B1.count x + B2.count x := fun h => by rw [(h12 h).1, List.count_append]
  have k34 : m ∈ [11, 12, 13, 14, 15] → S.count x = S1.count x + S2.count x := fun h => by rw [(h34 h).1, List.count_append]
  clear h12 h34
  rcases lt with rfl | rfl | rfl | rfl | rfl | rfl | rfl | rfl | rfl | rfl | rfl | rfl | rfl | rfl | rfl | rfl <;>
    simp [s3Parts, List.count_append] at k12 k34 ⊢ <;> omega

theorem s3Parts_ends {A B S E B1 B2 S1 S2 : List ℕ} (hA : A.head? = some 0) (hE : E.getLast? = some 0) {m : ℕ} (hm : m < 16)
    (h12 : m ∈ [7, 8, 9, 10, 15] → S3Split B B1 B2)
    (h34 : m ∈ [11, 12, 13, 14, 15] → S3Split S S1 S2) : DepotEnds (s3Parts A B S E B1 B2 S1 S2 m).flatten := by
  have lt : m = 0 ∨ m = 1 ∨ m = 2 ∨ m = 3 ∨ m = 4 ∨ m = 5 ∨ m = 6 ∨ m = 7 ∨ m = 8 ∨ m = 9 ∨ m = 10 ∨ m = 11 ∨ m = 12 ∨
      m = 13 ∨ m = 14 ∨ m = 15 := by omega
  obtain ⟨A', rfl⟩ : ∃ A', A = 0 :: A' := by
    cases A with
    | nil => cases hA
    | cons a A' => exact ⟨A', by simpa using hA⟩
  have k12 : m ∈ [7, 8, 9, 10, 15] → B1.getLast? = some 0 := fun h => (h12 h).last
  have k34 : m ∈ [11, 12, 13, 14, 15] → S1.getLast? = some 0 := fun h => (h34 h).last
  clear h12 h34
  constructor
  · rcases lt with rfl | rfl | rfl | rfl | rfl | rfl | rfl | rfl | rfl | rfl | rfl | rfl | rfl | rfl | rfl | rfl <;>
      simp [s3Parts]
  · rcases lt with rfl | rfl | rfl | rfl | rfl | rfl | rfl | rfl | rfl | rfl | rfl | rfl | rfl | rfl | rfl | rfl <;>
      simp [s3Parts] at k12 k34 ⊢ <;>
      simp only [← List.cons_append, ← List.append_assoc] <;>
      exact last_append (by assumption)

end Verif
