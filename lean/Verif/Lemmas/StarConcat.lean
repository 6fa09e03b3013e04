import Verif.Lemmas.StarLoop

/-! # Lemmas for the 3-opt* move: the new solution -/

namespace Verif
open Spec

theorem squeeze_double (P Q : List ℕ) : squeeze (P ++ 0 :: 0 :: Q) = squeeze (P ++ 0 :: Q) := by
  induction P with
  | nil => exact squeeze_zero_zero Q
  | cons a P ih =>
    by_cases ha : a = 0
    · subst ha
      cases P with
      | nil => simp [squeeze_zero_zero]
      | cons b P =>
        by_cases hb : b = 0
        · subst hb
          simp only [List.cons_append, squeeze_zero_zero] at ih ⊢
          exact ih
        · simp only [List.cons_append] at ih ⊢
          rw [squeeze_zero_ne hb, squeeze_zero_ne hb, ih]
    · simp only [List.cons_append]
      rw [squeeze_cons_ne ha, squeeze_cons_ne ha, ih]

theorem s3Slice_next_fwd (sol : List ℕ) {p : ℕ} (hp : p < sol.length) (b : Option ℕ) :
    (s3Slice sol (some p) b true = [] ∧ s3Slice sol (some (p + 1)) b true = []) ∨
      s3Slice sol (some p) b true = sol[p] :: s3Slice sol (some (p + 1)) b true := by
  cases b with
  | none => right; simp only [s3Slice, if_pos, Option.getD_some]; exact List.drop_eq_getElem_cons hp
  | some b =>
    simp only [s3Slice, if_pos, Option.getD_some]
    by_cases hb : p < b
    · right
      have hp' : p < (sol.take b).length := by simp; omega
      rw [List.drop_eq_getElem_cons hp', List.getElem_take]
    · left
      constructor <;> · apply List.drop_eq_nil_of_le; simp; omega

theorem s3Slice_next_rev (sol : List ℕ) {p : ℕ} (hp : p < sol.length) (y : ℕ) :
    (s3Slice sol (some p) (some y) false = [] ∧ s3Slice sol (some (p - 1)) (some y) false = []) ∨
      s3Slice sol (some p) (some y) false = sol[p] :: s3Slice sol (some (p - 1)) (some y) false := by
  simp only [s3Slice, Bool.false_eq_true, if_false]
  by_cases hy : y < p
  · right
    rw [show p - 1 + 1 = p by omega, List.take_succ_eq_append_getElem hp, List.drop_append_of_le_length (by simp; omega)]
    simp
  · left
    constructor <;> · rw [List.reverse_eq_nil_iff]; apply List.drop_eq_nil_of_le; simp; omega

/-- The slice of an entry of the recipe. -/
def s3Part (sol : List ℕ) (cuts : List (Option ℕ)) (r : Option ℕ × Option ℕ × Bool) : List ℕ :=
  s3Slice sol (r.1.bind fun x => cuts.getD x none) (r.2.1.bind fun x => cuts.getD x none) r.2.2

/-- An entry of the recipe that can be executed. -/
def S3Entry (sol : List ℕ) (cuts : List (Option ℕ)) (r : Option ℕ × Option ℕ × Bool) : Prop :=
  (∀ x, (r.1.bind fun x => cuts.getD x none) = some x → x < sol.length) ∧
    (r.2.2 = false → ∃ y, (r.2.1.bind fun x => cuts.getD x none) = some y)

theorem s3Concat_squeeze (sol : List ℕ) (cuts : List (Option ℕ)) (rs : List (Option ℕ × Option ℕ × Bool)) (acc : List ℕ)
    (h : ∀ r ∈ rs, S3Entry sol cuts r) : ∃ new, s3Concat sol cuts rs acc = .ok new ∧
      ∀ Z, squeeze (new ++ Z) = squeeze (acc ++ ((rs.map (s3Part sol cuts)).flatten ++ Z)) := by
  induction rs generalizing acc with
  | nil => exact ⟨acc, rfl, fun Z => by simp⟩
  | cons r rs ih =>
    obtain ⟨a, b, fwd⟩ := r
    obtain ⟨h1, h2⟩ := h (a, b, fwd) (by simp)
    simp only at h1 h2
    have ih := fun acc => ih acc fun r hr => h r (by simp [hr])
    have plain : ∃ new, s3Concat sol cuts rs (acc ++ s3Part sol cuts (a, b, fwd)) = .ok new ∧
        ∀ Z, squeeze (new ++ Z) = squeeze (acc ++ ((((a, b, fwd) :: rs).map (s3Part sol cuts)).flatten ++ Z)) := by
      obtain ⟨new, g1, g2⟩ := ih (acc ++ s3Part sol cuts (a, b, fwd))
      refine ⟨new, g1, fun Z => ?_⟩
      rw [g2 Z]; simp
    unfold s3Concat s3From
    by_cases hl : acc.getLast? = some 0
    · rw [if_pos hl]
      cases ha : (a.bind fun x => cuts.getD x none) with
      | none =>
        simp only
        have : s3Part sol cuts (a, b, fwd) = s3Slice sol none (b.bind fun x => cuts.getD x none) fwd := by
          simp only [s3Part, ha]
        rw [← this]; exact plain
      | some p =>
        have hp := h1 p ha
        simp only
        rw [show idx sol p = .ok sol[p] by rw [idx, List.getElem?_eq_getElem hp]]
        simp only
        by_cases h0 : sol[p] = 0
        · rw [if_pos h0]
          simp only
          have key : ∃ p', p' = (if fwd = true then p + 1 else p - 1) ∧
              ∀ Z, squeeze (acc ++ (s3Slice sol (some p') (b.bind fun x => cuts.getD x none) fwd ++ Z)) =
                squeeze (acc ++ (s3Part sol cuts (a, b, fwd) ++ Z)) := by
            refine ⟨_, rfl, fun Z => ?_⟩
            have hpart : s3Part sol cuts (a, b, fwd) = s3Slice sol (some p) (b.bind fun x => cuts.getD x none) fwd := by
              simp only [s3Part, ha]
            rw [hpart]
            have hcase : (s3Slice sol (some p) (b.bind fun x => cuts.getD x none) fwd = [] ∧
                s3Slice sol (some (if fwd = true then p + 1 else p - 1)) (b.bind fun x => cuts.getD x none) fwd = []) ∨
                s3Slice sol (some p) (b.bind fun x => cuts.getD x none) fwd =
                  sol[p] :: s3Slice sol (some (if fwd = true then p + 1 else p - 1)) (b.bind fun x => cuts.getD x none) fwd := by
              cases fwd with
              | true => exact s3Slice_next_fwd sol hp _
              | false =>
                obtain ⟨y, hy⟩ := h2 rfl
                rw [hy]
                exact s3Slice_next_rev sol hp y
            rcases hcase with ⟨e1, e2⟩ | e
            · rw [e1, e2]
            · obtain ⟨acc', hacc⟩ : ∃ acc', acc = acc' ++ [0] := by
                obtain ⟨Y, y, e⟩ := exists_snoc (X := acc) (by rintro rfl; cases hl)
                rw [e] at hl
                simp only [List.getLast?_append, List.getLast?_singleton, Option.some_or, Option.some.injEq] at hl
                exact ⟨Y, by rw [e, hl]⟩
              rw [e, h0, hacc]
              simp only [List.append_assoc, List.cons_append, List.nil_append]
              rw [squeeze_double]
          obtain ⟨p', hp', key⟩ := key
          rw [← hp']
          obtain ⟨new, g1, g2⟩ := ih (acc ++ s3Slice sol (some p') (b.bind fun x => cuts.getD x none) fwd)
          refine ⟨new, g1, fun Z => ?_⟩
          rw [g2 Z, List.append_assoc, key]
          simp
        · rw [if_neg h0]
          simp only
          have : s3Part sol cuts (a, b, fwd) = s3Slice sol (some p) (b.bind fun x => cuts.getD x none) fwd := by
            simp only [s3Part, ha]
          rw [← this]; exact plain
    · rw [if_neg hl]
      exact plain

/-! ## The slices -/

theorem s3Slice_fwd {sol X S Y : List ℕ} (h : sol = X ++ (S ++ Y)) {a b : ℕ} (ha : a = X.length)
    (hb : b = X.length + S.length) : s3Slice sol (some a) (some b) true = S := by
  subst ha hb h
  simp [s3Slice, ← List.append_assoc, ← List.length_append, List.take_left']

theorem s3Slice_from {sol X S : List ℕ} (h : sol = X ++ S) {a : ℕ} (ha : a = X.length) :
    s3Slice sol (some a) none true = S := by
  subst ha h
  simp [s3Slice]

theorem s3Slice_to {sol S Y : List ℕ} (h : sol = S ++ Y) {b : ℕ} (hb : b = S.length) :
    s3Slice sol none (some b) true = S := by
  subst hb h
  simp [s3Slice]

theorem s3Slice_rev {sol X S Y : List ℕ} (h : sol = X ++ (S ++ Y)) {a b : ℕ} (ha : a + 1 = X.length + S.length)
    (hb : b + 1 = X.length) : s3Slice sol (some a) (some b) false = S.reverse := by
  subst h
  simp only [s3Slice, Bool.false_eq_true, if_false]
  rw [ha, hb]
  congr 1
  simp [← List.append_assoc, ← List.length_append, List.take_left']

/-- The parts of the new solution for each move: `A`, `B`, `S` and `E` are the segments, `B1` is the part of
`B` up to its last depot and `B2` is the rest, likewise for `S`. -/
def s3Parts (A B S E B1 B2 S1 S2 : List ℕ) : ℕ → List (List ℕ)
  | 0 => [A ++ B, S.reverse, E]
  | 1 => [A, (B ++ S).reverse, E]
  | 2 => [A, B.reverse, S ++ E]
  | 3 => [A, B.reverse, S.reverse, E]
  | 4 => [A, S, B, E]
  | 5 => [A, S, B.reverse, E]
  | 6 => [A, S.reverse, B, E]
  | 7 => [A, S ++ E, B2, B1]
  | 8 => [A, S.reverse, E, B2, B1]
  | 9 => [A, E, B2 ++ S, B1]
  | 10 => [A, E, B2, S.reverse, B1]
  | 11 => [A ++ B, E, S2, S1]
  | 12 => [A, B.reverse, E, S2, S1]
  | 13 => [A, E, S2, B ++ S1]
  | 14 => [A, E, S2, B.reverse, S1]
  | _ => [A, E, B2, B1, S2, S1]

theorem mem_s3Moves {l12 l34 : Option ℕ} {mv : S3Move} :
    mv ∈ s3Moves l12 l34 ↔ mv ∈ moves3optstar ∧ (mv.idx ∈ [7, 8, 9, 10, 15] → l12.isSome = true) ∧
      (mv.idx ∈ [11, 12, 13, 14, 15] → l34.isSome = true) := by
  unfold s3Moves
  cases h1 : l12.isSome <;> cases h2 : l34.isSome
  all_goals
    simp only [Bool.and_true, Bool.and_false, Bool.false_eq_true, if_false, if_true, moves3optstar, List.take_succ_cons,
      List.take_zero, List.drop_succ_cons, List.drop_zero, List.cons_append, List.nil_append, List.mem_cons, List.not_mem_nil, or_false]
    constructor
    · intro h
      repeat' (first | (rcases h with rfl | h) | subst h)
      all_goals simp
    · rintro ⟨h, g1, g2⟩
      repeat' (first | (rcases h with rfl | h) | subst h)
      all_goals first | (simp at g1; done) | (simp at g2; done) | simp

/-- The slices of the recipe of each move. -/
theorem s3Part_move {A B S E B1 B2 S1 S2 : List ℕ} (hA : A ≠ []) (hB : B ≠ []) (hE : E ≠ []) (hS : S ≠ []) {i j k : ℕ}
    (hi : i + 1 = A.length) (hj : j = i + B.length) (hk : k = j + S.length) {lr12 lr34 : Option ℕ × Option ℕ}
    {mv : S3Move} (hm : mv ∈ moves3optstar)
    (h12 : mv.idx ∈ [7, 8, 9, 10, 15] → lr12.2 = some (i + B1.length) ∧ B = B1 ++ B2)
    (h34 : mv.idx ∈ [11, 12, 13, 14, 15] → lr34.2 = some (j + S1.length) ∧ S = S1 ++ S2) :
    mv.recipe.map (s3Part (A ++ (B ++ (S ++ E))) (s3Cuts i j k lr12 lr34)) = s3Parts A B S E B1 B2 S1 S2 mv.idx ∧
      ∀ r ∈ mv.recipe, S3Entry (A ++ (B ++ (S ++ E))) (s3Cuts i j k lr12 lr34) r := by
  have pA : 0 < A.length := List.length_pos_iff.2 hA
  have pB : 0 < B.length := List.length_pos_iff.2 hB
  have pS : 0 < S.length := List.length_pos_iff.2 hS
  have pE : 0 < E.length := List.length_pos_iff.2 hE
  simp only [moves3optstar, List.mem_cons, List.not_mem_nil, or_false] at hm
  have r3 : s3Slice (A ++ (B ++ (S ++ E))) none (some (j + 1)) true = A ++ B :=
    s3Slice_to (Y := S ++ E) (by simp) (by simp; omega)
  have r1 : s3Slice (A ++ (B ++ (S ++ E))) none (some (i + 1)) true = A := s3Slice_to (Y := B ++ (S ++ E)) rfl hi
  have r42 : s3Slice (A ++ (B ++ (S ++ E))) (some k) (some j) false = S.reverse :=
    s3Slice_rev (X := A ++ B) (Y := E) (by simp) (by simp; omega) (by simp; omega)
  have r40 : s3Slice (A ++ (B ++ (S ++ E))) (some k) (some i) false = (B ++ S).reverse :=
    s3Slice_rev (X := A) (Y := E) (by simp) (by simp; omega) (by omega)
  have r20 : s3Slice (A ++ (B ++ (S ++ E))) (some j) (some i) false = B.reverse :=
    s3Slice_rev (X := A) (Y := S ++ E) (by simp) (by omega) (by omega)
  have r5 : s3Slice (A ++ (B ++ (S ++ E))) (some (k + 1)) none true = E :=
    s3Slice_from (X := A ++ (B ++ S)) (by simp) (by simp; omega)
  have r3n : s3Slice (A ++ (B ++ (S ++ E))) (some (j + 1)) none true = S ++ E :=
    s3Slice_from (X := A ++ B) (by simp) (by simp; omega)
  have r35 : s3Slice (A ++ (B ++ (S ++ E))) (some (j + 1)) (some (k + 1)) true = S :=
    s3Slice_fwd (X := A ++ B) (Y := E) (by simp) (by simp; omega) (by simp; omega)
  have r13 : s3Slice (A ++ (B ++ (S ++ E))) (some (i + 1)) (some (j + 1)) true = B :=
    s3Slice_fwd (X := A) (Y := S ++ E) (by simp) (by omega) (by omega)
  have q12 : B = B1 ++ B2 → s3Slice (A ++ (B ++ (S ++ E))) (some (i + B1.length + 1)) (some (j + 1)) true = B2 ∧
      s3Slice (A ++ (B ++ (S ++ E))) (some (i + 1)) (some (i + B1.length + 1)) true = B1 ∧
      s3Slice (A ++ (B ++ (S ++ E))) (some (i + B1.length + 1)) (some (k + 1)) true = B2 ++ S := by
    rintro rfl
    simp only [List.length_append] at hj
    exact ⟨s3Slice_fwd (X := A ++ B1) (Y := S ++ E) (by simp) (by simp; omega) (by simp; omega),
      s3Slice_fwd (X := A) (Y := B2 ++ (S ++ E)) (by simp) (by omega) (by omega),
      s3Slice_fwd (X := A ++ B1) (Y := E) (by simp) (by simp; omega) (by simp; omega)⟩
  have q34 : S = S1 ++ S2 → s3Slice (A ++ (B ++ (S ++ E))) (some (j + S1.length + 1)) (some (k + 1)) true = S2 ∧
      s3Slice (A ++ (B ++ (S ++ E))) (some (j + 1)) (some (j + S1.length + 1)) true = S1 ∧
      s3Slice (A ++ (B ++ (S ++ E))) (some (i + 1)) (some (j + S1.length + 1)) true = B ++ S1 := by
    rintro rfl
    simp only [List.length_append] at hk
    exact ⟨s3Slice_fwd (X := A ++ (B ++ S1)) (Y := E) (by simp) (by simp; omega) (by simp; omega),
      s3Slice_fwd (X := A ++ B) (Y := S2 ++ E) (by simp) (by simp; omega) (by simp; omega),
      s3Slice_fwd (X := A) (Y := S2 ++ E) (by simp) (by omega) (by simp; omega)⟩
  obtain ⟨x12, y12⟩ := lr12
  obtain ⟨x34, y34⟩ := lr34
  rcases hm with rfl | rfl | rfl | rfl | rfl | rfl | rfl | rfl | rfl | rfl | rfl | rfl | rfl | rfl | rfl | rfl
  all_goals
    first
    | replace h12 := h12 (by decide)
      obtain ⟨e1, e2⟩ := h12
      simp only at e1
      subst e1
      obtain ⟨q1, q2, q3⟩ := q12 e2
      have l12 := congrArg List.length e2
      simp only [List.length_append] at l12
    | skip
  all_goals
    first
    | replace h34 := h34 (by decide)
      obtain ⟨f1, f2⟩ := h34
      simp only at f1
      subst f1
      obtain ⟨q4, q5, q6⟩ := q34 f2
      have l34 := congrArg List.length f2
      simp only [List.length_append] at l34
    | skip
  all_goals
    try clear h12
    try clear h34
    refine ⟨?_, ?_⟩
    · clear hi hj hk q12 q34
      try clear l12 e2
      try clear l34 f2
      simp only [List.map_cons, List.map_nil, s3Part, s3Cuts, Option.bind_none, Option.bind_some, List.getD_cons_zero,
        List.getD_cons_succ, Option.map_some, s3Parts, *]
    · simp [S3Entry, s3Cuts]
      try omega

end Verif
