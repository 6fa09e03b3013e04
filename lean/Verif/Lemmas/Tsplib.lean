import Verif.Spec.Tsplib
import Verif.Lemmas.Basic

/-! # Lemmas on the explicit matrix reader -/

namespace Verif

open Spec

/-- First and one past the last value of `i` for a value of `j`. -/
def lo : EWFormat → ℕ → ℕ
  | .upperRow, j => j + 1
  | .lowerCol, j => j + 1
  | .upperDiagRow, j => j
  | _, _ => 0

def hi (n : ℕ) : EWFormat → ℕ → ℕ
  | .lowerRow, j => j
  | .lowerDiagRow, j => j + 1
  | _, _ => n

def rowCells (f : EWFormat) (n j : ℕ) : List (ℕ × ℕ) :=
  (List.range' (lo f j) (hi n f j - lo f j)).map fun i => (i, j)

def cells (f : EWFormat) (n : ℕ) : List (ℕ × ℕ) := (List.range' 0 n).flatMap (rowCells f n)

/-- The cells from a position on. -/
def restCells (f : EWFormat) (n : ℕ) (p : ℕ × ℕ) : List (ℕ × ℕ) :=
  if p.2 < n then (List.range' p.1 (hi n f p.2 - p.1)).map (fun i => (i, p.2)) ++
    (List.range' (p.2 + 1) (n - (p.2 + 1))).flatMap (rowCells f n)
  else []

def ValidPos (f : EWFormat) (n : ℕ) (p : ℕ × ℕ) : Prop :=
  p.2 < n ∧ lo f p.2 ≤ p.1 ∧ p.1 < hi n f p.2

theorem valid_lt {f : EWFormat} {n : ℕ} {p : ℕ × ℕ} (h : ValidPos f n p) : p.1 < n ∧ p.2 < n := by
  obtain ⟨h1, h2, h3⟩ := h
  cases f <;> simp only [lo, hi] at h2 h3 <;> omega

theorem valid_not_complete {f : EWFormat} {n : ℕ} {p : ℕ × ℕ} (h : ValidPos f n p) :
    ijComplete f n p = false := by
  obtain ⟨i, j⟩ := p
  obtain ⟨h1, h2⟩ := valid_lt h
  simp only at h1 h2
  cases f <;> simp [ijComplete] <;> omega

theorem complete_rest {f : EWFormat} {n : ℕ} {p : ℕ × ℕ} (h : ijComplete f n p = true) :
    restCells f n p = [] ∧ ¬ (p.1 < n ∧ p.2 < n) := by
  obtain ⟨i, j⟩ := p
  cases f <;> simp [ijComplete] at h <;> obtain ⟨rfl, h⟩ := h
  · subst h; simp [restCells]
  · subst h; simp [restCells]
  · subst h; simp [restCells]
  · subst h; simp [restCells, hi]
  · subst h; simp [restCells]
  · subst h; simp [restCells, hi]

theorem complete_iff {f : EWFormat} {n : ℕ} {p : ℕ × ℕ} : ijComplete f n p = true ↔
    match f with
    | .fullMatrix => p.1 = 0 ∧ p.2 = n
    | .lowerRow => p.1 = 0 ∧ p.2 = n
    | .lowerDiagRow => p.1 = 0 ∧ p.2 = n
    | .upperRow => p.1 = n ∧ p.2 + 1 = n
    | .lowerCol => p.1 = n ∧ p.2 + 1 = n
    | .upperDiagRow => p.1 = n ∧ p.2 = n
    | .other => False := by
  obtain ⟨i, j⟩ := p
  cases f <;> simp [ijComplete]

theorem next_valid {f : EWFormat} (hf : f ≠ .other) {n : ℕ} {p : ℕ × ℕ} (h : ValidPos f n p) :
    (ValidPos f n (ijNext f n p) ∨ ijComplete f n (ijNext f n p) = true) ∧
      restCells f n p = p :: restCells f n (ijNext f n p) := by
  obtain ⟨i, j⟩ := p
  obtain ⟨h1, h2, h3⟩ := h
  simp only at h1 h2 h3
  have step : i + 1 < hi n f j → restCells f n (i, j) = (i, j) :: restCells f n (i + 1, j) := by
    intro h
    have e : hi n f j - i = (hi n f j - (i + 1)) + 1 := by omega
    simp only [restCells, if_pos h1]
    rw [e, List.range'_succ]
    simp
  have stepEnd : i + 1 = hi n f j → ∀ p', p' = (lo f (j + 1), j + 1) →
      restCells f n (i, j) = (i, j) :: restCells f n p' := by
    rintro h p' rfl
    simp only [restCells, if_pos h1]
    rw [show hi n f j - i = 0 + 1 by omega, List.range'_succ, List.range'_zero]
    simp only [List.map_cons, List.map_nil, List.cons_append, List.nil_append, List.cons.injEq, true_and]
    by_cases hj : j + 1 < n
    · rw [if_pos hj, show n - (j + 1) = (n - (j + 1 + 1)) + 1 by omega, List.range'_succ,
        List.flatMap_cons]
      rfl
    · rw [if_neg hj, show n - (j + 1) = 0 by omega]
      simp
  cases f
  · -- fullMatrix
    simp only [hi, lo] at *
    by_cases h : i + 1 = n
    · refine ⟨?_, stepEnd h _ (by simp [ijNext, h])⟩
      simp only [ijNext, if_pos h, ValidPos, complete_iff, lo, hi, true_and]
      omega
    · refine ⟨?_, ?_⟩
      · simp only [ijNext, if_neg h, ValidPos, complete_iff, lo, hi, true_and]
        omega
      · rw [step (by omega)]; simp [ijNext, h]
  · -- lowerRow
    simp only [hi, lo] at *
    by_cases h : i + 1 = j
    · refine ⟨?_, stepEnd h _ (by simp [ijNext, h])⟩
      simp only [ijNext, if_pos h, ValidPos, complete_iff, lo, hi, true_and]
      omega
    · refine ⟨?_, ?_⟩
      · simp only [ijNext, if_neg h, ValidPos, complete_iff, lo, hi, true_and]
        omega
      · rw [step (by omega)]; simp [ijNext, h]
  · -- lowerDiagRow
    simp only [hi, lo] at *
    by_cases h : i + 1 = j + 1
    · refine ⟨?_, stepEnd h _ (by simp [ijNext]; omega)⟩
      simp only [ijNext, if_pos h, ValidPos, complete_iff, lo, hi, true_and]
      omega
    · refine ⟨?_, ?_⟩
      · simp only [ijNext, if_neg h, ValidPos, complete_iff, lo, hi, true_and]
        omega
      · rw [step (by omega)]; simp only [ijNext, if_neg h]
  · -- upperRow
    simp only [hi, lo] at *
    by_cases h : i + 1 = n
    · refine ⟨?_, stepEnd h _ (by simp [ijNext, h])⟩
      simp only [ijNext, if_pos h, ValidPos, complete_iff, lo, hi, true_and]
      omega
    · refine ⟨?_, ?_⟩
      · simp only [ijNext, if_neg h, ValidPos, complete_iff, lo, hi, true_and]
        omega
      · rw [step (by omega)]; simp [ijNext, h]
  · -- upperDiagRow
    simp only [hi, lo] at *
    by_cases h : i + 1 = n
    · refine ⟨?_, stepEnd h _ (by simp [ijNext, h])⟩
      simp only [ijNext, if_pos h, ValidPos, complete_iff, lo, hi, true_and]
      omega
    · refine ⟨?_, ?_⟩
      · simp only [ijNext, if_neg h, ValidPos, complete_iff, lo, hi, true_and]
        omega
      · rw [step (by omega)]; simp [ijNext, h]
  · -- lowerCol
    simp only [hi, lo] at *
    by_cases h : i + 1 = n
    · refine ⟨?_, stepEnd h _ (by simp [ijNext, h])⟩
      simp only [ijNext, if_pos h, ValidPos, complete_iff, lo, hi, true_and]
      omega
    · refine ⟨?_, ?_⟩
      · simp only [ijNext, if_neg h, ValidPos, complete_iff, lo, hi, true_and]
        omega
      · rw [step (by omega)]; simp [ijNext, h]
  · exact absurd rfl hf

theorem start_valid {f : EWFormat} (hf : f ≠ .other) {n : ℕ} (hn : 1 ≤ n) :
    (ValidPos f n (ijStart f) ∨ ijComplete f n (ijStart f) = true) ∧
      restCells f n (ijStart f) = cells f n := by
  obtain ⟨m, rfl⟩ : ∃ m, n = m + 1 := ⟨n - 1, by omega⟩
  cases f
  · refine ⟨by simp [ijStart, ValidPos, lo, hi], ?_⟩
    simp [restCells, ijStart, cells, rowCells, List.range'_succ, lo, hi]
  · constructor
    · simp only [ijStart, ValidPos, lo, hi, complete_iff, true_and]; omega
    · cases m with
      | zero => simp [restCells, ijStart, cells, rowCells, List.range'_succ, lo, hi]
      | succ m => simp [restCells, ijStart, cells, rowCells, List.range'_succ, lo, hi]
  · refine ⟨by simp [ijStart, ValidPos, lo, hi], ?_⟩
    simp [restCells, ijStart, cells, rowCells, List.range'_succ, lo, hi]
  · constructor
    · simp only [ijStart, ValidPos, lo, hi, complete_iff, true_and]; omega
    · simp [restCells, ijStart, cells, rowCells, List.range'_succ, lo, hi]
  · refine ⟨by simp [ijStart, ValidPos, lo, hi], ?_⟩
    simp [restCells, ijStart, cells, rowCells, List.range'_succ, lo, hi]
  · constructor
    · simp only [ijStart, ValidPos, lo, hi, complete_iff, true_and]; omega
    · simp [restCells, ijStart, cells, rowCells, List.range'_succ, lo, hi]
  · exact absurd rfl hf

def symFold (D : ℕ → ℕ → ℚ) (l : List ((ℕ × ℕ) × ℚ)) : ℕ → ℕ → ℚ :=
  l.foldl (fun D x => symSet D x.1.1 x.1.2 x.2) D

theorem readWeights_spec {f : EWFormat} (hf : f ≠ .other) {n : ℕ} :
    ∀ (vs : List ℚ) (p : ℕ × ℕ) (D : ℕ → ℕ → ℚ),
    (ValidPos f n p ∨ ijComplete f n p = true) →
    (vs.length < (restCells f n p).length →
      ∃ p' D', readWeights f n vs p D = .ok (p', D') ∧ ijComplete f n p' = false) ∧
    (vs.length = (restCells f n p).length →
      ∃ p', readWeights f n vs p D = .ok (p', symFold D ((restCells f n p).zip vs)) ∧
        ijComplete f n p' = true) ∧
    ((restCells f n p).length < vs.length → readWeights f n vs p D = .error .indexError)
  | [], p, D, h => by
    rcases h with h | h
    · have := (next_valid hf h).2
      refine ⟨fun _ => ⟨p, D, rfl, valid_not_complete h⟩, fun e => ?_, fun e => ?_⟩
      · rw [this] at e; simp at e
      · simp at e
    · obtain ⟨k1, k2⟩ := complete_rest h
      rw [k1]
      exact ⟨fun e => by simp at e, fun _ => ⟨p, by simp [readWeights, symFold], h⟩,
        fun e => by simp at e⟩
  | v :: vs, p, D, h => by
    rcases h with h | h
    · obtain ⟨k1, k2⟩ := next_valid hf h
      obtain ⟨g1, g2, g3⟩ := readWeights_spec hf vs (ijNext f n p) (symSet D p.1 p.2 v) k1
      rw [k2]
      simp only [List.length_cons, Nat.add_lt_add_iff_right, Nat.add_right_cancel_iff]
      rw [readWeights, if_pos (valid_lt h)]
      exact ⟨g1, fun e => by
        obtain ⟨p', q1, q2⟩ := g2 e
        exact ⟨p', by rw [q1]; rfl, q2⟩, g3⟩
    · obtain ⟨k1, k2⟩ := complete_rest h
      rw [k1, readWeights, if_neg k2]
      exact ⟨fun e => by simp at e, fun e => by simp at e, fun _ => rfl⟩

theorem readExplicit_spec {f : EWFormat} (hf : f ≠ .other) {n : ℕ} (hn : 1 ≤ n) (vs : List ℚ) :
    (vs.length < (cells f n).length → readExplicit f n vs = .error .ioError) ∧
    (vs.length = (cells f n).length →
      readExplicit f n vs = .ok (symFold (fun _ _ => 0) ((cells f n).zip vs))) ∧
    ((cells f n).length < vs.length → readExplicit f n vs = .error .indexError) := by
  obtain ⟨h1, h2⟩ := start_valid hf hn
  obtain ⟨g1, g2, g3⟩ := readWeights_spec hf vs _ (fun _ _ => 0) h1
  rw [h2] at g1 g2 g3
  refine ⟨fun e => ?_, fun e => ?_, fun e => ?_⟩
  · obtain ⟨p', D', q1, q2⟩ := g1 e
    simp [readExplicit, q1, q2]
  · obtain ⟨p', q1, q2⟩ := g2 e
    simp [readExplicit, q1, q2]
  · simp [readExplicit, g3 e]

theorem mem_cells {f : EWFormat} {n i j : ℕ} :
    (i, j) ∈ cells f n ↔ j < n ∧ lo f j ≤ i ∧ i < hi n f j := by
  simp only [cells, rowCells, List.mem_flatMap, List.mem_map, List.mem_range'_1, Prod.mk.injEq]
  constructor
  · rintro ⟨k, hk, m, hm, rfl, rfl⟩
    omega
  · rintro ⟨h1, h2, h3⟩
    exact ⟨j, by omega, i, by omega, rfl, rfl⟩

theorem symFold_sym {M : ℕ → ℕ → ℚ} (hM : Symm M) (a b : ℕ) :
    ∀ (l : List ((ℕ × ℕ) × ℚ)) (D : ℕ → ℕ → ℚ), (∀ x ∈ l, x.2 = M x.1.1 x.1.2) →
    symFold D l a b = if (∃ x ∈ l, x.1 = (a, b) ∨ x.1 = (b, a)) then M a b else D a b
  | [], D, _ => by simp [symFold]
  | x :: l, D, h => by
    have ih := symFold_sym hM a b l (symSet D x.1.1 x.1.2 x.2) (fun y hy => h y (by simp [hy]))
    have e : symFold D (x :: l) = symFold (symSet D x.1.1 x.1.2 x.2) l := rfl
    rw [e, ih]
    have hx := h x (by simp)
    by_cases h1 : ∃ y ∈ l, y.1 = (a, b) ∨ y.1 = (b, a)
    · rw [if_pos h1, if_pos]
      obtain ⟨y, hy, h⟩ := h1
      exact ⟨y, by simp [hy], h⟩
    · rw [if_neg h1]
      obtain ⟨⟨i, j⟩, v⟩ := x
      simp only at hx
      simp only [symSet]
      by_cases h2 : (a = i ∧ b = j) ∨ (a = j ∧ b = i)
      · rw [if_pos h2, if_pos]
        · rw [hx]
          rcases h2 with ⟨rfl, rfl⟩ | ⟨rfl, rfl⟩
          · rfl
          · exact hM _ _
        · refine ⟨((i, j), v), by simp, ?_⟩
          simp only [Prod.mk.injEq]
          omega
      · rw [if_neg h2, if_neg]
        rintro ⟨y, hy, h⟩
        rcases List.mem_cons.1 hy with rfl | hy
        · simp only [Prod.mk.injEq] at h
          omega
        · exact h1 ⟨y, hy, h⟩

/-- A value that no later value overwrites. -/
theorem symFold_last (D : ℕ → ℕ → ℚ) (xs ys : List ((ℕ × ℕ) × ℚ)) (x : (ℕ × ℕ) × ℚ) (a b : ℕ)
    (hx : x.1 = (a, b) ∨ x.1 = (b, a)) (h : ∀ y ∈ ys, y.1 ≠ (a, b) ∧ y.1 ≠ (b, a)) :
    symFold D (xs ++ x :: ys) a b = x.2 := by
  have key : ∀ (ys : List ((ℕ × ℕ) × ℚ)) (D : ℕ → ℕ → ℚ),
      (∀ y ∈ ys, y.1 ≠ (a, b) ∧ y.1 ≠ (b, a)) → symFold D ys a b = D a b := by
    intro ys
    induction ys with
    | nil => intro D _; rfl
    | cons y ys ih =>
      intro D h
      have e : symFold D (y :: ys) = symFold (symSet D y.1.1 y.1.2 y.2) ys := rfl
      rw [e, ih _ fun z hz => h z (by simp [hz])]
      have := h y (by simp)
      obtain ⟨⟨i, j⟩, v⟩ := y
      simp only [ne_eq, Prod.mk.injEq] at this
      simp only [symSet]
      rw [if_neg (by omega)]
  unfold symFold
  rw [List.foldl_append, List.foldl_cons]
  have := key ys (symSet (List.foldl (fun D x => symSet D x.1.1 x.1.2 x.2) D xs) x.1.1 x.1.2 x.2) h
  unfold symFold at this
  rw [this]
  obtain ⟨⟨i, j⟩, v⟩ := x
  simp only [Prod.mk.injEq] at hx
  simp only [symSet]
  rw [if_pos (by omega)]

/-- The cells and the entries of the specification. -/
theorem cells_entries {f : EWFormat} (hf : f ≠ .other) (n : ℕ) :
    entries n f = (cells f n).map fun p => if f = .lowerCol then p else (p.2, p.1) := by
  cases f <;>
    simp [entries, cells, rowCells, lo, hi, List.map_flatMap, List.range_eq_range', Function.comp_def] at hf ⊢

end Verif
