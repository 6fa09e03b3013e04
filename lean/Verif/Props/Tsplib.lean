import Verif.Lemmas.Tsplib
import Mathlib.Data.List.GetD
import Mathlib.Algebra.Order.Ring.Abs

/-!
# Explicit matrices of TSPLIB files (C34) and the depot permutation (C35)
-/

namespace Verif

open Spec

theorem entries_length {f : EWFormat} (hf : f ≠ .other) (n : ℕ) :
    (entries n f).length = (cells f n).length := by
  rw [cells_entries hf]; simp

/-- C34. The values of a symmetric matrix, listed in a format, are read as that matrix. The diagonal is
zero if the format does not list it. -/
theorem C34_symmetric {f : EWFormat} (hf : f ≠ .other) {n : ℕ} (hn : 1 ≤ n) {M : ℕ → ℕ → ℚ}
    (hM : Symm M) :
    ∃ D, readExplicit f n ((entries n f).map fun p => M p.1 p.2) = .ok D ∧
      ∀ a b, a < n → b < n → D a b = if a = b ∧ hasDiag f = false then 0 else M a b := by
  have hv : (entries n f).map (fun p => M p.1 p.2) = (cells f n).map fun p => M p.1 p.2 := by
    rw [cells_entries hf, List.map_map]
    refine List.map_congr_left fun p _ => ?_
    by_cases h : f = .lowerCol
    · simp [h]
    · simp only [Function.comp_apply, if_neg h]
      exact hM _ _
  rw [hv]
  refine ⟨_, (readExplicit_spec hf hn _).2.1 (by simp), fun a b ha hb => ?_⟩
  rw [symFold_sym hM a b _ _ (by
    intro x hx
    rw [List.zip_map_right, List.mem_map] at hx
    obtain ⟨y, hy, rfl⟩ := hx
    have : y.1 = y.2 := by
      rw [List.mem_iff_getElem] at hy
      obtain ⟨k, hk, rfl⟩ := hy
      simp
    simp [this])]
  have hmem : (∃ x ∈ (cells f n).zip ((cells f n).map fun p => M p.1 p.2),
      x.1 = (a, b) ∨ x.1 = (b, a)) ↔ ((a, b) ∈ cells f n ∨ (b, a) ∈ cells f n) := by
    constructor
    · rintro ⟨x, hx, h⟩
      have := List.of_mem_zip (a := x.1) (b := x.2) hx
      rcases h with h | h
      · left; rw [← h]; exact this.1
      · right; rw [← h]; exact this.1
    · have key : ∀ p ∈ cells f n, ∃ x ∈ (cells f n).zip ((cells f n).map fun p => M p.1 p.2),
          x.1 = p := by
        intro p hp
        refine ⟨(p, M p.1 p.2), ?_, rfl⟩
        rw [List.zip_map_right, List.mem_map]
        refine ⟨(p, p), ?_, rfl⟩
        rw [List.mem_iff_getElem] at hp ⊢
        obtain ⟨k, hk, rfl⟩ := hp
        exact ⟨k, by simpa using hk, by simp⟩
      rintro (h | h)
      · obtain ⟨x, hx, e⟩ := key _ h
        exact ⟨x, hx, Or.inl e⟩
      · obtain ⟨x, hx, e⟩ := key _ h
        exact ⟨x, hx, Or.inr e⟩
  by_cases h : a = b ∧ hasDiag f = false
  · rw [if_pos h, if_neg]
    rw [hmem, mem_cells, mem_cells]
    obtain ⟨rfl, h⟩ := h
    cases f <;> simp [hasDiag] at h hf <;> simp [lo, hi]
  · rw [if_neg h, if_pos]
    rw [hmem, mem_cells, mem_cells]
    cases f <;> simp [hasDiag] at h hf <;> simp only [lo, hi] <;> omega

/-- C34. The reader accepts exactly the number of values the format prescribes: too few are an
`IOError`, too many an `IndexError`. -/
theorem C34_count {f : EWFormat} (hf : f ≠ .other) {n : ℕ} (hn : 1 ≤ n) (vs : List ℚ) :
    (vs.length < (entries n f).length → readExplicit f n vs = .error .ioError) ∧
    (vs.length = (entries n f).length → ∃ D, readExplicit f n vs = .ok D) ∧
    ((entries n f).length < vs.length → readExplicit f n vs = .error .indexError) := by
  rw [entries_length hf]
  obtain ⟨h1, h2, h3⟩ := readExplicit_spec hf hn vs
  exact ⟨h1, fun e => ⟨_, h2 e⟩, h3⟩

/-- C34. An unknown format is an `IOError`, whatever the values. -/
theorem C34_unknown {n : ℕ} (hn : 1 ≤ n) (vs : List ℚ) :
    readExplicit .other n vs = .error .ioError := by
  have key : ∀ (vs : List ℚ) (D : ℕ → ℕ → ℚ), ∃ D', readWeights .other n vs (0, 0) D = .ok ((0, 0), D') := by
    intro vs
    induction vs with
    | nil => intro D; exact ⟨D, rfl⟩
    | cons v t ih =>
      intro D
      rw [readWeights, if_pos ⟨by omega, by omega⟩]
      exact ih _
  obtain ⟨D', h⟩ := key vs (fun _ _ => 0)
  simp [readExplicit, ijStart, h, ijComplete]

theorem cells_lex (f : EWFormat) (n : ℕ) :
    (cells f n).Pairwise fun p q => p.2 < q.2 ∨ (p.2 = q.2 ∧ p.1 < q.1) := by
  unfold cells
  rw [List.pairwise_flatMap]
  constructor
  · intro j _
    unfold rowCells
    rw [List.pairwise_map]
    exact (List.pairwise_lt_range' 1).imp fun h => Or.inr ⟨rfl, h⟩
  · refine (List.pairwise_lt_range' 1).imp fun {a b} h x hx y hy => Or.inl ?_
    simp only [rowCells, List.mem_map] at hx hy
    obtain ⟨_, _, rfl⟩ := hx
    obtain ⟨_, _, rfl⟩ := hy
    exact h

/-- The value at a cell that is not overwritten through the diagonal. -/
theorem read_at {f : EWFormat} {n : ℕ} {vs : List ℚ} (hl : vs.length = (cells f n).length) {k : ℕ}
    (hk : k < (cells f n).length)
    (hsw : ((cells f n)[k].2, (cells f n)[k].1) ∈ cells f n → (cells f n)[k].1 ≤ (cells f n)[k].2)
    {a b : ℕ} (hab : (cells f n)[k] = (a, b) ∨ (cells f n)[k] = (b, a)) :
    symFold (fun _ _ => 0) ((cells f n).zip vs) a b = vs[k]'(by omega) := by
  have hz : k < ((cells f n).zip vs).length := by simp; omega
  have e : (cells f n).zip vs = ((cells f n).zip vs).take k ++ ((cells f n).zip vs)[k] ::
      ((cells f n).zip vs).drop (k + 1) := by
    rw [List.getElem_cons_drop, List.take_append_drop]
  rw [e, symFold_last]
  · simp
  · simpa using hab
  · intro y hy
    rw [List.mem_iff_getElem] at hy
    obtain ⟨m, hm, rfl⟩ := hy
    simp only [List.length_drop, List.length_zip] at hm
    simp only [List.getElem_drop, List.getElem_zip]
    have hlex := List.pairwise_iff_getElem.1 (cells_lex f n) k (k + 1 + m) hk (by omega) (by omega)
    have hmem : (cells f n)[k + 1 + m]'(by omega) ∈ cells f n := List.getElem_mem _
    rcases hab with h | h
    · rw [h] at hlex hsw
      simp only at hlex hsw
      constructor
      · intro e; rw [e] at hlex; simp only at hlex; omega
      · intro e; rw [e] at hlex hmem; simp only at hlex; have := hsw hmem; omega
    · rw [h] at hlex hsw
      simp only at hlex hsw
      constructor
      · intro e; rw [e] at hlex hmem; simp only at hlex; have := hsw hmem; omega
      · intro e; rw [e] at hlex; simp only at hlex; omega

theorem symFold_symm : ∀ (l : List ((ℕ × ℕ) × ℚ)) (D : ℕ → ℕ → ℚ), Symm D → Symm (symFold D l)
  | [], _, h => h
  | x :: l, D, h => by
    refine symFold_symm l (symSet D x.1.1 x.1.2 x.2) ?_
    intro a b
    simp only [symSet]
    by_cases e : (a = x.1.1 ∧ b = x.1.2) ∨ (a = x.1.2 ∧ b = x.1.1)
    · rw [if_pos e, if_pos (by omega)]
    · rw [if_neg e, if_neg (by omega)]
      exact h a b

/-- C34. In the triangular formats any values make a matrix: it is symmetric and lists those values. -/
theorem C34_triangular {f : EWFormat} (hf : f ≠ .other) (hf' : f ≠ .fullMatrix) {n : ℕ} (hn : 1 ≤ n)
    {vs : List ℚ} (hl : vs.length = (entries n f).length) :
    ∃ D, readExplicit f n vs = .ok D ∧ Symm D ∧ (entries n f).map (fun p => D p.1 p.2) = vs := by
  rw [entries_length hf] at hl
  refine ⟨_, (readExplicit_spec hf hn vs).2.1 hl, symFold_symm _ _ (fun _ _ => rfl), ?_⟩
  have hS := symFold_symm ((cells f n).zip vs) (fun _ _ => 0) (fun _ _ => rfl)
  have hv : (entries n f).map (fun p => symFold (fun _ _ => 0) ((cells f n).zip vs) p.1 p.2) =
      (cells f n).map fun p => symFold (fun _ _ => 0) ((cells f n).zip vs) p.1 p.2 := by
    rw [cells_entries hf, List.map_map]
    refine List.map_congr_left fun p _ => ?_
    by_cases h : f = .lowerCol
    · simp [h]
    · simp only [Function.comp_apply, if_neg h]
      exact hS _ _
  rw [hv]
  refine List.ext_getElem (by simp [hl]) fun k h1 h2 => ?_
  rw [List.getElem_map]
  have hk : k < (cells f n).length := by simpa using h1
  refine read_at hl hk ?_ (Or.inl rfl)
  have hm : ((cells f n)[k].1, (cells f n)[k].2) ∈ cells f n := List.getElem_mem hk
  generalize (cells f n)[k].1 = i at *
  generalize (cells f n)[k].2 = j at *
  rw [mem_cells] at hm ⊢
  cases f <;> simp only [lo, hi] at hm ⊢ <;> first | omega | exact absurd rfl hf | exact absurd rfl hf'

/-- C34. A full matrix that is not symmetric is not rejected: the reader silently replaces the values
above the diagonal with those below. -/
theorem C34_full_asymmetric {n : ℕ} (hn : 1 ≤ n) (M : ℕ → ℕ → ℚ) :
    ∃ D, readExplicit .fullMatrix n ((entries n .fullMatrix).map fun p => M p.1 p.2) = .ok D ∧
      ∀ a b, a < n → b < n → D a b = M (max a b) (min a b) := by
  have hf : EWFormat.fullMatrix ≠ .other := by decide
  have hl : ((entries n .fullMatrix).map fun p => M p.1 p.2).length = (cells .fullMatrix n).length := by
    rw [List.length_map, entries_length hf]
  refine ⟨_, (readExplicit_spec hf hn _).2.1 hl, fun a b ha hb => ?_⟩
  have hmem : (min a b, max a b) ∈ cells .fullMatrix n := by
    rw [mem_cells]; simp only [lo, hi]; omega
  obtain ⟨k, hk, e⟩ := List.mem_iff_getElem.1 hmem
  rw [read_at hl hk (fun _ => by rw [e]; simp) (a := a) (b := b) (by
    rw [e]
    rcases le_total a b with h | h
    · left; simp [h]
    · right; simp [h])]
  have hc := cells_entries hf n
  simp only [List.getElem_map, hc, e]
  simp

/-! ## Writing and reading back -/

theorem rows_entries (D : ℕ → ℕ → ℚ) (out : ℚ → ℚ) (sel : List ℕ) :
    writeExplicit.rows D out sel = (entries sel.length .upperRow).map fun p =>
      out (D (sel.getD p.1 0) (sel.getD p.2 0)) := by
  induction sel with
  | nil => rfl
  | cons i t ih =>
    have e : entries (i :: t).length .upperRow =
        (List.range t.length).map (fun c => (0, c + 1)) ++
          (entries t.length .upperRow).map fun p => (p.1 + 1, p.2 + 1) := by
      simp only [entries, List.length_cons, List.range_succ_eq_map, List.flatMap_cons,
        List.flatMap_map, List.map_flatMap, List.map_map]
      congr 1
      · simp [List.range'_eq_map_range, Function.comp_def, Nat.add_comm]
      · refine List.flatMap_congr fun r _ => ?_
        have : t.length + 1 - (r.succ + 1) = t.length - (r + 1) := by omega
        rw [this]
        simp [List.range'_eq_map_range, Function.comp_def]
        intro a _
        omega
    rw [writeExplicit.rows, ih, e, List.map_append, List.map_map, List.map_map]
    congr 1
    · refine List.ext_getElem (by simp) fun k h1 h2 => ?_
      simp only [List.getElem_map, List.getElem_range, Function.comp_apply, List.getD_cons_zero,
        List.getD_cons_succ]
      have hk : k < t.length := by simpa using h1
      rw [List.getD_eq_getElem _ _ hk]

/-- C34. A symmetric matrix with a zero diagonal that is written to a file and read back is the same
matrix (of the selected nodes). -/
theorem C34_write_read {n : ℕ} {D : ℕ → ℕ → ℚ} (hD : Symm D) (hz : ∀ i, D i i = 0) {sel : List ℕ}
    (hs : sel ≠ []) :
    ∃ D', readExplicit .upperRow sel.length (writeExplicit n D sel none) = .ok D' ∧
      ∀ a b, a < sel.length → b < sel.length → D' a b = D (sel.getD a 0) (sel.getD b 0) := by
  have hn : 1 ≤ sel.length := List.length_pos_of_ne_nil hs
  obtain ⟨D', h1, h2⟩ := C34_symmetric (f := .upperRow) (by decide) hn
    (M := fun a b => D (sel.getD a 0) (sel.getD b 0)) (fun a b => hD _ _)
  refine ⟨D', ?_, fun a b ha hb => ?_⟩
  · rw [← h1]
    simp only [writeExplicit, if_neg hs]
    rw [rows_entries]
  · rw [h2 a b ha hb]
    by_cases h : a = b
    · subst h; simp [hasDiag, hz]
    · simp [h]

/-- C34. The same without a selection: the whole matrix. -/
theorem C34_write_read_all {n : ℕ} (hn : 1 ≤ n) {D : ℕ → ℕ → ℚ} (hD : Symm D) (hz : ∀ i, D i i = 0) :
    ∃ D', readExplicit .upperRow n (writeExplicit n D [] none) = .ok D' ∧
      ∀ a b, a < n → b < n → D' a b = D a b := by
  have hs : pyRange 0 n ≠ [] := by
    intro h
    have := congrArg List.length h
    simp [pyRange] at this
    omega
  obtain ⟨D', h1, h2⟩ := C34_write_read (n := n) hD hz hs
  have hl : (pyRange 0 n).length = n := by simp [pyRange]
  rw [hl] at h1 h2
  refine ⟨D', ?_, fun a b ha hb => ?_⟩
  · rw [← h1]
    simp only [writeExplicit, if_neg hs, if_true]
  · rw [h2 a b ha hb]
    have e : ∀ x, x < n → (pyRange 0 n).getD x 0 = x := by
      intro x hx
      rw [List.getD_eq_getElem _ _ (by rw [hl]; exact hx)]
      simp [pyRange]
    rw [e a ha, e b hb]

/-- Python's `int()` drops less than one and is exact on integers. -/
theorem trunc_spec (q : ℚ) : |q - ((q.num.tdiv q.den : ℤ) : ℚ)| < 1 ∧
    (∀ z : ℤ, q = z → ((q.num.tdiv q.den : ℤ) : ℚ) = q) := by
  constructor
  · have hd : (0 : ℚ) < q.den := by exact_mod_cast q.den_pos
    have h1 : ((q.num.tmod q.den + q.den * q.num.tdiv q.den : ℤ) : ℚ) = q.num := by
      exact_mod_cast Int.tmod_add_mul_tdiv q.num q.den
    have h2 : q * q.den = q.num := Rat.mul_den_eq_num q
    push_cast at h1
    have h3 : (q - ((q.num.tdiv q.den : ℤ) : ℚ)) * q.den = ((q.num.tmod q.den : ℤ) : ℚ) := by
      rw [sub_mul, h2, ← h1]; ring
    have h4 : |((q.num.tmod q.den : ℤ) : ℚ)| < q.den := by
      have h5 : |q.num.tmod q.den| < (q.den : ℤ) := by
        rcases le_total 0 q.num with h | h
        · rw [abs_of_nonneg (Int.tmod_nonneg _ h)]
          exact Int.tmod_lt_of_pos _ (by exact_mod_cast q.den_pos)
        · have e : q.num.tmod q.den = -((-q.num).tmod q.den) := by simp [Int.neg_tmod]
          rw [e, abs_neg, abs_of_nonneg (Int.tmod_nonneg _ (by omega))]
          exact Int.tmod_lt_of_pos _ (by exact_mod_cast q.den_pos)
      exact_mod_cast h5
    rw [← h3, abs_mul, abs_of_pos hd] at h4
    by_contra hc
    push Not at hc
    have := mul_le_mul_of_nonneg_right hc hd.le
    linarith
  · rintro z rfl
    simp

/-- C34. With a precision every distance is scaled and loses less than one unit; integers are exact. -/
theorem C34_write_read_scaled {n : ℕ} {D : ℕ → ℕ → ℚ} (hD : Symm D) {sel : List ℕ}
    (hs : sel ≠ []) (p : ℚ) :
    ∃ D', readExplicit .upperRow sel.length (writeExplicit n D sel (some p)) = .ok D' ∧
      ∀ a b, a < sel.length → b < sel.length → a ≠ b →
        |D (sel.getD a 0) (sel.getD b 0) * p - D' a b| < 1 ∧
        (∀ z : ℤ, D (sel.getD a 0) (sel.getD b 0) * p = z → D' a b = z) := by
  have hn : 1 ≤ sel.length := List.length_pos_of_ne_nil hs
  obtain ⟨D', h1, h2⟩ := C34_symmetric (f := .upperRow) (by decide) hn
    (M := fun a b => (((D (sel.getD a 0) (sel.getD b 0) * p).num.tdiv
      (D (sel.getD a 0) (sel.getD b 0) * p).den : ℤ) : ℚ)) (fun a b => by simp only [hD (sel.getD a 0) (sel.getD b 0)])
  refine ⟨D', ?_, fun a b ha hb hab => ?_⟩
  · rw [← h1]
    simp only [writeExplicit, if_neg hs]
    rw [rows_entries]
  · rw [h2 a b ha hb, if_neg (by simp [hab])]
    have := trunc_spec (D (sel.getD a 0) (sel.getD b 0) * p)
    exact ⟨this.1, fun z hz => (this.2 z hz).trans hz⟩

/-! ## C35 -/

/-- The new position of node `i` of the file if the depot is `k`. -/
def depotFirst (k i : ℕ) : ℕ := if i = 0 then k else if i ≤ k then i - 1 else i

theorem depotPerm_get {n k i : ℕ} (hk : k < n) (hi : i < n) :
    (depotPerm n k)[i]? = some (depotFirst k i) := by
  unfold depotPerm depotFirst pyRange
  cases i with
  | zero => simp
  | succ i =>
    simp only [List.cons_append, List.nil_append, List.getElem?_cons_succ, Nat.succ_ne_zero, if_false]
    by_cases h : i < k
    · rw [List.getElem?_append_left (by simpa using h), if_pos (by omega)]
      rw [List.getElem?_range' (by simpa using h)]
      simp
    · rw [List.getElem?_append_right (by simpa using h), if_neg (by omega)]
      simp only [List.length_range', Nat.sub_zero]
      rw [List.getElem?_range' (by omega)]
      simp; omega

theorem permuteD_get {n : ℕ} (perm : ℕ → ℕ) (D : ℕ → ℕ → ℚ) (a b : ℕ) :
    permuteD n perm D a b =
      if a < n - 1 then
        (if perm b < n - 1 then D (perm a) (perm b) else D a (perm b))
      else if b < n - 1 then D (perm a) b else D a b := by
  have h1 : ∀ (m : ℕ) (D : ℕ → ℕ → ℚ) (a b : ℕ),
      (pyRange 0 m).foldl (fun D i => fun a b => if b = i then D (perm a) i else D a b) D a b =
        if b < m then D (perm a) b else D a b := by
    intro m
    induction m with
    | zero => intro D a b; simp [pyRange]
    | succ m ih =>
      intro D a b
      have e : pyRange 0 (m + 1) = pyRange 0 m ++ [m] := by
        simp [pyRange, List.range'_concat]
      rw [e, List.foldl_append, List.foldl_cons, List.foldl_nil]
      simp only [ih]
      by_cases h : b = m
      · subst h; simp
      · rw [if_neg h]
        by_cases h2 : b < m
        · rw [if_pos h2, if_pos (by omega)]
        · rw [if_neg h2, if_neg (by omega)]
  have h2 : ∀ (m : ℕ) (D : ℕ → ℕ → ℚ) (a b : ℕ),
      (pyRange 0 m).foldl (fun D i => fun a b => if a = i then D i (perm b) else D a b) D a b =
        if a < m then D a (perm b) else D a b := by
    intro m
    induction m with
    | zero => intro D a b; simp [pyRange]
    | succ m ih =>
      intro D a b
      have e : pyRange 0 (m + 1) = pyRange 0 m ++ [m] := by
        simp [pyRange, List.range'_concat]
      rw [e, List.foldl_append, List.foldl_cons, List.foldl_nil]
      simp only [ih]
      by_cases h : a = m
      · subst h; simp
      · rw [if_neg h]
        by_cases h2 : a < m
        · rw [if_pos h2, if_pos (by omega)]
        · rw [if_neg h2, if_neg (by omega)]
  unfold permuteD
  simp only [h2, h1]

/-- C35. Lists (demands, coordinates) follow the permutation that moves the depot to index 0. -/
theorem C35_lists {α : Type} {l : List α} {k : ℕ} (hk : k < l.length) :
    ∃ l', permuteList l k = .ok l' ∧ l'.length = l.length ∧
      ∀ i, i < l.length → l'[i]? = l[depotFirst k i]? := by
  refine ⟨[l[k]] ++ l.take k ++ l.drop (k + 1), ?_, ?_, ?_⟩
  · simp [permuteList, idx, hk]
  · simp; omega
  · intro i hi
    unfold depotFirst
    cases i with
    | zero => simp [hk]
    | succ i =>
      simp only [List.cons_append, List.nil_append, List.getElem?_cons_succ, Nat.succ_ne_zero, if_false]
      by_cases h : i < k
      · rw [List.getElem?_append_left (by simp; omega), if_pos (by omega)]
        rw [List.getElem?_take_of_lt h]
        simp
      · rw [List.getElem?_append_right (by simp; omega), if_neg (by omega)]
        rw [List.getElem?_drop]
        congr 1
        simp; omega

/-- C35. The matrix follows the permutation only where neither the last row nor the last column of the
file's matrix is involved. This is what is true of the full claim, see `C35_false`. -/
theorem C35_matrix_partial {n k : ℕ} (hk : k < n) (D : ℕ → ℕ → ℚ) {a b : ℕ} (ha : a + 1 < n)
    (hb : b < n) (hb' : depotFirst k b + 1 < n) :
    permuteD n (fun i => (depotPerm n k).getD i 0) D a b = D (depotFirst k a) (depotFirst k b) := by
  have e : ∀ i, i < n → (depotPerm n k).getD i 0 = depotFirst k i := by
    intro i hi
    rw [List.getD_eq_getElem?_getD, depotPerm_get hk hi]
    rfl
  rw [permuteD_get, if_pos (by omega), e b hb, e a (by omega), if_pos (by omega)]

/-- C35. The last row and the last column are not permuted unless the depot is the last node: the
distances to the last node are those of other nodes. -/
theorem C35_last {n k : ℕ} (hk : k + 1 < n) (D : ℕ → ℕ → ℚ) {a : ℕ} (ha : a + 1 < n) :
    permuteD n (fun i => (depotPerm n k).getD i 0) D a (n - 1) = D a (n - 1) ∧
    permuteD n (fun i => (depotPerm n k).getD i 0) D (n - 1) a = D (n - 1) a := by
  have e : ∀ i, i < n → (depotPerm n k).getD i 0 = depotFirst k i := by
    intro i hi
    rw [List.getD_eq_getElem?_getD, depotPerm_get (by omega) hi]
    rfl
  have el : depotFirst k (n - 1) = n - 1 := by
    unfold depotFirst
    rw [if_neg (by omega), if_neg (by omega)]
  constructor
  · rw [permuteD_get, if_pos (by omega), e (n - 1) (by omega), el, if_neg (by omega)]
  · rw [permuteD_get, if_neg (by omega), if_pos (by omega), e (n - 1) (by omega), el]

/-- Distances of three nodes on a line, the second one in the middle is the depot. -/
def exDepot (i j : ℕ) : ℚ := |(i : ℚ) - j|

/-- C35. The full claim is false: in a file of three nodes on a line with the depot in the middle, the
distance of the depot to the last node is read as 2 instead of 1. -/
theorem C35_false : permuteD 3 (fun i => (depotPerm 3 1).getD i 0) exDepot 0 2 = 2 ∧
    exDepot (depotFirst 1 0) (depotFirst 1 2) = 1 := by decide +kernel

/-! ## Cases -/

example : readExplicit .upperRow 3 [5, 6, 7, 8] = .error .indexError := rfl
example : ∃ D, readExplicit .lowerCol 3 [5, 6, 7] = .ok D ∧ D 1 0 = 5 ∧ D 0 2 = 6 ∧ D 2 1 = 7 :=
  ⟨_, rfl, by decide +kernel⟩
example : ∃ D, readExplicit .lowerRow 3 [5, 6, 7] = .ok D ∧ D 1 0 = 5 ∧ D 0 2 = 6 ∧ D 2 1 = 7 :=
  ⟨_, rfl, by decide +kernel⟩
example : ∃ D, readExplicit .upperDiagRow 2 [5, 6, 7] = .ok D ∧ D 0 0 = 5 ∧ D 1 0 = 6 ∧ D 1 1 = 7 :=
  ⟨_, rfl, by decide +kernel⟩
example : entries 3 .lowerDiagRow = [(0, 0), (1, 0), (1, 1), (2, 0), (2, 1), (2, 2)] := by decide
example : writeExplicit 3 exDepot [] none = [1, 2, 1] := by decide +kernel
example : permuteList ["a", "depot", "b"] 1 = .ok ["depot", "a", "b"] := by decide

end Verif
