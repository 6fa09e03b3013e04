import Verif.Model.IntraRoute
import Verif.Lemmas.Basic

/-! # Scanning candidate moves: loops with acceptance and `break` -/

namespace Verif

/-- The effect of testing a list of candidate moves in order. -/
def scan {M : Type} (strategy : LSOPT) : List (M × ℚ) → Search M → Search M × Bool
  | [], s => (s, false)
  | c :: t, s =>
    match tryMove strategy c.1 c.2 s with
    | (s', true) => (s', true)
    | (s', false) => scan strategy t s'

theorem scan_append {M : Type} (st : LSOPT) (l r : List (M × ℚ)) (s : Search M) :
    scan st (l ++ r) s = match scan st l s with
      | (s', true) => (s', true)
      | (s', false) => scan st r s' := by
  induction l generalizing s with
  | nil => rfl
  | cons c t ih =>
    rw [List.cons_append, scan, scan]
    rcases tryMove st c.1 c.2 s with ⟨s', b⟩
    cases b
    · exact ih s'
    · rfl

/-- A loop whose body tests candidates tests all the candidates in order. -/
theorem forBreak_scan {α M : Type} (st : LSOPT) (l : List α) (cands : α → List (M × ℚ))
    (f : α → Search M → Py (Search M × Bool))
    (hf : ∀ a ∈ l, ∀ s, f a s = .ok (scan st (cands a) s)) (s : Search M) :
    forBreak l s f = .ok (scan st (l.flatMap cands) s) := by
  induction l generalizing s with
  | nil => rfl
  | cons a t ih =>
    rw [forBreak, hf a (by simp), List.flatMap_cons, scan_append]
    rcases scan st (cands a) s with ⟨s', b⟩
    cases b
    · exact ih (fun x hx => hf x (List.mem_cons_of_mem _ hx)) s'
    · rfl

theorem scan_single {M : Type} (st : LSOPT) (m : M) (x : ℚ) (s : Search M) :
    scan st [(m, x)] s = tryMove st m x s := by
  rw [scan]
  rcases tryMove st m x s with ⟨s', b⟩
  cases b <;> rfl

/-- Soundness and completeness of scanning. -/
theorem scan_spec {M : Type} (st : LSOPT) (cands : List (M × ℚ)) (s : Search M) :
    (scan st cands s).1.2 ≤ s.2 ∧
    ((scan st cands s).1 = s ∨
      (∃ m, (scan st cands s).1.1 = some m ∧ (m, (scan st cands s).1.2) ∈ cands ∧
        (scan st cands s).1.2 + S_EPS < s.2)) ∧
    ((scan st cands s).2 = false → ∀ c ∈ cands, ¬ c.2 + S_EPS < (scan st cands s).1.2) ∧
    ((scan st cands s).2 = true → st = .FIRST_ACCEPT ∧
      ∃ m, (scan st cands s).1.1 = some m ∧ (m, (scan st cands s).1.2) ∈ cands ∧
        (scan st cands s).1.2 + S_EPS < s.2) := by
  have heps : (0 : ℚ) < S_EPS := by norm_num [S_EPS]
  induction cands generalizing s with
  | nil => simp [scan]
  | cons c t ih =>
    obtain ⟨m, x⟩ := c
    rw [scan, tryMove]
    simp only
    by_cases h : x + S_EPS < s.2
    · rw [if_pos h]
      by_cases hst : st = .FIRST_ACCEPT
      · subst hst
        simp only [beq_self_eq_true]
        refine ⟨by linarith, Or.inr ⟨m, rfl, by simp, h⟩, by simp, ?_⟩
        intro _
        exact ⟨trivial, m, rfl, by simp, h⟩
      · have : (st == LSOPT.FIRST_ACCEPT) = false := by simpa using hst
        rw [this]
        simp only
        obtain ⟨i1, i2, i3, i4⟩ := ih (some m, x)
        simp only at i1 i2 i4
        refine ⟨by linarith, ?_, ?_, ?_⟩
        · right
          rcases i2 with i2 | ⟨m', e1, e2, e3⟩
          · rw [i2]; exact ⟨m, rfl, by simp, h⟩
          · exact ⟨m', e1, List.mem_cons_of_mem _ e2, by linarith⟩
        · intro hb c hc
          rcases List.mem_cons.1 hc with rfl | hc
          · simp only; intro hlt; linarith
          · exact i3 hb c hc
        · intro hb
          obtain ⟨h1, m', e1, e2, e3⟩ := i4 hb
          exact ⟨h1, m', e1, List.mem_cons_of_mem _ e2, by linarith⟩
    · rw [if_neg h]
      obtain ⟨i1, i2, i3, i4⟩ := ih s
      refine ⟨i1, ?_, ?_, ?_⟩
      · rcases i2 with i2 | ⟨m', e1, e2, e3⟩
        · left; exact i2
        · right; exact ⟨m', e1, List.mem_cons_of_mem _ e2, e3⟩
      · intro hb c hc
        rcases List.mem_cons.1 hc with rfl | hc
        · simp only; intro hlt; linarith
        · exact i3 hb c hc
      · intro hb
        obtain ⟨h1, m', e1, e2, e3⟩ := i4 hb
        exact ⟨h1, m', e1, List.mem_cons_of_mem _ e2, e3⟩

/-- The two possible outcomes of a search that starts without a move. -/
theorem scan_cases {M : Type} (st : LSOPT) (cands : List (M × ℚ)) (b0 : ℚ) :
    ((scan st cands (none, b0)).1 = (none, b0) ∧ ∀ c ∈ cands, ¬ c.2 + S_EPS < b0) ∨
    (∃ m x, (scan st cands (none, b0)).1 = (some m, x) ∧ (m, x) ∈ cands ∧ x + S_EPS < b0 ∧
      (st = .BEST_ACCEPT → ∀ c ∈ cands, ¬ c.2 + S_EPS < x)) := by
  obtain ⟨_, h2, h3, h4⟩ := scan_spec st cands (none, b0)
  rcases hr : scan st cands (none, b0) with ⟨⟨mv, x⟩, b⟩
  rw [hr] at h2 h3 h4
  simp only at h2 h3 h4
  cases b
  · have h3' := h3 rfl
    rcases h2 with h2 | ⟨m, e1, e2, e3⟩
    · left
      rw [h2]; simp only [Prod.mk.injEq] at h2
      exact ⟨rfl, by rw [← h2.2]; exact h3'⟩
    · right; exact ⟨m, x, by simp [e1], e2, e3, fun _ => h3'⟩
  · obtain ⟨hst, m, e1, e2, e3⟩ := h4 rfl
    right
    refine ⟨m, x, by simp [e1], e2, e3, ?_⟩
    intro hb; rw [hb] at hst; simp at hst

/-! ## list positions -/

/-- The element at a position (only used for positions that exist). -/
def nth (l : List ℕ) (i : ℕ) : ℕ := l.getD i 0

theorem idx_ok {l : List ℕ} {i : ℕ} (h : i < l.length) : idx l i = .ok (nth l i) := by
  simp [idx, nth, h]

theorem getElem?_nth {l : List ℕ} {i : ℕ} (h : i < l.length) : l[i]? = some (nth l i) := by
  simp [nth, h]

theorem mem_pyRange {a b i : ℕ} : i ∈ pyRange a b ↔ a ≤ i ∧ i < b := by
  unfold pyRange
  rw [List.mem_range'_1]; omega

theorem cost_join {D : ℕ → ℕ → ℚ} {A B : List ℕ} {a b : ℕ} (hA : A.getLast? = some a)
    (hB : B.head? = some b) : Spec.cost D (A ++ B) = Spec.cost D A + D a b + Spec.cost D B := by
  rcases List.eq_nil_or_concat A with rfl | ⟨m, x, rfl⟩
  · simp at hA
  · cases B with
    | nil => simp at hB
    | cons y t =>
      simp at hA hB
      subst hA hB
      have : m.concat x ++ y :: t = m ++ x :: y :: t := by simp
      rw [this, cost_append_two]; simp

theorem take_getLast {l : List ℕ} {i : ℕ} (h : i < l.length) :
    (l.take (i + 1)).getLast? = some (nth l i) := by
  rw [List.getLast?_take]
  simp [nth, h]

theorem drop_head {l : List ℕ} {i : ℕ} (h : i < l.length) :
    (l.drop i).head? = some (nth l i) := by
  rw [List.head?_drop, getElem?_nth h]

theorem slice_head {l : List ℕ} {i j : ℕ} (hij : i < j) (h : i < l.length) :
    (slice l i j).head? = some (nth l i) := by
  unfold slice
  rw [List.head?_drop, List.getElem?_take_of_lt hij, getElem?_nth h]

theorem slice_getLast {l : List ℕ} {i j : ℕ} (hij : i ≤ j) (h : j < l.length) :
    (slice l i (j + 1)).getLast? = some (nth l j) := by
  unfold slice
  rw [List.getLast?_drop, if_neg (by rw [List.length_take]; omega), take_getLast h]

theorem slice_length {l : List ℕ} {i j : ℕ} (h : j ≤ l.length) : (slice l i j).length = j - i := by
  unfold slice; simp [h]

theorem take_slice {l : List ℕ} {i j : ℕ} (hij : i ≤ j) : l.take i ++ slice l i j = l.take j := by
  unfold slice
  have : l.take i = (l.take j).take i := by rw [List.take_take]; congr 1; omega
  rw [this, List.take_append_drop]

theorem slice_slice {l : List ℕ} {i j k : ℕ} (hij : i ≤ j) (hjk : j ≤ k) :
    slice l i j ++ slice l j k = slice l i k := by
  have h1 := take_slice (l := l) (show i ≤ k by omega)
  rw [← take_slice (l := l) hjk, ← take_slice (l := l) hij, List.append_assoc] at h1
  exact (List.append_cancel_left h1).symm

theorem split3 {l : List ℕ} {i j : ℕ} (hij : i ≤ j) :
    l.take i ++ slice l i j ++ l.drop j = l := by
  rw [take_slice hij, List.take_append_drop]

theorem slice_one {l : List ℕ} {i : ℕ} (h : i < l.length) : slice l i (i + 1) = [nth l i] := by
  unfold slice
  rw [List.drop_take, show i + 1 - i = 1 by omega, List.drop_eq_getElem_cons h,
    List.take_succ_cons, List.take_zero]
  simp [nth, h]

/-- Positions in a list given by its parts. -/
theorem nth_append_last {A B : List ℕ} {a : ℕ} (hA : A.getLast? = some a) :
    nth (A ++ B) (A.length - 1) = a := by
  rcases List.eq_nil_or_concat A with rfl | ⟨m, x, rfl⟩
  · simp at hA
  · simp at hA; subst hA
    simp [nth]

theorem nth_append_head {A B : List ℕ} {b : ℕ} (hB : B.head? = some b) :
    nth (A ++ B) A.length = b := by
  cases B with
  | nil => simp at hB
  | cons y t => simp at hB; subst hB; simp [nth]

theorem take_append_len (A B : List ℕ) (n : ℕ) (h : n = A.length) : (A ++ B).take n = A := by
  subst h; simp

theorem drop_append_len (A B : List ℕ) (n : ℕ) (h : n = A.length) : (A ++ B).drop n = B := by
  subst h; simp

theorem slice_append_mid (A B C : List ℕ) (i j : ℕ) (hi : i = A.length) (hj : j = A.length + B.length) :
    slice (A ++ B ++ C) i j = B := by
  unfold slice
  rw [take_append_len (A ++ B) C j (by simpa using hj), drop_append_len A B i hi]

end Verif
