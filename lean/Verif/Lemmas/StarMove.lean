import Verif.Lemmas.StarConcat

/-! # Lemmas for the 3-opt* move: the tables of a move -/

namespace Verif
open Spec

theorem getD_last {X Y : List ℕ} {m : ℕ} (h : m + 1 = X.length) : (X ++ Y).getD m 0 = X.getLastD 0 := by
  obtain ⟨X', x, rfl⟩ := exists_snoc (X := X) (by rintro rfl; simp at h)
  simp only [List.length_append, List.length_cons, List.length_nil] at h
  obtain rfl : m = X'.length := by omega
  simp

theorem getD_first {X Y : List ℕ} {m : ℕ} (h : m = X.length) : (X ++ Y).getD m 0 = Y.headD 0 := by
  subst h
  cases Y <;> simp

/-- The segment that ends at an end point. -/
def sg (A B S E : List ℕ) : ℕ → List ℕ
  | 0 => A
  | 1 => B.reverse
  | 2 => B
  | 3 => S.reverse
  | 4 => S
  | _ => E.reverse

/-- What `do_3optstar_move` reads of a solution. -/
def s3Sol (D : ℕ → ℕ → ℚ) (d : ℕ → ℚ) (sol : List ℕ) : S3Sol :=
  ⟨fun p => sol.getD p 0, fun p => (s3Fwd D d sol).getD p (0, 0), fun p => (s3Rwd D d sol).getD p (0, 0)⟩

theorem sum_d {D : ℕ → ℕ → ℚ} {d : ℕ → ℚ} (X S : List ℕ) {l : Option ℕ} (h : l = none ↔ 0 ∉ S) :
    (runVal D d (runFrom [] (X ++ S))).1 - (if l = none then (runVal D d (runFrom [] X)).1 else 0) = endD d S := by
  rw [← seg_demand D d X S]
  by_cases h0 : 0 ∈ S
  · rw [if_neg fun e => (h.1 e) h0, if_pos h0]
  · rw [if_pos (h.2 h0), if_neg h0]

theorem sum_l {D : ℕ → ℕ → ℚ} {d : ℕ → ℚ} (X : List ℕ) {S : List ℕ} (hS : S ≠ []) {l : Option ℕ} (h : l = none ↔ 0 ∉ S) :
    (runVal D d (runFrom [] (X ++ S))).2 - (if l = none then (runVal D d (runFrom [] (X ++ [S.headD 0]))).2 else 0) =
      endL D S := by
  rw [← seg_cost D d X hS]
  by_cases h0 : 0 ∈ S
  · rw [if_neg fun e => (h.1 e) h0, if_pos h0]
  · rw [if_pos (h.2 h0), if_neg h0]

theorem s3Data_tables {D : ℕ → ℕ → ℚ} {d : ℕ → ℚ} {C L : Option ℚ} {A B S E : List ℕ} (hA : A ≠ []) (hB : B ≠ [])
    (hS : S ≠ []) (hE : E ≠ []) {i j k : ℕ} (hi : i + 1 = A.length) (hj : j = i + B.length) (hk : k = j + S.length)
    (hhead : A.head? = some 0) (hlast : E.getLast? = some 0) {l12 l34 : Option ℕ} (h12 : l12 = none ↔ 0 ∉ B)
    (h34 : l34 = none ↔ 0 ∉ S) {t : S3Data}
    (ht : t = s3Data D C L (s3Sol D d (A ++ (B ++ (S ++ E)))) i j k l12 l34) :
    (∀ e, e < 6 → t.end_n e = (sg A B S E e).getLastD 0) ∧
    (truthy C = true → ∀ e, e < 6 → t.cum_d e = endD d (sg A B S E e)) ∧
    (truthy L = true → ∀ e, e < 6 → t.cum_l e = endL D (sg A B S E e)) ∧
    t.removed = D (A.getLastD 0) (B.headD 0) + D (B.getLastD 0) (S.headD 0) + D (S.getLastD 0) (E.headD 0) := by
  have pA : 0 < A.length := List.length_pos_iff.2 hA
  have pB : 0 < B.length := List.length_pos_iff.2 hB
  have pS : 0 < S.length := List.length_pos_iff.2 hS
  have pE : 0 < E.length := List.length_pos_iff.2 hE
  set sol := A ++ (B ++ (S ++ E)) with hsol
  have n0 : sol.getD i 0 = A.getLastD 0 := getD_last hi
  have n1 : sol.getD (i + 1) 0 = B.headD 0 := by
    rw [hsol, getD_first hi, headD_append hB]
  have n2 : sol.getD j 0 = B.getLastD 0 := by
    rw [hsol, ← List.append_assoc, getD_last (by simp; omega), getLastD_append hB]
  have n3 : sol.getD (j + 1) 0 = S.headD 0 := by
    rw [hsol, ← List.append_assoc, getD_first (by simp; omega), headD_append hS]
  have n4 : sol.getD k 0 = S.getLastD 0 := by
    rw [hsol, ← List.append_assoc, ← List.append_assoc, getD_last (by simp; omega), getLastD_append hS]
  have n5 : sol.getD (k + 1) 0 = E.headD 0 := by
    rw [hsol, ← List.append_assoc, ← List.append_assoc, getD_first (by simp; omega)]
  have hh : sol.head? = some 0 := by
    obtain ⟨a, A', rfl⟩ := List.exists_cons_of_ne_nil hA
    simpa [hsol] using hhead
  have hl : sol.getLast? = some 0 := by
    rw [hsol, ← List.append_assoc, ← List.append_assoc, List.getLast?_append, hlast]; rfl
  have fw : ∀ X Y m, sol = X ++ Y → m + 1 = X.length → (s3Fwd D d sol).getD m (0, 0) = runVal D d (runFrom [] X) := by
    intro X Y m e hm
    rw [e] at hh ⊢
    exact s3Fwd_at D d hh hm
  have rw' : ∀ X Y m, sol = X ++ Y → Y ≠ [] → m = X.length →
      (s3Rwd D d sol).getD m (0, 0) = runVal D d (runFrom [] Y.reverse) := by
    intro X Y m e hY hm
    rw [e] at hl ⊢
    exact s3Rwd_at D d hl hY hm
  have f0 := fw A (B ++ (S ++ E)) i rfl hi
  have f2 := fw (A ++ B) (S ++ E) j (by simp [hsol]) (by simp; omega)
  have f4 := fw (A ++ B ++ S) E k (by simp [hsol]) (by simp; omega)
  have r1 := rw' A (B ++ (S ++ E)) (i + 1) rfl (by simp [hB]) hi
  have r3 := rw' (A ++ B) (S ++ E) (j + 1) (by simp [hsol]) (by simp [hS]) (by simp; omega)
  have r5 := rw' (A ++ B ++ S) E (k + 1) (by simp [hsol]) hE (by simp; omega)
  have f1 : (s3Fwd D d sol).getD (i + 1) (0, 0) = runVal D d (runFrom [] (A ++ [B.headD 0])) := by
    obtain ⟨b, B', rfl⟩ := List.exists_cons_of_ne_nil hB
    exact fw (A ++ [b]) (B' ++ (S ++ E)) (i + 1) (by simp [hsol]) (by simp; omega)
  have f3 : (s3Fwd D d sol).getD (j + 1) (0, 0) = runVal D d (runFrom [] (A ++ B ++ [S.headD 0])) := by
    obtain ⟨b, S', rfl⟩ := List.exists_cons_of_ne_nil hS
    exact fw (A ++ B ++ [b]) (S' ++ E) (j + 1) (by simp [hsol]) (by simp; omega)
  have r2 : (s3Rwd D d sol).getD j (0, 0) = runVal D d (runFrom [] ((S ++ E).reverse ++ [B.reverse.headD 0])) := by
    obtain ⟨B', b, rfl⟩ := exists_snoc hB
    have := rw' (A ++ B') ([b] ++ (S ++ E)) j (by simp [hsol]) (by simp) (by
      simp only [List.length_append, List.length_cons, List.length_nil] at hj ⊢; omega)
    rw [this]; simp
  have r4 : (s3Rwd D d sol).getD k (0, 0) = runVal D d (runFrom [] (E.reverse ++ [S.reverse.headD 0])) := by
    obtain ⟨S', b, rfl⟩ := exists_snoc hS
    have := rw' (A ++ (B ++ S')) ([b] ++ E) k (by simp [hsol]) (by simp) (by
      simp only [List.length_append, List.length_cons, List.length_nil] at hk ⊢; omega)
    rw [this]; simp
  rw [List.reverse_append] at r1 r3
  have h12' : l12 = none ↔ 0 ∉ B.reverse := by simpa using h12
  have h34' : l34 = none ↔ 0 ∉ S.reverse := by simpa using h34
  have lt6 : ∀ e : ℕ, e < 6 → e = 0 ∨ e = 1 ∨ e = 2 ∨ e = 3 ∨ e = 4 ∨ e = 5 := by omega
  subst ht
  refine ⟨?_, ?_, ?_, ?_⟩
  · intro e he
    rcases lt6 e he with rfl | rfl | rfl | rfl | rfl | rfl <;>
      simp only [s3Data, s3Sol, sg, getLastD_reverse, List.getD_cons_zero, List.getD_cons_succ] <;> assumption
  · intro hC e he
    rcases lt6 e he with rfl | rfl | rfl | rfl | rfl | rfl <;>
      simp only [s3Data, s3Sol, sg, List.getD_cons_zero, List.getD_cons_succ, hC, if_true]
    · rw [f0]; rfl
    · rw [r1, r3, ← sum_d (D := D) (E.reverse ++ S.reverse) _ h12', List.reverse_append]
    · rw [f2, f0, ← sum_d (D := D) _ _ h12]
    · rw [r3, r5, ← sum_d (D := D) _ _ h34']
    · rw [f4, f2, ← sum_d (D := D) _ _ h34]
    · rw [r5]; rfl
  · intro hL e he
    have z0 : endL D A = cost D (0 :: runFrom [] A) := by
      rw [endL, if_pos]; exact List.mem_of_mem_head? hhead
    have z5 : endL D E.reverse = cost D (0 :: runFrom [] E.reverse) := by
      rw [endL, if_pos]; exact List.mem_reverse.2 (List.mem_of_getLast? hlast)
    rcases lt6 e he with rfl | rfl | rfl | rfl | rfl | rfl <;>
      simp only [s3Data, s3Sol, sg, List.getD_cons_zero, List.getD_cons_succ, hL, if_true]
    · rw [f0, z0]; rfl
    · rw [r1, r2, ← sum_l (D := D) (d := d) (E.reverse ++ S.reverse) (by simpa using hB) h12', List.reverse_append]
    · rw [f2, f1, ← sum_l (D := D) _ hB h12]
    · rw [r3, r4, ← sum_l (D := D) _ (by simpa using hS) h34']
    · rw [f4, f3, ← sum_l (D := D) _ hS h34]
    · rw [r5, z5]; rfl
  · simp only [s3Data, s3Sol, n0, n1, n2, n3, n4, n5]

end Verif
