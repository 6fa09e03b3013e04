import Verif.Model.SolutionOperators
import Verif.Lemmas.Util

/-! # Lemmas for the 3-opt* move: the cumulative lists -/

namespace Verif
open Spec

/-! ## Costs of concatenations -/

theorem exists_snoc {X : List ℕ} (h : X ≠ []) : ∃ Y y, X = Y ++ [y] := by
  rcases List.eq_nil_or_concat X with e | ⟨Y, y, e⟩
  · exact absurd e h
  · exact ⟨Y, y, by simpa using e⟩

theorem cost_app (D : ℕ → ℕ → ℚ) {X Y : List ℕ} (hX : X ≠ []) (hY : Y ≠ []) :
    cost D (X ++ Y) = cost D X + (D (X.getLastD 0) (Y.headD 0) + cost D Y) := by
  obtain ⟨X', x, rfl⟩ := exists_snoc hX
  obtain ⟨y, Y', rfl⟩ := List.exists_cons_of_ne_nil hY
  rw [List.append_assoc, List.singleton_append, cost_append_two]
  simp
  ring

theorem getLastD_append {X Y : List ℕ} (hY : Y ≠ []) : (X ++ Y).getLastD 0 = Y.getLastD 0 := by
  obtain ⟨Y', y, rfl⟩ := exists_snoc hY
  rw [← List.append_assoc]; simp

theorem headD_append {X Y : List ℕ} (hX : X ≠ []) : (X ++ Y).headD 0 = X.headD 0 := by
  obtain ⟨x, X', rfl⟩ := List.exists_cons_of_ne_nil hX
  simp

theorem headD_reverse (X : List ℕ) : X.reverse.headD 0 = X.getLastD 0 := by
  rcases List.eq_nil_or_concat X with rfl | ⟨X', x, h⟩
  · rfl
  · rw [h]; simp

theorem getLastD_reverse (X : List ℕ) : X.reverse.getLastD 0 = X.headD 0 := by
  cases X <;> simp

theorem cost_rev_zero {D : ℕ → ℕ → ℚ} (hs : Symm D) (t : List ℕ) : cost D (t.reverse ++ [0]) = cost D (0 :: t) := by
  rw [← cost_reverse hs (0 :: t)]; simp

theorem cost_zero_rev {D : ℕ → ℕ → ℚ} (hs : Symm D) (t : List ℕ) : cost D (0 :: t.reverse) = cost D (t ++ [0]) := by
  rw [← cost_reverse hs (t ++ [0])]; simp

theorem headD_rev_zero (t : List ℕ) : (t.reverse ++ [0]).headD 0 = (0 :: t).getLastD 0 := by
  rw [← headD_reverse]; simp

theorem getLastD_zero_rev (t : List ℕ) : (0 :: t.reverse).getLastD 0 = (t ++ [0]).headD 0 := by
  rw [← getLastD_reverse]; simp

/-! ## The run of customers since the last depot -/

/-- The customers since the last depot, with those of `p` before. -/
def runFrom (p : List ℕ) (l : List ℕ) : List ℕ := l.foldl (fun p n => if n = 0 then [] else p ++ [n]) p

theorem runFrom_append (p l r : List ℕ) : runFrom p (l ++ r) = runFrom (runFrom p l) r := by
  simp [runFrom]

theorem runFrom_zerofree (p : List ℕ) {l : List ℕ} (h : 0 ∉ l) : runFrom p l = p ++ l := by
  induction l generalizing p with
  | nil => simp [runFrom]
  | cons a t ih =>
    have ha : a ≠ 0 := fun e => h (by simp [e])
    have ht : 0 ∉ t := fun e => h (by simp [e])
    have := ih (p ++ [a]) ht
    simp only [runFrom, List.foldl_cons, if_neg ha] at this ⊢
    rw [this]; simp

theorem runFrom_zero (p l r : List ℕ) : runFrom p (l ++ 0 :: r) = runFrom [] r := by
  rw [runFrom_append]; simp [runFrom]

theorem runFrom_mem (p : List ℕ) {l : List ℕ} (h : 0 ∈ l) : runFrom p l = runFrom [] l := by
  obtain ⟨a, b, rfl⟩ := List.append_of_mem h
  rw [runFrom_zero, runFrom_zero]

/-- Demand and cost of a run. -/
def runVal (D : ℕ → ℕ → ℚ) (d : ℕ → ℚ) (p : List ℕ) : ℚ × ℚ := (demand d p, cost D (0 :: p))

theorem s3Cum_get (D : ℕ → ℕ → ℚ) (d : ℕ → ℚ) (l p : List ℕ) (m : ℕ) (h : m < l.length) :
    (s3Cum D d ((0 :: p).getLastD 0) (demand d p) (cost D (0 :: p)) l)[m]? =
      some (runVal D d (runFrom p (l.take (m + 1)))) := by
  induction l generalizing p m with
  | nil => simp at h
  | cons n t ih =>
    have hstep : s3Cum D d ((0 :: p).getLastD 0) (demand d p) (cost D (0 :: p)) (n :: t) =
        runVal D d (runFrom p [n]) :: s3Cum D d ((0 :: runFrom p [n]).getLastD 0) (demand d (runFrom p [n]))
          (cost D (0 :: runFrom p [n])) t := by
      rw [s3Cum]
      by_cases hn : n = 0
      · subst hn; simp [runFrom, runVal]
      · simp only [runFrom, List.foldl_cons, List.foldl_nil, if_neg hn, runVal]
        have e1 : cost D (0 :: p) + D ((0 :: p).getLastD 0) n = cost D (0 :: (p ++ [n])) := by
          rw [← List.cons_append, cost_app D (by simp) (by simp)]; simp
        have e2 : demand d p + d n = demand d (p ++ [n]) := by simp
        have e3 : n = (0 :: (p ++ [n])).getLastD 0 := by rw [← List.cons_append, getLastD_append (by simp)]; simp
        rw [e1, e2, ← e3]
    rw [hstep]
    cases m with
    | zero => simp
    | succ m =>
      rw [List.getElem?_cons_succ, ih _ m (by simpa using h), List.take_succ_cons]
      rw [show n :: List.take (m + 1) t = [n] ++ List.take (m + 1) t from rfl, runFrom_append]

theorem s3Fwd_get (D : ℕ → ℕ → ℚ) (d : ℕ → ℚ) {sol : List ℕ} (h0 : sol.head? = some 0) {m : ℕ} (h : m < sol.length) :
    (s3Fwd D d sol)[m]? = some (runVal D d (runFrom [] (sol.take (m + 1)))) := by
  cases sol with
  | nil => simp at h
  | cons a t =>
    simp only [List.head?_cons, Option.some.injEq] at h0
    subst h0
    cases m with
    | zero => simp [s3Fwd, runFrom, runVal]
    | succ m =>
      have := s3Cum_get D d t [] m (by simpa using h)
      simp only [List.getLastD_cons, demand_nil, cost_single] at this
      rw [s3Fwd, List.getElem?_cons_succ, List.take_succ_cons]
      rw [show 0 :: List.take (m + 1) t = [] ++ 0 :: List.take (m + 1) t from rfl, runFrom_zero]
      exact this

theorem s3Cum_length (D : ℕ → ℕ → ℚ) (d : ℕ → ℚ) (a : ℕ) (x y : ℚ) (l : List ℕ) : (s3Cum D d a x y l).length = l.length := by
  induction l generalizing a x y with
  | nil => rfl
  | cons n t ih => simp [s3Cum, ih]

theorem s3Rwd_eq (D : ℕ → ℕ → ℚ) (d : ℕ → ℚ) (sol : List ℕ) : s3Rwd D d sol = (s3Fwd D d sol.reverse).reverse := by
  unfold s3Rwd
  cases sol.reverse with
  | nil => rfl
  | cons a t => rfl

theorem s3Fwd_at (D : ℕ → ℕ → ℚ) (d : ℕ → ℚ) {X Y : List ℕ} (h0 : (X ++ Y).head? = some 0) {m : ℕ}
    (hm : m + 1 = X.length) : (s3Fwd D d (X ++ Y)).getD m (0, 0) = runVal D d (runFrom [] X) := by
  rw [List.getD_eq_getElem?_getD, s3Fwd_get D d h0 (by simp; omega), hm]
  simp

theorem s3Rwd_at (D : ℕ → ℕ → ℚ) (d : ℕ → ℚ) {X Y : List ℕ} (h0 : (X ++ Y).getLast? = some 0) (hY : Y ≠ []) {m : ℕ}
    (hm : m = X.length) : (s3Rwd D d (X ++ Y)).getD m (0, 0) = runVal D d (runFrom [] Y.reverse) := by
  have hl : (s3Fwd D d (X ++ Y).reverse).length = (X ++ Y).length := by
    rw [← List.length_reverse (as := X ++ Y)]
    cases (X ++ Y).reverse with
    | nil => rfl
    | cons a t => simp [s3Fwd, s3Cum_length]
  have hpos : 0 < Y.length := List.length_pos_iff.2 hY
  rw [List.getD_eq_getElem?_getD, s3Rwd_eq, List.getElem?_reverse (by rw [hl]; simp; omega), hl]
  rw [s3Fwd_get D d (by simpa using h0) (by simp; omega)]
  simp only [Option.getD_some]
  congr 2
  rw [List.reverse_append, List.take_append_of_le_length (by simp; omega), List.take_of_length_le (by simp; omega)]

/-! ## The values of a segment, seen from its last node -/

/-- The demand from the end of a segment to its last depot, or of the whole segment. -/
def endD (d : ℕ → ℚ) (S : List ℕ) : ℚ := demand d (runFrom [] S)

/-- The cost from the end of a segment to its last depot, or of the whole segment. -/
def endL (D : ℕ → ℕ → ℚ) (S : List ℕ) : ℚ := if 0 ∈ S then cost D (0 :: runFrom [] S) else cost D S

theorem seg_demand (D : ℕ → ℕ → ℚ) (d : ℕ → ℚ) (X S : List ℕ) :
    (runVal D d (runFrom [] (X ++ S))).1 - (if 0 ∈ S then 0 else (runVal D d (runFrom [] X)).1) = endD d S := by
  by_cases h : 0 ∈ S
  · rw [if_pos h, runFrom_append, runFrom_mem _ h]; simp [runVal, endD]
  · rw [if_neg h, runFrom_append, runFrom_zerofree _ h]
    simp only [runVal, endD, runFrom_zerofree [] h, demand_append]
    simp

theorem seg_cost (D : ℕ → ℕ → ℚ) (d : ℕ → ℚ) (X : List ℕ) {S : List ℕ} (hS : S ≠ []) :
    (runVal D d (runFrom [] (X ++ S))).2 - (if 0 ∈ S then 0 else (runVal D d (runFrom [] (X ++ [S.headD 0]))).2) =
      endL D S := by
  by_cases h : 0 ∈ S
  · rw [if_pos h, runFrom_append, runFrom_mem _ h]; simp [runVal, endL, h]
  · obtain ⟨a, T, rfl⟩ := List.exists_cons_of_ne_nil hS
    have ha : 0 ∉ [a] := fun e => h (by simp at e; simp [e])
    rw [if_neg h, runFrom_append, runFrom_zerofree _ h, runFrom_append, List.headD_cons, runFrom_zerofree _ ha]
    simp only [runVal, endL, if_neg h]
    rw [← List.cons_append, cost_append_cons]
    simp

end Verif
