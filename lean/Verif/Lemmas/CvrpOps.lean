import Verif.Model.CvrpOps
import Verif.Lemmas.Util
import Mathlib.Data.List.Nodup
import Mathlib.Data.List.Perm.Lattice
import Mathlib.Tactic.FieldSimp

/-! # Lemmas for `cvrp_ops.py` -/

namespace Verif
open Spec

theorem idxNeg_one_concat {α : Type} (l : List α) (a : α) : idxNeg (l ++ [a]) 1 = .ok a := by
  simp [idxNeg, idx]

theorem idx_zero_cons {α : Type} (a : α) (l : List α) : idx (a :: l) 0 = .ok a := rfl

/-! ## lexicographic sorting -/

theorem lexLe_total (a b : List ℕ) : lexLe a b = true ∨ lexLe b a = true := by
  induction a generalizing b with
  | nil => simp [lexLe]
  | cons x s ih =>
    cases b with
    | nil => simp [lexLe]
    | cons y t =>
      simp only [lexLe, Bool.or_eq_true, Bool.and_eq_true, decide_eq_true_eq]
      rcases lt_trichotomy x y with h | h | h
      · simp [h]
      · rcases ih t with i | i <;> simp [h, i]
      · simp [h]

theorem lexLe_antisymm {a b : List ℕ} (h1 : lexLe a b = true) (h2 : lexLe b a = true) : a = b := by
  induction a generalizing b with
  | nil => cases b with
    | nil => rfl
    | cons y t => simp [lexLe] at h2
  | cons x s ih =>
    cases b with
    | nil => simp [lexLe] at h1
    | cons y t =>
      simp only [lexLe, Bool.or_eq_true, Bool.and_eq_true, decide_eq_true_eq] at h1 h2
      have hxy : x = y := by omega
      subst hxy
      simp at h1 h2
      rw [ih h1 h2]

theorem lexLe_trans {a b c : List ℕ} (h1 : lexLe a b = true) (h2 : lexLe b c = true) :
    lexLe a c = true := by
  induction a generalizing b c with
  | nil => simp [lexLe]
  | cons x s ih =>
    cases b with
    | nil => simp [lexLe] at h1
    | cons y t =>
      cases c with
      | nil => simp [lexLe] at h2
      | cons z u =>
        simp only [lexLe, Bool.or_eq_true, Bool.and_eq_true, decide_eq_true_eq] at h1 h2 ⊢
        rcases h1 with h1 | ⟨h1, h1'⟩ <;> rcases h2 with h2 | ⟨h2, h2'⟩
        · left; omega
        · left; omega
        · left; omega
        · right; exact ⟨by omega, ih h1' h2'⟩

/-- The comparison is the lexicographic order of lists. -/
theorem lexLe_iff (a b : List ℕ) : lexLe a b = true ↔ a ≤ b := by
  rw [← not_lt]
  induction a generalizing b with
  | nil => simp [lexLe]
  | cons x s ih =>
    cases b with
    | nil => simp [lexLe]
    | cons y t =>
      simp only [lexLe, Bool.or_eq_true, Bool.and_eq_true, decide_eq_true_eq, ih,
        List.cons_lt_cons_iff]
      constructor
      · rintro (h | ⟨h, h'⟩) (h2 | ⟨h2, h2'⟩)
        · omega
        · omega
        · omega
        · exact h' h2'
      · intro h
        rcases lt_trichotomy x y with h1 | h1 | h1
        · left; exact h1
        · right; exact ⟨h1, fun h3 => h (Or.inr ⟨h1.symm, h3⟩)⟩
        · exact absurd (Or.inl h1) h

theorem lexInsert_perm (x : List ℕ) (l : List (List ℕ)) : (lexInsert x l).Perm (x :: l) := by
  induction l with
  | nil => exact List.Perm.refl _
  | cons y t ih =>
    rw [lexInsert]; split
    · exact List.Perm.refl _
    · exact (ih.cons y).trans (List.Perm.swap x y t)

theorem lexSort_perm (l : List (List ℕ)) : (lexSort l).Perm l := by
  induction l with
  | nil => exact List.Perm.refl _
  | cons x t ih => exact (lexInsert_perm x _).trans (ih.cons x)

/-- Sorted for Python's list comparison. -/
def LexSorted (l : List (List ℕ)) : Prop := l.Pairwise (fun a b => lexLe a b = true)

theorem lexInsert_sorted (x : List ℕ) (l : List (List ℕ)) (h : LexSorted l) :
    LexSorted (lexInsert x l) := by
  unfold LexSorted at *
  induction l with
  | nil => simp [lexInsert]
  | cons y t ih =>
    rw [List.pairwise_cons] at h
    rw [lexInsert]; split
    · rename_i hxy
      rw [List.pairwise_cons]
      refine ⟨?_, List.pairwise_cons.2 h⟩
      intro z hz
      simp at hz
      rcases hz with rfl | hz
      · exact hxy
      · exact lexLe_trans hxy (h.1 z hz)
    · rename_i hxy
      rw [List.pairwise_cons]
      refine ⟨?_, ih h.2⟩
      intro z hz
      have := (lexInsert_perm x t).mem_iff.1 hz
      simp at this
      rcases this with rfl | hz
      · rcases lexLe_total y z with h' | h'
        · exact h'
        · exact absurd h' hxy
      · exact h.1 z hz

theorem lexSort_sorted (l : List (List ℕ)) : LexSorted (lexSort l) := by
  induction l with
  | nil => exact List.Pairwise.nil
  | cons x t ih => exact lexInsert_sorted x _ ih

theorem sorted_unique {l r : List (List ℕ)} (h : l.Perm r) (hl : LexSorted l) (hr : LexSorted r) :
    l = r :=
  h.eq_of_pairwise (fun _ _ _ _ h1 h2 => lexLe_antisymm h1 h2) hl hr

theorem lexSort_eq_of_perm {l r : List (List ℕ)} (h : l.Perm r) : lexSort l = lexSort r :=
  sorted_unique (((lexSort_perm l).trans h).trans (lexSort_perm r).symm) (lexSort_sorted l)
    (lexSort_sorted r)

theorem lexSort_of_sorted {l : List (List ℕ)} (h : LexSorted l) : lexSort l = l :=
  sorted_unique (lexSort_perm l) (lexSort_sorted l) h

theorem exists_perm_of_perm_map {α β : Type} {f : α → β} {l : List β} {as : List α}
    (h : l.Perm (as.map f)) : ∃ cs : List α, cs.Perm as ∧ l = cs.map f := by
  induction as generalizing l with
  | nil =>
    have : l = [] := by simpa using h
    exact ⟨[], List.Perm.refl _, by simp [this]⟩
  | cons a t ih =>
    have hm : f a ∈ l := h.mem_iff.2 (by simp)
    obtain ⟨l1, l2, rfl⟩ := List.append_of_mem hm
    have h' : (l1 ++ l2).Perm (t.map f) :=
      List.Perm.cons_inv ((List.perm_middle.symm.trans h).trans (by simp))
    obtain ⟨cs, h1, h2⟩ := ih h'
    obtain ⟨c1, c2, rfl, rfl, rfl⟩ := List.append_eq_map_iff.1 h2
    exact ⟨c1 ++ a :: c2, List.perm_middle.trans (h1.cons a), by simp⟩

/-! ## orientation -/

/-- Pure version of `orient` for a non-empty route. -/
def orientP (r : List ℕ) : List ℕ :=
  if r.getLast?.getD 0 < r.head?.getD 0 then r.reverse else r

theorem orient_eq {r : List ℕ} (h : r ≠ []) : orient r = .ok (orientP r) := by
  obtain ⟨a, t, rfl⟩ := List.exists_cons_of_ne_nil h
  rcases List.eq_nil_or_concat (a :: t) with h' | ⟨m, b, h'⟩
  · simp at h'
  · simp only [List.concat_eq_append] at h'
    have e1 : idxNeg (a :: t) 1 = .ok b := by rw [h']; exact idxNeg_one_concat m b
    simp only [orient, e1, idx_zero_cons, bind, Except.bind]
    have e2 : (a :: t).getLast?.getD 0 = b := by rw [h']; simp
    simp only [orientP, e2, List.head?_cons, Option.getD_some, pure, Except.pure]
    split <;> rfl

theorem orientAll_eq {rs : List (List ℕ)} (h : ∀ r ∈ rs, r ≠ []) :
    orientAll rs = .ok (rs.map orientP) := by
  induction rs with
  | nil => rfl
  | cons r t ih =>
    simp only [orientAll, orient_eq (h r (by simp)),
      ih (fun x hx => h x (List.mem_cons_of_mem _ hx)), bind, Except.bind, pure, Except.pure]
    rfl

theorem orientP_cases (r : List ℕ) : orientP r = r ∨ orientP r = r.reverse := by
  unfold orientP; split <;> simp

theorem orientP_ne_nil {r : List ℕ} (h : r ≠ []) : orientP r ≠ [] := by
  rcases orientP_cases r with e | e <;> rw [e] <;> simpa using h

theorem orientP_mem {r : List ℕ} (x : ℕ) : x ∈ orientP r ↔ x ∈ r := by
  rcases orientP_cases r with e | e <;> rw [e]; simp

theorem orientP_idem (r : List ℕ) : orientP (orientP r) = orientP r := by
  unfold orientP
  by_cases h : r.getLast?.getD 0 < r.head?.getD 0
  · simp only [h, if_true, List.getLast?_reverse, List.head?_reverse]
    rw [if_neg (by omega)]
  · simp only [h, if_false]

theorem orientP_reverse {r : List ℕ} (h : r.Nodup) : orientP r.reverse = orientP r := by
  unfold orientP
  rw [List.getLast?_reverse, List.head?_reverse]
  rcases lt_trichotomy (r.getLast?.getD 0) (r.head?.getD 0) with h1 | h1 | h1
  · rw [if_neg (by omega), if_pos h1]
  · rw [if_neg (by omega), if_neg (by omega)]
    cases r with
    | nil => rfl
    | cons a t =>
      rcases List.eq_nil_or_concat t with rfl | ⟨m, b, rfl⟩
      · rfl
      · simp [List.getLast?_cons] at h1
        subst h1; simp at h
  · rw [if_pos h1, if_neg (by omega), List.reverse_reverse]

theorem list_split_eq (l : List ℕ) : list_split l = blocks l := (pyGroupby_zero_blocks l).1

theorem flatMap_concat_zero (bs : List (List ℕ)) :
    0 :: bs.flatMap (fun r => r ++ [0]) = tour bs := by
  induction bs with
  | nil => rfl
  | cons b t ih => rw [tour, ← ih]; simp

theorem normalize_tail_eq {rs : List (List ℕ)} (h : ∀ r ∈ rs, r ≠ []) :
    normalize_tail rs = .ok (tour (lexSort (rs.map orientP))) := by
  simp only [normalize_tail, orientAll_eq h, bind, Except.bind, pure, Except.pure,
    flatMap_concat_zero]

theorem normalize_solution_eq {sol : List ℕ} (h : sol ≠ []) :
    normalize_solution sol = .ok (tour (lexSort ((blocks sol).map orientP))) := by
  obtain ⟨a, t, rfl⟩ := List.exists_cons_of_ne_nil h
  simp only [normalize_solution, idx_zero_cons, bind, Except.bind]
  rw [list_split_eq, normalize_tail_eq (fun r hr => (mem_blocks _ r hr).1)]

theorem blocks_normalized (sol : List ℕ) :
    blocks (tour (lexSort ((blocks sol).map orientP))) = lexSort ((blocks sol).map orientP) := by
  apply blocks_tour_of_routes
  intro b hb
  have := (lexSort_perm _).mem_iff.1 hb
  simp only [List.mem_map] at this
  obtain ⟨r, hr, rfl⟩ := this
  have := mem_blocks sol r hr
  exact ⟨orientP_ne_nil this.1, fun x hx => this.2 x ((orientP_mem x).1 hx)⟩

theorem dropWhile_zero_append (g t : List ℕ) (hg : ∀ x ∈ g, x ≠ 0) (hne : g ≠ []) :
    (g ++ t).dropWhile (· == 0) = g ++ t := by
  obtain ⟨a, s, rfl⟩ := List.exists_cons_of_ne_nil hne
  have : a ≠ 0 := hg a (by simp)
  simp [this]

theorem list_trim_wrap {b : List ℕ} (hb : ∀ x ∈ b, x ≠ 0) : list_trim (wrap b) = b := by
  by_cases hne : b = []
  · subst hne; rfl
  · unfold list_trim wrap
    have e1 : (0 :: (b ++ [0])).dropWhile (· == 0) = b ++ [0] := by
      rw [List.dropWhile_cons_of_pos (by rfl), dropWhile_zero_append b [0] hb hne]
    rw [e1, List.reverse_append]
    have e2 : ([0].reverse ++ b.reverse).dropWhile (· == 0) = b.reverse := by
      simp only [List.reverse_singleton, List.singleton_append]
      rw [List.dropWhile_cons_of_pos (by rfl)]
      have := dropWhile_zero_append b.reverse [] (by simpa using hb) (by simpa using hne)
      simpa using this
    rw [e2, List.reverse_reverse]

theorem list_trim_zerofree {b : List ℕ} (hb : ∀ x ∈ b, x ≠ 0) : list_trim b = b := by
  by_cases hne : b = []
  · subst hne; rfl
  · unfold list_trim
    have e1 := dropWhile_zero_append b [] hb hne
    have e2 := dropWhile_zero_append b.reverse [] (by simpa using hb) (by simpa using hne)
    simp only [List.append_nil] at e1 e2
    rw [e1, e2, List.reverse_reverse]

/-! ## validator -/

/-- The `covering` list after visiting `seen`. -/
def coverOf (N : ℕ) (seen : List ℕ) : List ℕ :=
  (List.range N).map (fun n => if n ∈ seen then 1 else 0)

theorem coverOf_nil (N : ℕ) : coverOf N [] = List.replicate N 0 := by
  apply List.ext_getElem <;> simp [coverOf]

theorem coverVisit_eq (N : ℕ) (seen : List ℕ) (ok : Bool) (node : ℕ) (h : node < N) :
    coverVisit node (coverOf N seen, ok) =
      .ok (coverOf N (seen ++ [node]), ok && decide (node = 0 ∨ node ∉ seen)) := by
  have hidx : idx (coverOf N seen) node = .ok (if node ∈ seen then 1 else 0) := by
    simp [idx, coverOf, h]
  simp only [coverVisit, hidx, bind, Except.bind]
  by_cases hs : node ∈ seen
  · have hc : coverOf N (seen ++ [node]) = coverOf N seen := by
      unfold coverOf; apply List.map_congr_left
      intro n _
      by_cases hn : n = node
      · subst hn; simp [hs]
      · simp [hn]
    rw [hc]
    by_cases h0 : node = 0
    · simp [h0, pure, Except.pure]
      intro h2; subst h0; exact absurd hs h2
    · simp [hs, h0, pure, Except.pure]
  · have hset : setIdx (coverOf N seen) node 1 = .ok (coverOf N (seen ++ [node])) := by
      rw [setIdx, if_pos (by simpa [coverOf] using h)]
      congr 1
      apply List.ext_getElem
      · simp [coverOf]
      · intro i h1 h2
        simp only [coverOf, List.length_set, List.length_map, List.length_range] at h1
        rw [List.getElem_set]
        by_cases hi : node = i
        · subst hi; simp [coverOf]
        · have : i ≠ node := fun e => hi e.symm
          simp [coverOf, hi, this]
    simp [hs, hset, pure, Except.pure]

/-- The coverage flag after visiting a list. -/
def coverFlag (seen : List ℕ) : List ℕ → Bool
  | [] => true
  | n :: t => decide (n = 0 ∨ n ∉ seen) && coverFlag (seen ++ [n]) t

theorem coverFlag_append (seen xs ys : List ℕ) :
    coverFlag seen (xs ++ ys) = (coverFlag seen xs && coverFlag (seen ++ xs) ys) := by
  induction xs generalizing seen with
  | nil => simp [coverFlag]
  | cons a t ih => simp [coverFlag, ih, Bool.and_assoc]

theorem coverFlag_iff (seen xs : List ℕ) (h : (customers seen).Nodup) :
    coverFlag seen xs = true ↔ (customers (seen ++ xs)).Nodup := by
  induction xs generalizing seen with
  | nil => simp [coverFlag, h]
  | cons a t ih =>
    rw [coverFlag]
    have e : seen ++ a :: t = (seen ++ [a]) ++ t := by simp
    by_cases ha : a = 0
    · subst ha
      rw [e, ← ih (seen ++ [0]) (by simpa using h)]
      simp
    · by_cases hm : a ∈ seen
      · have : ¬ (customers (seen ++ a :: t)).Nodup := by
          rw [customers_append, customers_of_ne ha]
          intro hn
          have := List.disjoint_of_nodup_append hn
          exact this (a := a) (by simp [customers, hm, ha]) (by simp)
        simp only [hm, ha, this]
        simp
      · rw [e, ← ih (seen ++ [a]) ?_]
        · simp [hm]
        · rw [customers_append, customers_of_ne ha, List.nodup_append]
          refine ⟨h, by simp, ?_⟩
          rintro x hx y hy rfl
          simp at hy; subst hy
          simp [customers] at hx
          exact hm hx.1

theorem coverOf_sum (N : ℕ) (seen : List ℕ) :
    (coverOf N seen).sum = N ↔ ∀ n < N, n ∈ seen := by
  have key : ∀ l : List ℕ, (l.map (fun n => if n ∈ seen then 1 else 0)).sum ≤ l.length ∧
      ((l.map (fun n => if n ∈ seen then 1 else 0)).sum = l.length ↔ ∀ n ∈ l, n ∈ seen) := by
    intro l
    induction l with
    | nil => simp
    | cons a t ih =>
      obtain ⟨i1, i2⟩ := ih
      simp only [List.map_cons, List.sum_cons, List.length_cons]
      by_cases ha : a ∈ seen
      · simp only [ha, if_true]
        refine ⟨by omega, ?_⟩
        rw [List.forall_mem_cons, ← i2]
        constructor
        · intro h; exact ⟨ha, by omega⟩
        · rintro ⟨_, h⟩; omega
      · simp only [ha, if_false]
        refine ⟨by omega, ?_⟩
        rw [List.forall_mem_cons]
        constructor
        · intro h; omega
        · rintro ⟨h, _⟩; exact absurd h ha
  have := (key (List.range N)).2
  simpa [coverOf] using this

/-- Coverage verdict. -/
theorem covers_iff (N : ℕ) (sol : List ℕ) (h0 : 0 ∈ sol) (hN : ∀ n ∈ sol, n < N) :
    ((coverOf N sol).sum = N ∧ (customers sol).Nodup) ↔ Covers N sol := by
  rw [coverOf_sum, Covers]
  constructor
  · rintro ⟨h1, h2⟩
    rw [List.perm_ext_iff_of_nodup h2 (List.nodup_range' ..)]
    intro n
    simp only [customers, List.mem_filter, List.mem_range'_1]
    constructor
    · rintro ⟨hn, hne⟩
      have := hN n hn
      simp at hne; omega
    · rintro ⟨hn1, hn2⟩
      exact ⟨h1 n (by omega), by simp; omega⟩
  · intro h
    refine ⟨?_, h.nodup_iff.2 (List.nodup_range' ..)⟩
    intro n hn
    by_cases hz : n = 0
    · subst hz; exact h0
    · have : n ∈ customers sol := h.mem_iff.2 (by rw [List.mem_range'_1]; omega)
      simp [customers] at this; exact this.1

/-- Capacity part of the second loop. -/
def capLoop (d : ℕ → ℚ) (C : Option ℚ) : List ℕ → ℚ × Bool → ℚ × Bool
  | [], s => s
  | node :: t, s =>
    if node = 0 then capLoop d C t (0, s.2 && !exceeds C C_EPS s.1)
    else capLoop d C t (s.1 + d node, s.2)

/-- Route cost part of the second loop. -/
def lenLoop (D : ℕ → ℕ → ℚ) (L : Option ℚ) : List ℕ → ℚ × ℕ × Bool → ℚ × ℕ × Bool
  | [], s => s
  | node :: t, s =>
    if node = 0 then lenLoop D L t (0, 0, s.2.2 && !exceeds L S_EPS (s.1 + D s.2.1 0))
    else lenLoop D L t (s.1 + D s.2.1 node, node, s.2.2)

theorem exceeds_truthy {lim : Option ℚ} (h : truthy lim = false) (e x : ℚ) :
    exceeds lim e x = false := by
  cases lim with
  | none => rfl
  | some c => simp [truthy] at h; simp [exceeds, h]

theorem validateLoop2_eq (N : ℕ) (D : ℕ → ℕ → ℚ) (d : ℕ → ℚ) (C L : Option ℚ) (b : List ℕ)
    (hb : ∀ n ∈ b, n < N) : ∀ (seen : List ℕ) (ok cap len : Bool) (c l : ℚ) (p : ℕ),
    ∃ s, validateLoop2 D (some d) C L b ⟨(coverOf N seen, ok), cap, len, c, l, p⟩ = .ok s ∧
      s.cov = (coverOf N (seen ++ b), ok && coverFlag seen b) ∧
      (truthy C = true → (s.c, s.capacity_ok) = capLoop d C b (c, cap)) ∧
      (truthy C = false → s.capacity_ok = cap) ∧
      (truthy L = true → (s.l, s.prev_node, s.cost_ok) = lenLoop D L b (l, p, len)) ∧
      (truthy L = false → s.cost_ok = len) := by
  induction b with
  | nil =>
    intro seen ok cap len c l p
    exact ⟨_, rfl, by simp [coverFlag], by simp [capLoop], by simp, by simp [lenLoop], by simp⟩
  | cons n t ih =>
    intro seen ok cap len c l p
    have hn : n < N := hb n (by simp)
    have ht : ∀ x ∈ t, x < N := fun x hx => hb x (List.mem_cons_of_mem _ hx)
    rw [validateLoop2]
    simp only [coverVisit_eq N seen ok n hn, bind, Except.bind]
    obtain ⟨s, e1, e2, e3, e4, e5, e6⟩ := ih ht (seen ++ [n]) (ok && decide (n = 0 ∨ n ∉ seen))
      (cap && !(decide (n = 0) && exceeds C C_EPS c))
      (len && !(decide (n = 0) && exceeds L S_EPS (l + D p n)))
      (if n = 0 then 0 else if truthy C then c + d n else c)
      (if n = 0 then 0 else if truthy L then l + D p n else l) (if truthy L then n else p)
    refine ⟨s, ?_, ?_, ?_, ?_, ?_, ?_⟩
    · rw [← e1]
      by_cases hC : truthy C = true <;> by_cases hL : truthy L = true <;> by_cases h0 : n = 0
      · subst h0
        by_cases hx : exceeds C C_EPS c = true <;>
          by_cases hy : exceeds L S_EPS (l + D p 0) = true <;>
          simp [hC, hL, hx, hy, pure, Except.pure]
      · simp [hC, hL, h0, demandOf, pure, Except.pure]
      · subst h0
        have := exceeds_truthy (by simpa using hL) S_EPS (l + D p 0)
        by_cases hx : exceeds C C_EPS c = true <;> simp [hC, hL, hx, this, pure, Except.pure]
      · simp [hC, hL, h0, demandOf, pure, Except.pure]
      · subst h0
        have := exceeds_truthy (by simpa using hC) C_EPS c
        by_cases hy : exceeds L S_EPS (l + D p 0) = true <;>
          simp [hC, hL, hy, this, pure, Except.pure]
      · simp [hC, hL, h0, pure, Except.pure]
      · subst h0
        have h1 := exceeds_truthy (by simpa using hC) C_EPS c
        have h2 := exceeds_truthy (by simpa using hL) S_EPS (l + D p 0)
        simp [hC, hL, h1, h2, pure, Except.pure]
      · simp [hC, hL, h0, pure, Except.pure]
    · rw [e2, coverFlag]; simp [Bool.and_assoc]
    · intro h; rw [e3 h, capLoop]; by_cases h0 : n = 0 <;> simp [h0, h]
    · intro h; rw [e4 h, exceeds_truthy h]; simp
    · intro h; rw [e5 h, lenLoop]; by_cases h0 : n = 0 <;> simp [h0, h]
    · intro h; rw [e6 h, exceeds_truthy h]; simp

/-- The first loop on customers up to the first depot visit. -/
theorem validateLoop1_eq (N : ℕ) (D : ℕ → ℕ → ℚ) (d : ℕ → ℚ) (C L : Option ℚ) (a b : List ℕ)
    (ha : ∀ n ∈ a, n ≠ 0 ∧ n < N) (hN : 0 < N) : ∀ (seen : List ℕ) (ok : Bool) (tc tl : ℚ) (p : ℕ),
    ∃ s, validateLoop1 D (some d) C L (a ++ 0 :: b) ⟨(coverOf N seen, ok), tc, tl, p⟩ =
        .ok (s, some b) ∧
      s.cov = (coverOf N (seen ++ a ++ [0]), ok && coverFlag seen (a ++ [0])) ∧
      (truthy C = true → s.tail_c = tc + demand d a + d 0) ∧
      (truthy L = true → s.tail_l = tl + cost D (p :: (a ++ [0])) ∧ s.prev_node = 0) := by
  induction a with
  | nil =>
    intro seen ok tc tl p
    rw [List.nil_append, validateLoop1]
    simp only [coverVisit_eq N seen ok 0 hN, bind, Except.bind]
    by_cases hC : truthy C = true <;> by_cases hL : truthy L = true <;>
      simp [hC, hL, demandOf, pure, Except.pure, coverFlag]
  | cons n t ih =>
    intro seen ok tc tl p
    obtain ⟨hn0, hn⟩ := ha n (by simp)
    have ht : ∀ x ∈ t, x ≠ 0 ∧ x < N := fun x hx => ha x (List.mem_cons_of_mem _ hx)
    rw [List.cons_append, validateLoop1]
    simp only [coverVisit_eq N seen ok n hn, bind, Except.bind]
    obtain ⟨s, e1, e2, e3, e4⟩ := ih ht (seen ++ [n]) (ok && decide (n = 0 ∨ n ∉ seen))
      (if truthy C then tc + d n else tc) (if truthy L then tl + D p n else tl)
      (if truthy L then n else p)
    refine ⟨s, ?_, ?_, ?_, ?_⟩
    · rw [← e1]
      by_cases hC : truthy C = true <;> by_cases hL : truthy L = true <;>
        simp [hC, hL, hn0, demandOf, pure, Except.pure]
    · rw [e2, List.cons_append, coverFlag]; simp [Bool.and_assoc]
    · intro h; rw [e3 h]; simp [h]; ring
    · intro h
      refine ⟨?_, (e4 h).2⟩
      rw [(e4 h).1]; simp [h]; ring

/-- The first loop when there is no depot visit. -/
theorem validateLoop1_none (N : ℕ) (D : ℕ → ℕ → ℚ) (d : ℕ → ℚ) (C L : Option ℚ) (a : List ℕ)
    (ha : ∀ n ∈ a, n ≠ 0 ∧ n < N) : ∀ (seen : List ℕ) (ok : Bool) (tc tl : ℚ) (p : ℕ),
    ∃ s, validateLoop1 D (some d) C L a ⟨(coverOf N seen, ok), tc, tl, p⟩ = .ok (s, none) ∧
      s.cov = (coverOf N (seen ++ a), ok && coverFlag seen a) := by
  induction a with
  | nil =>
    intro seen ok tc tl p
    exact ⟨_, rfl, by simp [coverFlag]⟩
  | cons n t ih =>
    intro seen ok tc tl p
    obtain ⟨hn0, hn⟩ := ha n (by simp)
    have ht : ∀ x ∈ t, x ≠ 0 ∧ x < N := fun x hx => ha x (List.mem_cons_of_mem _ hx)
    rw [validateLoop1]
    simp only [coverVisit_eq N seen ok n hn, bind, Except.bind]
    obtain ⟨s, e1, e2⟩ := ih ht (seen ++ [n]) (ok && decide (n = 0 ∨ n ∉ seen))
      (if truthy C then tc + d n else tc) (if truthy L then tl + D p n else tl)
      (if truthy L then n else p)
    refine ⟨s, ?_, ?_⟩
    · rw [← e1]
      by_cases hC : truthy C = true <;> by_cases hL : truthy L = true <;>
        simp [hC, hL, hn0, demandOf, pure, Except.pure]
    · rw [e2, coverFlag]; simp [Bool.and_assoc]

theorem blocks_zerofree_append_forall {P : List ℕ → Prop} (hP : P []) (g : List ℕ)
    (hg : ∀ x ∈ g, x ≠ 0) : (∀ r ∈ blocks g, P r) ↔ P g := by
  rw [blocks_zerofree g hg]
  split
  · subst_vars; simp [hP]
  · simp

theorem exceeds_iff (lim : Option ℚ) (e x : ℚ) : exceeds lim e x = false ↔ Within lim e x := by
  cases lim with
  | none => simp [exceeds, Within]
  | some c =>
    simp only [exceeds, Within, Option.some.injEq, Bool.and_eq_false_iff, bne_eq_false_iff_eq,
      decide_eq_false_iff_not, gt_iff_lt, not_lt]
    constructor
    · rintro h c' rfl hc
      rcases h with h | h
      · exact absurd h hc
      · linarith
    · intro h
      by_cases hc : c = 0
      · left; exact hc
      · right; have := h c rfl hc; linarith

/-- Correctness of the capacity part, with an open route `p` before and the route part `a` that
continues after the end of the solution. -/
theorem capLoop_spec (d : ℕ → ℚ) (C : Option ℚ) (hC : ∀ c, C = some c → 0 ≤ c) (b a p : List ℕ)
    (ha : ∀ x ∈ a, x ≠ 0) (hp : ∀ x ∈ p, x ≠ 0) (ok : Bool) :
    ((capLoop d C b (demand d p, ok)).2 = true ∧
      exceeds C C_EPS ((capLoop d C b (demand d p, ok)).1 + demand d a) = false) ↔
    (ok = true ∧ ∀ r ∈ blocks (p ++ (b ++ a)), Within C C_EPS (demand d r)) := by
  have hnil : Within C C_EPS (demand d []) := by
    intro c hc _; have := hC c hc; simp [C_EPS]; linarith
  induction b generalizing p ok with
  | nil =>
    have hpa : ∀ x ∈ p ++ a, x ≠ 0 := by
      intro x hx; rcases List.mem_append.1 hx with h | h
      · exact hp x h
      · exact ha x h
    rw [List.nil_append, blocks_zerofree_append_forall hnil _ hpa, capLoop, exceeds_iff, demand_append]
  | cons n t ih =>
    by_cases h0 : n = 0
    · subst h0
      rw [capLoop, if_pos rfl]
      have := ih [] (by simp) (ok && !exceeds C C_EPS (demand d p))
      rw [demand_nil] at this
      refine this.trans ?_
      rw [List.nil_append]
      have e : p ++ (0 :: t ++ a) = p ++ 0 :: (t ++ a) := by simp
      rw [e, blocks_append_zero]
      have : (ok && !exceeds C C_EPS (demand d p)) = true ↔ ok = true ∧ Within C C_EPS (demand d p) := by
        rw [← exceeds_iff]; simp
      rw [this, ← blocks_zerofree_append_forall (P := fun r => Within C C_EPS (demand d r)) hnil p hp]
      simp only [List.mem_append]
      constructor
      · rintro ⟨⟨h1, h2⟩, h3⟩
        exact ⟨h1, fun r hr => hr.elim (h2 r) (h3 r)⟩
      · rintro ⟨h1, h2⟩
        exact ⟨⟨h1, fun r hr => h2 r (Or.inl hr)⟩, fun r hr => h2 r (Or.inr hr)⟩
    · rw [capLoop, if_neg h0]
      have := ih (p ++ [n]) (by
        intro x hx; rcases List.mem_append.1 hx with h | h
        · exact hp x h
        · simp at h; subst h; exact h0) ok
      have e : demand d (p ++ [n]) = demand d p + d n := by simp
      rw [e] at this
      simp only at this ⊢
      refine this.trans ?_
      simp

/-- Correctness of the route cost part. `z` is the last node of the solution. -/
theorem lenLoop_spec (D : ℕ → ℕ → ℚ) (h00 : D 0 0 = 0) (L : Option ℚ)
    (hL : ∀ c, L = some c → 0 ≤ c) (b a p : List ℕ)
    (ha : ∀ x ∈ a, x ≠ 0) (hp : ∀ x ∈ p, x ≠ 0) (ok : Bool) (q z : ℕ)
    (hq : (0 :: p).getLast? = some q) (hz : (0 :: (p ++ b)).getLast? = some z) :
    ((lenLoop D L b (cost D (0 :: p), q, ok)).2.2 = true ∧
      exceeds L S_EPS ((lenLoop D L b (cost D (0 :: p), q, ok)).1 + cost D (z :: (a ++ [0]))) = false) ↔
    (ok = true ∧ ∀ r ∈ blocks (p ++ (b ++ a)), Within L S_EPS (cost D (wrap r))) := by
  have hnil : Within L S_EPS (cost D (wrap [])) := by
    intro c hc _; have := hL c hc; simp [wrap, h00, S_EPS]; linarith
  have hclose : ∀ (p : List ℕ) (q : ℕ) (r : List ℕ), (0 :: p).getLast? = some q →
      cost D (0 :: p) + cost D (q :: r) = cost D (0 :: (p ++ r)) := by
    intro p q r h
    obtain ⟨m, hm⟩ : ∃ m, 0 :: p = m ++ [q] := by
      rcases List.eq_nil_or_concat (0 :: p) with h' | ⟨m, x, h'⟩
      · simp at h'
      · rw [h'] at h; simp at h; subst h; exact ⟨m, by simpa using h'⟩
    have e : 0 :: (p ++ r) = m ++ q :: r := by rw [← List.cons_append, hm]; simp
    rw [e, cost_append_cons, hm]
  induction b generalizing p ok q with
  | nil =>
    have hpa : ∀ x ∈ p ++ a, x ≠ 0 := by
      intro x hx; rcases List.mem_append.1 hx with h | h
      · exact hp x h
      · exact ha x h
    rw [List.append_nil, hq] at hz
    obtain rfl : q = z := by simpa using hz
    rw [List.nil_append, blocks_zerofree_append_forall (P := fun r => Within L S_EPS (cost D (wrap r)))
      hnil _ hpa, lenLoop, exceeds_iff]
    simp only
    rw [hclose p q (a ++ [0]) hq]
    simp [wrap]
  | cons n t ih =>
    by_cases h0 : n = 0
    · subst h0
      rw [lenLoop, if_pos rfl]
      have := ih [] (by simp) (ok && !exceeds L S_EPS (cost D (0 :: p) + D q 0)) 0 rfl (by
        rw [← hz]
        have e : 0 :: (p ++ 0 :: t) = (0 :: p) ++ 0 :: t := by simp
        rw [e, List.getLast?_append]
        simp [List.getLast?_cons])
      simp only [cost_single] at this ⊢
      refine this.trans ?_
      rw [List.nil_append]
      have e : p ++ (0 :: t ++ a) = p ++ 0 :: (t ++ a) := by simp
      rw [e, blocks_append_zero]
      have hw : cost D (0 :: p) + D q 0 = cost D (wrap p) := by
        have := hclose p q [0] hq
        simpa [wrap] using this
      have : (ok && !exceeds L S_EPS (cost D (0 :: p) + D q 0)) = true ↔
          ok = true ∧ Within L S_EPS (cost D (wrap p)) := by
        rw [← exceeds_iff, hw]; simp
      rw [this, ← blocks_zerofree_append_forall (P := fun r => Within L S_EPS (cost D (wrap r)))
        hnil p hp]
      simp only [List.mem_append]
      constructor
      · rintro ⟨⟨h1, h2⟩, h3⟩
        exact ⟨h1, fun r hr => hr.elim (h2 r) (h3 r)⟩
      · rintro ⟨h1, h2⟩
        exact ⟨⟨h1, fun r hr => h2 r (Or.inl hr)⟩, fun r hr => h2 r (Or.inr hr)⟩
    · rw [lenLoop, if_neg h0]
      have := ih (p ++ [n]) (by
        intro x hx; rcases List.mem_append.1 hx with h | h
        · exact hp x h
        · simp at h; subst h; exact h0) ok n (by simp [List.getLast?_cons])
        (by rw [← hz]; simp)
      have e : cost D (0 :: (p ++ [n])) = cost D (0 :: p) + D q n := by
        have := hclose p q [n] hq
        simpa using this.symm
      rw [e] at this
      simp only at this ⊢
      refine this.trans ?_
      simp

end Verif
