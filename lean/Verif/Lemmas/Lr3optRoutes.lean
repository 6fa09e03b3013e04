import Verif.Lemmas.Lr3optCheck

/-! # Lemmas for the relaxed moves of Stewart and Golden: the payments of all routes -/

namespace Verif
open Spec

/-- A value for all routes of a solution. -/
def tot (f : List ℕ → ℚ) (X : List ℕ) : ℚ := ((blocks X).map f).sum

/-- The routes closed on the way through `X`, the first starts with `p`. -/
def paid (f : List ℕ → ℚ) : List ℕ → List ℕ → ℚ
  | _, [] => 0
  | p, n :: t => if n = 0 then f p + paid f [] t else paid f (p ++ [n]) t

/-- The routes inside of a segment. -/
def inn (f : List ℕ → ℚ) (X : List ℕ) : ℚ := if 0 ∈ X then paid f [] X - f (headRun X) else 0

/-- The route that is closed when the run reaches a segment. -/
def chk (f : List ℕ → ℚ) (p X : List ℕ) : ℚ := if 0 ∈ X then f (p ++ headRun X) else 0

section
variable {f : List ℕ → ℚ}

theorem tot_zero (l r : List ℕ) : tot f (l ++ 0 :: r) = tot f l + tot f r := by
  simp [tot, blocks_append_zero]

theorem tot_free (hf : f [] = 0) {p : List ℕ} (h : 0 ∉ p) : tot f p = f p := by
  rw [tot, blocks_zerofree p fun x hx e => h (e ▸ hx)]
  by_cases hp : p = []
  · simp [hp, hf]
  · simp [hp]

theorem tot_reverse (hf : f [] = 0) (hr : ∀ b, f b.reverse = f b) (l : List ℕ) : tot f l.reverse = tot f l := by
  obtain ⟨n, hn⟩ : ∃ n, l.length = n := ⟨_, rfl⟩
  induction n using Nat.strong_induction_on generalizing l with
  | _ n ih =>
    by_cases h0 : 0 ∈ l
    · obtain ⟨a, r, rfl, ha⟩ := List.eq_append_cons_of_mem h0
      have e : (a ++ 0 :: r).reverse = r.reverse ++ 0 :: a.reverse := by simp
      simp only [List.length_append, List.length_cons] at hn
      rw [e, tot_zero, tot_zero, ih r.length (by omega) r rfl, ih a.length (by omega) a rfl, add_comm]
    · rw [tot_free hf (by simpa using h0), tot_free hf h0, hr]

theorem paid_append (p X Y : List ℕ) : paid f p (X ++ Y) = paid f p X + paid f (runFrom p X) Y := by
  induction X generalizing p with
  | nil => simp [paid, runFrom]
  | cons n t ih =>
    by_cases hn : n = 0
    · subst hn
      simp only [List.cons_append, paid, if_true, ih]
      rw [show runFrom p (0 :: t) = runFrom [] t from by simp [runFrom]]; ring
    · simp only [List.cons_append, paid, if_neg hn, ih]
      rw [show runFrom p (n :: t) = runFrom (p ++ [n]) t from by simp [runFrom, hn]]

theorem paid_free (p : List ℕ) {X : List ℕ} (h : 0 ∉ X) : paid f p X = 0 := by
  induction X generalizing p with
  | nil => rfl
  | cons n t ih =>
    have hn : n ≠ 0 := fun e => h (by simp [e])
    rw [paid, if_neg hn]
    exact ih _ fun hh => h (by simp [hh])

theorem paid_split (p : List ℕ) {h : List ℕ} (r : List ℕ) (hh : 0 ∉ h) : paid f p (h ++ 0 :: r) = f (p ++ h) + paid f [] r := by
  rw [paid_append, paid_free p hh, runFrom_zerofree _ hh, paid, if_pos rfl, zero_add]

theorem paid_eq (p X : List ℕ) : paid f p X = chk f p X + inn f X := by
  by_cases h0 : 0 ∈ X
  · rw [chk, inn, if_pos h0, if_pos h0]
    obtain ⟨h, r, rfl, hh⟩ := List.eq_append_cons_of_mem h0
    rw [paid_split p r hh, paid_split [] r hh, headRun_split hh]
    simp
  · rw [paid_free p h0, chk, inn, if_neg h0, if_neg h0, add_zero]

theorem tot_paid (hf : f [] = 0) {p : List ℕ} (hp : 0 ∉ p) (X : List ℕ) : tot f (p ++ X) = paid f p X + f (runFrom p X) := by
  induction X generalizing p with
  | nil => simp [paid, runFrom, tot_free hf hp]
  | cons n t ih =>
    by_cases hn : n = 0
    · subst hn
      have := ih (p := []) (by simp)
      rw [List.nil_append] at this
      rw [tot_zero, this, tot_free hf hp, paid, if_pos rfl]
      rw [show runFrom p (0 :: t) = runFrom [] t from by simp [runFrom]]; ring
    · have := ih (p := p ++ [n]) (by simpa [hp] using fun e => hn e.symm)
      rw [List.append_assoc, List.singleton_append] at this
      rw [this, paid, if_neg hn]
      rw [show runFrom p (n :: t) = runFrom (p ++ [n]) t from by simp [runFrom, hn]]

theorem inn_reverse (hf : f [] = 0) (hr : ∀ b, f b.reverse = f b) (X : List ℕ) : inn f X.reverse = inn f X := by
  by_cases h0 : 0 ∈ X
  · have h0' : 0 ∈ X.reverse := by simpa using h0
    have t1 := tot_paid hf (p := []) (by simp) X
    have t2 := tot_paid hf (p := []) (by simp) X.reverse
    rw [List.nil_append, paid_eq] at t1 t2
    have e1 : chk f [] X = f (runFrom [] X.reverse) := by
      rw [chk, if_pos h0, List.nil_append, headRun, hr]
    have e2 : chk f [] X.reverse = f (runFrom [] X) := by
      rw [chk, if_pos h0', List.nil_append, headRun, hr, List.reverse_reverse]
    have := tot_reverse hf hr X
    rw [e1] at t1
    rw [e2] at t2
    linarith
  · rw [inn, inn, if_neg h0, if_neg (by simpa using h0)]

theorem inn_split {B B1 B2 : List ℕ} (h : S3Split B B1 B2) : inn f B = inn f B1 := by
  rw [inn, inn, if_pos h.mem, if_pos h.mem', h.head]
  conv_lhs => rw [h.1, paid_append, paid_free _ h.2.1, add_zero]

theorem chk_split {B B1 B2 : List ℕ} (h : S3Split B B1 B2) (p : List ℕ) : chk f p B = chk f p B1 := by
  rw [chk, chk, if_pos h.mem, if_pos h.mem', h.head]

/-! ## Solutions in parts -/

theorem tot_end (hf : f [] = 0) {p E : List ℕ} (hE : E.getLast? = some 0) (hp : 0 ∉ p) : tot f (p ++ E) = chk f p E + inn f E := by
  rw [tot_paid hf hp, run_last_zero hE, hf, add_zero, paid_eq]

theorem tot_step (hf : f [] = 0) {p X : List ℕ} (hp : 0 ∉ p) (Y : List ℕ) :
    tot f (p ++ (X ++ Y)) = chk f p X + inn f X + tot f (runFrom p X ++ Y) := by
  rw [tot_paid hf hp, tot_paid hf (run_free hp), paid_append, runFrom_append, paid_eq p X]
  ring

theorem tot_close {P : List ℕ} (hP : P.getLast? = some 0) (Q : List ℕ) : tot f (P ++ Q) = tot f P + tot f Q := by
  obtain ⟨P', x, rfl⟩ := exists_snoc (X := P) (by rintro rfl; cases hP)
  simp only [List.getLast?_append, List.getLast?_singleton, Option.some_or, Option.some.injEq] at hP
  subst hP
  rw [List.append_assoc, List.singleton_append, tot_zero, tot_zero]
  simp [tot]

theorem tot_depots {P M : List ℕ} (hM : M.head? = some 0) : tot f (P ++ M) = tot f P + tot f M := by
  cases M with
  | nil => simp at hM
  | cons a M =>
    simp only [List.head?_cons, Option.some.injEq] at hM
    subst hM
    rw [tot_zero]
    simp [tot]

theorem tot_loop0 (hf : f [] = 0) {B B1 B2 : List ℕ} (h : S3Split B B1 B2) :
    tot f (B2 ++ B1) = chk f (runFrom [] B) B + inn f B := by
  rw [tot_end hf h.last h.2.1, h.run, chk_split h, inn_split h]

theorem tot_loop1 (hf : f [] = 0) {B B1 B2 X : List ℕ} (h : S3Split B B1 B2) :
    tot f (B2 ++ (X ++ B1)) = chk f (runFrom [] B) X + inn f X + (chk f (runFrom (runFrom [] B) X) B + inn f B) := by
  rw [tot_step hf h.2.1, tot_end hf h.last (run_free h.2.1), h.run, chk_split h, inn_split h]

theorem tot_loop1_turn (hf : f [] = 0) (hr : ∀ b, f b.reverse = f b) {B B1 B2 X : List ℕ} (h : S3Split B B1 B2) :
    tot f (B2 ++ (X.reverse ++ B1)) = chk f (runFrom [] B.reverse) X + inn f X +
      (chk f (runFrom (runFrom [] B.reverse) X) B.reverse + inn f B) := by
  obtain ⟨a, M, rfl, hM, hM', ha, hb⟩ := h.rev
  rw [← inn_reverse hf hr B, ← tot_loop1 hf hb]
  have e1 : a.reverse ++ (X ++ (B2.reverse ++ M.reverse)) = (a.reverse ++ (X ++ B2.reverse)) ++ M.reverse := by simp
  have e2 : B2 ++ (X.reverse ++ (a ++ M)) = (a.reverse ++ (X ++ B2.reverse)).reverse ++ M := by simp
  rw [e1, e2, tot_depots hM.1, tot_depots hM'.1, tot_reverse hf hr, tot_reverse hf hr]

theorem tot_chain1 (hf : f [] = 0) (A : List ℕ) {E : List ℕ} (hE : E.getLast? = some 0) :
    tot f (A ++ E) = paid f [] A + (chk f (runFrom [] A) E + inn f E) := by
  have := tot_paid hf (p := []) (by simp) (A ++ E)
  rw [List.nil_append, paid_append, runFrom_append, run_last_zero hE, hf, add_zero, paid_eq _ E] at this
  exact this

theorem tot_chain2 (hf : f [] = 0) (A X : List ℕ) {E : List ℕ} (hE : E.getLast? = some 0) :
    tot f (A ++ (X ++ E)) = paid f [] A + (chk f (runFrom [] A) X + inn f X + (chk f (runFrom (runFrom [] A) X) E + inn f E)) := by
  have := tot_chain1 hf (A ++ X) hE
  rw [List.append_assoc, paid_append, runFrom_append, paid_eq _ X] at this
  rw [this]; ring

theorem tot_chain3 (hf : f [] = 0) (A X Y : List ℕ) {E : List ℕ} (hE : E.getLast? = some 0) :
    tot f (A ++ (X ++ (Y ++ E))) = paid f [] A + (chk f (runFrom [] A) X + inn f X + (chk f (runFrom (runFrom [] A) X) Y +
      inn f Y + (chk f (runFrom (runFrom (runFrom [] A) X) Y) E + inn f E))) := by
  have := tot_chain2 hf (A ++ X) Y hE
  rw [List.append_assoc, paid_append, runFrom_append, paid_eq _ X] at this
  rw [this]; ring

/-- The routes of the new solution of each move. -/
theorem s3Parts_tot (hf : f [] = 0) (hr : ∀ b, f b.reverse = f b) {A B S E B1 B2 S1 S2 : List ℕ} (hE : E.getLast? = some 0)
    {m : ℕ} (hm : m < 16) (h12 : m ∈ [7, 8, 9, 10, 15] → S3Split B B1 B2) (h34 : m ∈ [11, 12, 13, 14, 15] → S3Split S S1 S2) :
    tot f (s3Parts A B S E B1 B2 S1 S2 m).flatten = paid f [] A + inn f B + inn f S + inn f E +
      ((s3Walk A B S E m).map fun x => chk f x.1 x.2).sum := by
  have rB := inn_reverse hf hr B
  have rS := inn_reverse hf hr S
  have hP : ∀ P : List ℕ, (P ++ E).getLast? = some 0 := fun P => last_append hE
  have a1 : ∀ X Q : List ℕ, A ++ (X ++ (E ++ Q)) = (A ++ (X ++ E)) ++ Q := by simp
  have a2 : ∀ Q : List ℕ, A ++ (E ++ Q) = (A ++ E) ++ Q := by simp
  have lt : m = 0 ∨ m = 1 ∨ m = 2 ∨ m = 3 ∨ m = 4 ∨ m = 5 ∨ m = 6 ∨ m = 7 ∨ m = 8 ∨ m = 9 ∨ m = 10 ∨ m = 11 ∨ m = 12 ∨
      m = 13 ∨ m = 14 ∨ m = 15 := by omega
  rcases lt with rfl | rfl | rfl | rfl | rfl | rfl | rfl | rfl | rfl | rfl | rfl | rfl | rfl | rfl | rfl | rfl <;>
    simp only [s3Walk, List.cons_append, List.nil_append, List.map_cons, List.map_nil, List.sum_cons, List.sum_nil,
      s3Parts, List.flatten_cons, List.flatten_nil, List.append_nil, List.append_assoc, List.reverse_append]
  · rw [tot_chain3 hf _ _ _ hE, rS]; ring
  · rw [tot_chain3 hf _ _ _ hE, rS, rB]; ring
  · rw [tot_chain3 hf _ _ _ hE, rB]; ring
  · rw [tot_chain3 hf _ _ _ hE, rS, rB]; ring
  · rw [tot_chain3 hf _ _ _ hE]; ring
  · rw [tot_chain3 hf _ _ _ hE, rB]; ring
  · rw [tot_chain3 hf _ _ _ hE, rS]; ring
  · rw [a1, tot_close (by rw [← List.append_assoc]; exact hP _), tot_chain2 hf _ _ hE, tot_loop0 hf (h12 (by decide))]; ring
  · rw [a1, tot_close (by rw [← List.append_assoc]; exact hP _), tot_chain2 hf _ _ hE, tot_loop0 hf (h12 (by decide)), rS]; ring
  · rw [a2, tot_close (hP _), tot_chain1 hf _ hE, tot_loop1 hf (h12 (by decide))]; ring
  · rw [a2, tot_close (hP _), tot_chain1 hf _ hE, tot_loop1_turn hf hr (h12 (by decide))]; ring
  · rw [a1, tot_close (by rw [← List.append_assoc]; exact hP _), tot_chain2 hf _ _ hE, tot_loop0 hf (h34 (by decide))]; ring
  · rw [a1, tot_close (by rw [← List.append_assoc]; exact hP _), tot_chain2 hf _ _ hE, tot_loop0 hf (h34 (by decide)), rB]; ring
  · rw [a2, tot_close (hP _), tot_chain1 hf _ hE, tot_loop1 hf (h34 (by decide))]; ring
  · rw [a2, tot_close (hP _), tot_chain1 hf _ hE, tot_loop1 hf (h34 (by decide)), rB]; ring
  · have k12 := h12 (by decide)
    have e : A ++ (E ++ (B2 ++ (B1 ++ (S2 ++ S1)))) = (A ++ E) ++ ((B2 ++ B1) ++ (S2 ++ S1)) := by simp
    rw [e, tot_close (hP _), tot_close (last_append k12.last), tot_chain1 hf _ hE, tot_loop0 hf k12, tot_loop0 hf (h34 (by decide))]
    ring

end
end Verif
