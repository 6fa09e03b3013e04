import Mathlib.Data.List.Basic

/-!
# Python's `sort`

A stable sort is determined by its input and the order, so insertion sort has the same result as
Python's own algorithm.
-/

namespace Verif

/-- Insert an element before the first one that is not smaller. -/
def pyInsert {α : Type} (le : α → α → Bool) (a : α) : List α → List α
  | [] => [a]
  | b :: t => if le a b then a :: b :: t else b :: pyInsert le a t

/-- `l.sort()` for the order `le`; stable. -/
def pySort {α : Type} (le : α → α → Bool) : List α → List α
  | [] => []
  | a :: t => pyInsert le a (pySort le t)

theorem pyInsert_perm {α : Type} (le : α → α → Bool) (a : α) (l : List α) :
    (pyInsert le a l).Perm (a :: l) := by
  induction l with
  | nil => exact List.Perm.refl _
  | cons b t ih =>
    unfold pyInsert
    split_ifs
    · exact List.Perm.refl _
    · exact (List.Perm.cons b ih).trans (List.Perm.swap a b t)

theorem pySort_perm {α : Type} (le : α → α → Bool) (l : List α) : (pySort le l).Perm l := by
  induction l with
  | nil => exact List.Perm.refl _
  | cons a t ih => exact (pyInsert_perm le a _).trans (List.Perm.cons a ih)

theorem mem_pySort {α : Type} (le : α → α → Bool) (l : List α) (x : α) : x ∈ pySort le l ↔ x ∈ l :=
  (pySort_perm le l).mem_iff

theorem pyInsert_pairwise {α : Type} {le : α → α → Bool}
    (htrans : ∀ a b c, le a b = true → le b c = true → le a c = true)
    (htotal : ∀ a b, (le a b || le b a) = true) (a : α) (l : List α)
    (h : l.Pairwise fun a b => le a b = true) :
    (pyInsert le a l).Pairwise fun a b => le a b = true := by
  induction l with
  | nil => simp [pyInsert]
  | cons b t ih =>
    obtain ⟨h1, h2⟩ := List.pairwise_cons.1 h
    unfold pyInsert
    split_ifs with hab
    · refine List.pairwise_cons.2 ⟨fun x hx => ?_, h⟩
      rcases List.mem_cons.1 hx with rfl | hx
      · exact hab
      · exact htrans _ _ _ hab (h1 x hx)
    · refine List.pairwise_cons.2 ⟨fun x hx => ?_, ih h2⟩
      rcases List.mem_cons.1 ((pyInsert_perm le a t).mem_iff.1 hx) with rfl | hx
      · have := htotal x b
        rw [Bool.or_eq_true] at this
        exact this.resolve_left hab
      · exact h1 x hx

theorem pySort_pairwise {α : Type} {le : α → α → Bool}
    (htrans : ∀ a b c, le a b = true → le b c = true → le a c = true)
    (htotal : ∀ a b, (le a b || le b a) = true) (l : List α) :
    (pySort le l).Pairwise fun a b => le a b = true := by
  induction l with
  | nil => simp [pySort]
  | cons a t ih => exact pyInsert_pairwise htrans htotal a _ ih

end Verif
