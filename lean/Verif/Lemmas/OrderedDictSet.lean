import Verif.Spec.OrderedSet
import Mathlib.Data.List.Nodup

/-! # Lemmas for `OrderedDictSet` -/

namespace Verif
open Spec ODS

theorem ods_foldl_erase (c l : List ℕ) (h : l.Nodup) :
    c.foldl (fun keys e => keys.erase e) l = l.filter (· ∉ c) := by
  induction c generalizing l with
  | nil => simp
  | cons a c ih =>
    rw [List.foldl_cons, ih _ (h.erase a), h.erase_eq_filter, List.filter_filter]
    congr 1; funext x
    simp only [List.mem_cons, not_or]
    by_cases h1 : x = a <;> by_cases h2 : x ∈ c <;> simp [h1, h2]

theorem ods_next_nodup (l : List ℕ) (h : l.Nodup) (op : Op) : (OSet.next l op).Nodup := by
  cases op <;> simp only [OSet.next] <;> try exact h
  · split
    · exact h
    · rename_i e he
      rw [List.nodup_append]
      exact ⟨h, by simp, by rintro a ha b hb rfl; simp at hb; subst hb; exact he ha⟩
  · exact h.filter _
  · exact h.filter _

theorem ods_step_ods (s : ODS.State) (h : s.ods.Nodup) (op : Op) :
    (step s op).1.ods = OSet.next s.ods op := by
  cases op with
  | add e => rfl
  | remove e =>
    simp only [step, ODS.remove, OSet.next]
    by_cases he : e ∈ s.ods
    · simp only [he, if_true]
      rw [h.erase_eq_filter]
      congr 1; funext x; simp only [bne]; by_cases hx : x = e <;> simp [hx]
    · simp only [he, if_false]
      symm; rw [List.filter_eq_self]
      intro x hx; simp; rintro rfl; exact he hx
  | diff c => simp only [step, difference_update, OSet.next]; exact ods_foldl_erase c _ h
  | get i => rfl
  | iter => rfl
  | len => rfl
  | mem e => rfl

theorem ods_fromKeys (c : List ℕ) : dictFromKeys c = OSet.ofList c := by
  have key : ∀ (c acc : List ℕ), c.foldl dictSet acc = acc ++ (OSet.ofList c).filter (· ∉ acc) := by
    intro c
    induction c with
    | nil => intro acc; simp [OSet.ofList]
    | cons a t ih =>
      intro acc
      rw [List.foldl_cons, ih, OSet.ofList]
      unfold dictSet
      by_cases ha : a ∈ acc
      · simp only [ha, if_true]
        rw [List.filter_cons_of_neg (by simpa using ha), List.filter_filter]
        congr 1; apply List.filter_congr
        intro x _
        by_cases hx : x = a
        · subst hx; simp [ha]
        · simp [hx]
      · simp only [ha, if_false]
        rw [List.filter_cons_of_pos (by simpa using ha), List.filter_filter, List.append_assoc]
        congr 1
        simp only [List.singleton_append, List.cons.injEq, true_and]
        apply List.filter_congr
        intro x _
        by_cases hx : x = a <;> simp [hx]
  simpa [dictFromKeys] using key c []

theorem ods_ofList_nodup (c : List ℕ) : (OSet.ofList c).Nodup := by
  induction c with
  | nil => simp [OSet.ofList]
  | cons a t ih =>
    rw [OSet.ofList, List.nodup_cons]
    exact ⟨by simp, ih.filter _⟩

theorem ods_getitem_eq (s : ODS.State) (h : s.keylist = none ∨ s.keylist = some s.ods) (i : ℤ) :
    Obs.item (getitem s i).2 = OSet.out s.ods (.get i) := by
  have hk : (getitem s i).2 = match i with
      | .ofNat n => idx s.ods n
      | .negSucc n => idxNeg s.ods (n + 1) := by
    unfold getitem; rcases h with h | h <;> rw [h] <;> rfl
  rw [hk, OSet.out]
  congr 1
  cases i with
  | ofNat n =>
    simp only [Int.ofNat_eq_natCast, idx]
    have h0 : (0 : ℤ) ≤ (n : ℤ) := by omega
    simp only [h0, if_true, Int.toNat_natCast, true_and]
    by_cases hn : n < s.ods.length
    · simp [hn]
    · simp [hn]
  | negSucc n =>
    have h0 : ¬ (0 : ℤ) ≤ Int.negSucc n := by omega
    simp only [h0, if_false, idxNeg]
    by_cases hn : s.ods.length < n + 1
    · have : ¬ (0 ≤ Int.negSucc n + (s.ods.length : ℤ)) := by omega
      simp [hn, this]
    · have e : (Int.negSucc n + (s.ods.length : ℤ)).toNat = s.ods.length - (n + 1) := by omega
      have h1 : (0 ≤ Int.negSucc n + (s.ods.length : ℤ)) := by omega
      have h2 : s.ods.length - (n + 1) < s.ods.length := by omega
      simp only [hn, h1, e, h2, idx]
      simp [h2]

end Verif
