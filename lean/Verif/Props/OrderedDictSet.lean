import Verif.Lemmas.OrderedDictSet

/-! # Property C05: `OrderedDictSet` is an insertion-ordered set -/

namespace Verif
open Spec ODS

/-- C05, the claim as documented is false: after an indexing, adding an element that already is in
the set makes it appear twice. -/
theorem C05_false_duplicate : ∃ (c : List ℕ) (ops : List Op),
    ODS.run (ODS.init c) ops ≠ OSet.run (OSet.ofList c) ops :=
  ⟨[1, 2], [.get 0, .add 1, .get 2], by decide⟩

/-- C05, the claim is false in another way: an element added after indexing an empty set can not be
found by its index. -/
theorem C05_false_stale : ∃ (ops : List Op),
    ODS.run (ODS.init []) ops ≠ OSet.run [] ops ∧
    ODS.run (ODS.init []) ops = [.item (.error .indexError), .unit, .num 1, .item (.error .indexError)] :=
  ⟨[.get 0, .add 5, .len, .get 0], by decide⟩

/-- C05 (partial). On every history that never adds an element that already is in the set and never
indexes an empty set, all the results are those of an insertion-ordered set. What is missing for
the full claim are the histories of `C05_false_duplicate` and `C05_false_stale`. -/
theorem C05_ordered_set_partial (c : List ℕ) (ops : List Op)
    (h : OSet.AllBenign (OSet.ofList c) ops) :
    ODS.run (ODS.init c) ops = OSet.run (OSet.ofList c) ops := by
  have key : ∀ (ops : List Op) (s : ODS.State), s.ods.Nodup →
      (s.keylist = none ∨ (s.keylist = some s.ods ∧ s.ods ≠ [])) → OSet.AllBenign s.ods ops →
      ODS.run s ops = OSet.run s.ods ops := by
    intro ops
    induction ops with
    | nil => intros; rfl
    | cons op ops ih =>
      intro s hn hk hb
      rw [ODS.run, OSet.run]
      obtain ⟨hb1, hb2⟩ := hb
      rw [← ods_step_ods s hn op] at hb2 ⊢
      rw [ih (step s op).1 (by rw [ods_step_ods s hn op]; exact ods_next_nodup _ hn op) ?_ hb2]
      · congr 1
        cases op with
        | add e => rfl
        | remove e =>
          simp only [step, ODS.remove, OSet.out]
          by_cases he : e ∈ s.ods <;> simp [he]
        | diff c => rfl
        | get i => exact ods_getitem_eq s (hk.imp id (·.1)) i
        | iter => rfl
        | len => rfl
        | mem e => rfl
      · cases op with
        | add e =>
          simp only [step, ODS.add]
          rcases hk with hk | ⟨hk, hne⟩
          · left; rw [hk]
          · right
            obtain ⟨a, t, ht⟩ := List.exists_cons_of_ne_nil hne
            have hb1' : e ∉ s.ods := hb1
            rw [hk, ht]
            rw [ht] at hb1'
            simp only [dictSet, if_neg hb1']
            simp
        | remove e =>
          simp only [step, ODS.remove]
          by_cases he : e ∈ s.ods
          · left; simp [he]
          · simpa [he] using hk
        | diff c => left; rfl
        | get i =>
          right
          have hb1' : s.ods ≠ [] := hb1
          simp only [step, getitem]
          refine ⟨?_, hb1'⟩
          rcases hk with hk | ⟨hk, _⟩ <;> rw [hk]
        | iter => exact hk
        | len => exact hk
        | mem e => exact hk
  have := key ops (ODS.init c) (by simp only [ODS.init]; rw [ods_fromKeys]; exact ods_ofList_nodup c)
    (Or.inl rfl) (by simp only [ODS.init]; rw [ods_fromKeys]; exact h)
  rw [this]; simp only [ODS.init]; rw [ods_fromKeys]

example : OSet.AllBenign (OSet.ofList [4, 7, 4])
    [.get 1, .add 5, .get (-1), .remove 4, .add 4, .iter, .diff [7], .get 0] := by
  simp [OSet.AllBenign, OSet.Benign, OSet.ofList, OSet.next]

/-- C05 (partial). Whatever the history, everything except indexing behaves as the ordered set: the
elements in iteration order are the distinct elements in the order of insertion. -/
theorem C05_iteration_partial (c : List ℕ) (ops : List Op) (op : Op) (hop : OSet.NoGet op) :
    (step (ops.foldl (fun s o => (step s o).1) (ODS.init c)) op).2 =
      OSet.out (OSet.after (OSet.ofList c) ops) op := by
  have key : ∀ (ops : List Op) (s : ODS.State), s.ods.Nodup →
      (ops.foldl (fun s o => (step s o).1) s).ods = OSet.after s.ods ops := by
    intro ops
    induction ops with
    | nil => intros; rfl
    | cons o ops ih =>
      intro s hn
      rw [List.foldl_cons, ih _ (by rw [ods_step_ods s hn o]; exact ods_next_nodup _ hn o),
        ods_step_ods s hn o]
      rfl
  have h1 := key ops (ODS.init c) (by simp only [ODS.init]; rw [ods_fromKeys]; exact ods_ofList_nodup c)
  have h2 : (ODS.init c).ods = OSet.ofList c := by simp only [ODS.init]; exact ods_fromKeys c
  rw [h2] at h1
  generalize ops.foldl (fun s o => (step s o).1) (ODS.init c) = s at *
  rw [← h1]
  cases op with
  | add e => rfl
  | remove e =>
    simp only [step, ODS.remove, OSet.out]
    by_cases he : e ∈ s.ods <;> simp [he]
  | diff c => rfl
  | get i => exact absurd hop (by simp [OSet.NoGet])
  | iter => rfl
  | len => rfl
  | mem e => rfl

/-- C05. The elements never repeat. -/
theorem C05_nodup (c : List ℕ) (ops : List Op) : (OSet.after (OSet.ofList c) ops).Nodup := by
  have : ∀ (ops : List Op) (l : List ℕ), l.Nodup → (OSet.after l ops).Nodup := by
    intro ops
    induction ops with
    | nil => intro l h; exact h
    | cons o ops ih => intro l h; exact ih _ (ods_next_nodup l h o)
  exact this ops _ (ods_ofList_nodup c)

example : ODS.run (ODS.init [3, 1, 3]) [.add 2, .add 1, .iter, .len] =
    [.unit, .unit, .list [3, 1, 2], .num 3] := by decide

end Verif
