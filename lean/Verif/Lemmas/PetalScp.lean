import Verif.Lemmas.PetalMulti

/-! # Lemmas on the set covering programme of the petals -/

namespace Verif
open Spec

/-- The entries whose variable is set. -/
def pick {α : Type} (l : List α) (X : List Bool) : List α := ((l.zip X).filter fun e => e.2).map (·.1)

@[simp] theorem pick_nil {α : Type} (X : List Bool) : pick ([] : List α) X = [] := by simp [pick]

@[simp] theorem pick_nil_right {α : Type} (l : List α) : pick l [] = [] := by simp [pick]

theorem pick_cons {α : Type} (a : α) (l : List α) (b : Bool) (X : List Bool) :
    pick (a :: l) (b :: X) = if b then a :: pick l X else pick l X := by
  cases b <;> simp [pick]

theorem pick_map {α β : Type} (f : α → β) : ∀ (l : List α) (X : List Bool), pick (l.map f) X = (pick l X).map f
  | [], X => by simp
  | a :: l, [] => by simp
  | a :: l, b :: X => by
    rw [List.map_cons, pick_cons, pick_cons, pick_map f l X]
    cases b <;> simp

theorem pick_sublist {α : Type} : ∀ (l : List α) (X : List Bool), (pick l X).Sublist l
  | [], X => by simp
  | a :: l, [] => by simp
  | a :: l, b :: X => by
    rw [pick_cons]
    cases b
    · exact (pick_sublist l X).cons _
    · exact (pick_sublist l X).cons_cons _

theorem pick_filter_length {α : Type} (q : α → Bool) : ∀ (l : List α) (X : List Bool),
    ((l.zip X).filter fun e => q e.1 && e.2).length = ((pick l X).filter q).length
  | [], X => by simp
  | a :: l, [] => by simp
  | a :: l, b :: X => by
    rw [pick_cons, List.zip_cons_cons, List.filter_cons]
    have ih := pick_filter_length q l X
    cases b
    · simpa using ih
    · by_cases h : q a = true <;> simp [h, ih]

theorem pick_sum : ∀ (l : List ℚ) (X : List Bool),
    ((l.zip X).map fun e => if e.2 then e.1 else 0).sum = (pick l X).sum
  | [], X => by simp
  | a :: l, [] => by simp
  | a :: l, b :: X => by
    rw [pick_cons, List.zip_cons_cons, List.map_cons, List.sum_cons, pick_sum l X]
    cases b <;> simp

theorem pick_length {α : Type} : ∀ (l : List α) (X : List Bool), X.length = l.length →
    X.count true = (pick l X).length
  | [], X, h => by
    have : X = [] := by simpa using h
    simp [this]
  | a :: l, [], h => by simp at h
  | a :: l, b :: X, h => by
    rw [pick_cons, List.count_cons, pick_length l X (by simpa using h)]
    cases b <;> simp

theorem pick_append {α : Type} : ∀ (l m : List α) (X Y : List Bool), X.length = l.length →
    pick (l ++ m) (X ++ Y) = pick l X ++ pick m Y
  | [], m, X, Y, h => by
    have : X = [] := by simpa using h
    simp [this]
  | a :: l, m, [], Y, h => by simp at h
  | a :: l, m, b :: X, Y, h => by
    rw [List.cons_append, List.cons_append, pick_cons, pick_cons, pick_append l m X Y (by simpa using h)]
    cases b <;> simp

theorem pick_false {α : Type} : ∀ (l : List α) (k : ℕ), pick l (List.replicate k false) = []
  | [], k => by simp
  | a :: l, 0 => by simp
  | a :: l, k + 1 => by
    rw [List.replicate_succ, pick_cons, pick_false l k]
    rfl

theorem pick_signs (fc : List ℕ) : ∀ (X : List Bool) (o : ℕ),
    ((X.zipIdx o).map fun e => if e.1 then (if e.2 ∈ fc then (1 : ℤ) else -1) else 0).sum =
      ((pick (List.range' o X.length) X).map fun j => if j ∈ fc then (1 : ℤ) else -1).sum
  | [], o => by simp
  | b :: X, o => by
    rw [List.zipIdx_cons, List.map_cons, List.sum_cons, pick_signs fc X (o + 1), List.length_cons,
      List.range'_succ, pick_cons]
    cases b <;> simp

/-! ## Petals by their indices -/

/-- The petal with an index: the petals of the sweeps are counted from 0 upwards, the relaxed ones from
-1 downwards. -/
def ptAt (all relaxed : List Petal) (i : ℤ) : Option Petal :=
  if 0 ≤ i then all[i.toNat]? else relaxed[(-i - 1).toNat]?

/-- The petals with the indices of a list. -/
def petalsOf (all relaxed : List Petal) (is : List ℤ) : List Petal := is.filterMap (ptAt all relaxed)

/-- Each customer is served by one of the petals. -/
def CoverBy (N : ℕ) (ps : List Petal) : Prop :=
  ∀ n, 1 ≤ n → n < N → (ps.filter fun p => decide (n ∈ p.nodes)).length = 1

theorem CoverBy.perm {N : ℕ} {ps qs : List Petal} (h : CoverBy N ps) (hp : ps.Perm qs) : CoverBy N qs :=
  fun n h1 h2 => by rw [← h n h1 h2]; exact ((hp.filter _).length_eq).symm

theorem ptAt_append {all relaxed more : List Petal} {i : ℤ} (h : (ptAt all relaxed i).isSome) :
    ptAt all (relaxed ++ more) i = ptAt all relaxed i := by
  unfold ptAt at h ⊢
  by_cases hi : 0 ≤ i
  · rw [if_pos hi, if_pos hi]
  · rw [if_neg hi] at h
    rw [if_neg hi, if_neg hi]
    rw [List.getElem?_append_left]
    by_contra hl
    rw [List.getElem?_eq_none (by omega)] at h
    simp at h

theorem petalsOf_append {all relaxed more : List Petal} {is : List ℤ} (h : ∀ i ∈ is, (ptAt all relaxed i).isSome) :
    petalsOf all (relaxed ++ more) is = petalsOf all relaxed is := by
  unfold petalsOf
  apply List.filterMap_congr
  intro i hi
  exact ptAt_append (h i hi)

theorem entries_valid {all active relaxed : List Petal} (hpre : active <+: all) {e : Petal × ℤ}
    (he : e ∈ ptEntries active relaxed) : ptAt all relaxed e.2 = some e.1 ∧ e.2 < active.length := by
  unfold ptEntries at he
  rcases List.mem_append.1 he with h | h
  · obtain ⟨⟨p, j⟩, hj, rfl⟩ := List.mem_map.1 h
    have hj' := List.mem_zipIdx hj
    simp only [Nat.zero_add, Nat.sub_zero] at hj'
    obtain ⟨rest, rfl⟩ := hpre
    refine ⟨?_, by simp only; omega⟩
    unfold ptAt
    rw [if_pos (by simp)]
    simp only [Int.toNat_natCast]
    rw [List.getElem?_append_left (by omega), List.getElem?_eq_getElem (by omega)]
    exact congrArg some hj'.2.2.symm
  · obtain ⟨⟨p, j⟩, hj, rfl⟩ := List.mem_map.1 h
    have hj' := List.mem_zipIdx hj
    simp only [Nat.zero_add, Nat.sub_zero] at hj'
    refine ⟨?_, by simp only; omega⟩
    unfold ptAt
    have e1 : ¬ (0 : ℤ) ≤ -(j : ℤ) - 1 := by omega
    rw [if_neg e1]
    have e2 : (-(-(j : ℤ) - 1) - 1).toNat = j := by omega
    rw [e2, List.getElem?_eq_getElem (by omega)]
    exact congrArg some hj'.2.2.symm

theorem entries_nodup (active relaxed : List Petal) : ((ptEntries active relaxed).map (·.2)).Nodup := by
  unfold ptEntries
  rw [List.map_append, List.map_map, List.map_map]
  have h1 : (active.zipIdx.map ((fun e : Petal × ℤ => e.2) ∘ fun e => (e.1, (e.2 : ℤ)))) =
      (List.range active.length).map (fun j : ℕ => (j : ℤ)) := by
    rw [List.range_eq_range', ← List.zipIdx_map_snd 0 active, List.map_map]
    rfl
  have h2 : (relaxed.zipIdx.map ((fun e : Petal × ℤ => e.2) ∘ fun e => (e.1, -(e.2 : ℤ) - 1))) =
      (List.range relaxed.length).map (fun j : ℕ => -(j : ℤ) - 1) := by
    rw [List.range_eq_range', ← List.zipIdx_map_snd 0 relaxed, List.map_map]
    rfl
  rw [h1, h2, List.nodup_append]
  refine ⟨List.nodup_range.map (fun a b h => by simpa using h), List.nodup_range.map (fun a b h => by
    have h' : -(a : ℤ) - 1 = -(b : ℤ) - 1 := h
    omega), ?_⟩
  intro x hx y hy e
  obtain ⟨j, _, rfl⟩ := List.mem_map.1 hx
  obtain ⟨k, _, rfl⟩ := List.mem_map.1 hy
  omega

/-- The petals that the values of the variables choose, with their indices. -/
def chosenOf (active relaxed : List Petal) (X : List Bool) : List (Petal × ℤ) := pick (ptEntries active relaxed) X

theorem ptChosen_eq (active relaxed : List Petal) (X : List Bool) :
    ptChosen active relaxed X = (chosenOf active relaxed X).map fun e => (e.1.route, e.2) := by
  unfold ptChosen chosenOf pick
  rw [List.map_map]
  rfl

theorem entries_fst (active relaxed : List Petal) : (ptEntries active relaxed).map (·.1) = active ++ relaxed := by
  unfold ptEntries
  rw [List.map_append, List.map_map, List.map_map]
  congr 1
  · conv_rhs => rw [← List.zipIdx_map_fst 0 active]
    rfl
  · conv_rhs => rw [← List.zipIdx_map_fst 0 relaxed]
    rfl

/-- The chosen indices are different indices of petals, and the petals are those. -/
theorem chosen_spec {all active relaxed : List Petal} (hpre : active <+: all) (X : List Bool) :
    ((chosenOf active relaxed X).map (·.2)).Nodup ∧
    (∀ i ∈ (chosenOf active relaxed X).map (·.2), (ptAt all relaxed i).isSome ∧ i < active.length) ∧
    petalsOf all relaxed ((chosenOf active relaxed X).map (·.2)) = (chosenOf active relaxed X).map (·.1) := by
  have hsub := pick_sublist (ptEntries active relaxed) X
  refine ⟨(entries_nodup active relaxed).sublist (hsub.map _), ?_, ?_⟩
  · intro i hi
    obtain ⟨e, he, rfl⟩ := List.mem_map.1 hi
    have := entries_valid hpre (hsub.subset he)
    exact ⟨by rw [this.1]; rfl, this.2⟩
  · unfold petalsOf
    rw [List.filterMap_map]
    have : ∀ l : List (Petal × ℤ), (∀ e ∈ l, ptAt all relaxed e.2 = some e.1) →
        l.filterMap (ptAt all relaxed ∘ fun e => e.2) = l.map (·.1) := by
      intro l
      induction l with
      | nil => intro _; rfl
      | cons e l ih =>
        intro h
        rw [List.filterMap_cons, List.map_cons]
        simp only [Function.comp, h e (List.mem_cons_self ..)]
        congr 1
        exact ih fun e he => h e (List.mem_cons_of_mem _ he)
    exact this _ fun e he => (entries_valid hpre (hsub.subset he)).1

/-- The number of the variable of an index. -/
def varNo (nactive : ℕ) (i : ℤ) : ℕ := if 0 ≤ i then i.toNat else (-i - 1).toNat + nactive

theorem varNo_inj {nactive : ℕ} {i j : ℤ} (hi : i < nactive) (hj : j < nactive)
    (h : varNo nactive i = varNo nactive j) : i = j := by
  unfold varNo at h
  by_cases h1 : 0 ≤ i <;> by_cases h2 : 0 ≤ j <;> simp only [h1, h2, if_true, if_false] at h <;> omega

theorem entries_varNo (active relaxed : List Petal) :
    (ptEntries active relaxed).map (fun e => varNo active.length e.2) =
      List.range' 0 (active ++ relaxed).length := by
  unfold ptEntries
  rw [List.map_append, List.map_map, List.map_map, List.length_append]
  have h1 : (active.zipIdx.map ((fun e : Petal × ℤ => varNo active.length e.2) ∘ fun e => (e.1, (e.2 : ℤ)))) =
      List.range' 0 active.length := by
    rw [← List.zipIdx_map_snd 0 active]
    apply List.map_congr_left
    intro e _
    simp [varNo]
  have h2 : (relaxed.zipIdx.map ((fun e : Petal × ℤ => varNo active.length e.2) ∘ fun e => (e.1, -(e.2 : ℤ) - 1))) =
      List.range' active.length relaxed.length := by
    have : List.range' active.length relaxed.length = (List.range' 0 relaxed.length).map (active.length + ·) := by
      rw [List.map_add_range', Nat.add_zero]
    rw [this, ← List.zipIdx_map_snd 0 relaxed, List.map_map]
    apply List.map_congr_left
    intro e _
    have e1 : ¬ (0 : ℤ) ≤ -(e.2 : ℤ) - 1 := by omega
    simp only [Function.comp, varNo]
    rw [if_neg e1]
    omega
  rw [h1, h2]
  have := List.range'_append (s := 0) (m := active.length) (n := relaxed.length) (step := 1)
  simpa using this

/-- Over lists without repetitions, the signed count is as large as the list only for the same list. -/
theorem signed_count {A F : List ℤ} (hA : A.Nodup) :
    ((A.map fun i => if i ∈ F then (1 : ℤ) else -1).sum ≤ (F.length : ℤ) - 1) ↔ ¬ A.Perm F := by
  have hsum : ∀ l : List ℤ, (l.map fun i => if i ∈ F then (1 : ℤ) else -1).sum =
      2 * ((l.filter fun i => decide (i ∈ F)).length : ℤ) - l.length := by
    intro l
    induction l with
    | nil => simp
    | cons a l ih =>
      rw [List.map_cons, List.sum_cons, ih, List.filter_cons]
      by_cases h : a ∈ F
      · simp [h]
        ring
      · simp [h]
        ring
  rw [hsum]
  have hfA : (A.filter fun i => decide (i ∈ F)).length ≤ A.length := List.length_filter_le _ _
  have hsp : (A.filter fun i => decide (i ∈ F)).Subperm F :=
    List.subperm_of_subset (hA.filter _) (by
      intro i hi
      simpa using (List.mem_filter.1 hi).2)
  have hfF := hsp.length_le
  constructor
  · intro h hp
    have hl := hp.length_eq
    have : (A.filter fun i => decide (i ∈ F)) = A := by
      rw [List.filter_eq_self]
      intro i hi
      simpa using (hp.mem_iff).1 hi
    rw [this] at h
    omega
  · intro h
    by_contra hc
    apply h
    have e1 : (A.filter fun i => decide (i ∈ F)).length = A.length := by omega
    have e2 : (A.filter fun i => decide (i ∈ F)) = A :=
      (List.filter_sublist).eq_of_length e1
    rw [← e2]
    exact hsp.perm_of_length_le (by omega)

/-- The constraints in terms of the chosen petals. -/
theorem sat_iff {N : ℕ} {active relaxed : List Petal} {forb : List (List ℤ)} {K : Option ℕ} {X : List Bool} :
    (ptModel N active relaxed forb K).Sat X ↔
      X.length = (active ++ relaxed).length ∧ CoverBy N ((chosenOf active relaxed X).map (·.1)) ∧
      (∀ fc ∈ forb, (∀ i ∈ fc, i < active.length) → ¬ ((chosenOf active relaxed X).map (·.2)).Perm fc) ∧
      (0 < K.getD 0 → (chosenOf active relaxed X).length ≤ K.getD 0) := by
  have hall : active <+: active := List.prefix_rfl
  have hlenE : (ptEntries active relaxed).length = (active ++ relaxed).length := by
    rw [← entries_fst active relaxed, List.length_map]
  have hc1 : ∀ i, (((ptModel N active relaxed forb K).sets.zip X).filter fun e => decide (i ∈ e.1) && e.2).length =
      (((chosenOf active relaxed X).map (·.1)).filter fun p => decide (i ∈ p.nodes)).length := by
    intro i
    rw [pick_filter_length (fun s => decide (i ∈ s))]
    show ((pick ((active ++ relaxed).map (·.nodes)) X).filter _).length = _
    rw [pick_map, ← entries_fst active relaxed, pick_map, List.filter_map, List.length_map]
    rfl
  have hc2 : X.length = (active ++ relaxed).length → ∀ fc : List ℤ, (∀ i ∈ fc, i < active.length) →
      (((X.zipIdx.map fun e => if e.1 then (if e.2 ∈ fc.map (varNo active.length) then (1 : ℤ) else -1) else 0).sum
        ≤ ((fc.map (varNo active.length)).length : ℤ) - 1) ↔ ¬ ((chosenOf active relaxed X).map (·.2)).Perm fc) := by
    intro hX fc hlt
    rw [pick_signs, hX, ← entries_varNo active relaxed, pick_map, List.map_map, List.length_map,
      ← signed_count (chosen_spec hall X).1, List.map_map]
    have : (pick (ptEntries active relaxed) X).map ((fun j => if j ∈ fc.map (varNo active.length) then (1 : ℤ) else -1) ∘
        fun e => varNo active.length e.2) = (chosenOf active relaxed X).map ((fun i => if i ∈ fc then (1 : ℤ) else -1) ∘ fun e => e.2) := by
      apply List.map_congr_left
      intro e he
      have hv : e.2 < active.length :=
        ((chosen_spec hall X).2.1 e.2 (List.mem_map.2 ⟨e, he, rfl⟩)).2
      simp only [Function.comp]
      refine if_congr ?_ rfl rfl
      constructor
      · intro h
        obtain ⟨i, hi, hie⟩ := List.mem_map.1 h
        exact varNo_inj (hlt i hi) hv hie ▸ hi
      · intro h
        exact List.mem_map.2 ⟨e.2, h, rfl⟩
    rw [this]
  have hmem : ∀ fc' , fc' ∈ (ptModel N active relaxed forb K).forbidden ↔
      ∃ fc ∈ forb, (∀ i ∈ fc, i < active.length) ∧ fc' = fc.map (varNo active.length) := by
    intro fc'
    show fc' ∈ ptForbidden active.length forb ↔ _
    unfold ptForbidden
    rw [List.mem_map]
    constructor
    · rintro ⟨fc, hfc, rfl⟩
      rw [List.mem_filter, List.all_eq_true] at hfc
      exact ⟨fc, hfc.1, fun i hi => by simpa using hfc.2 i hi, rfl⟩
    · rintro ⟨fc, hfc, hlt, rfl⟩
      refine ⟨fc, ?_, rfl⟩
      rw [List.mem_filter, List.all_eq_true]
      exact ⟨hfc, fun i hi => by simpa using hlt i hi⟩
  have hlen : X.length = (active ++ relaxed).length → X.count true = (chosenOf active relaxed X).length := by
    intro h
    exact pick_length _ _ (h.trans hlenE.symm)
  constructor
  · rintro ⟨h1, h2, h3, h4⟩
    have h1' : X.length = (active ++ relaxed).length := by
      rw [h1]
      exact List.length_map _
    refine ⟨h1', fun n a b => by rw [← hc1]; exact h2 n a b, ?_, ?_⟩
    · intro fc hfc hlt
      rw [← hc2 h1' fc hlt]
      exact h3 _ ((hmem _).2 ⟨fc, hfc, hlt, rfl⟩)
    · intro hK
      rw [← hlen h1']
      exact h4 hK
  · rintro ⟨h1, h2, h3, h4⟩
    refine ⟨h1.trans (List.length_map _).symm, fun n a b => by rw [hc1]; exact h2 n a b, ?_, ?_⟩
    · intro fc' hfc'
      obtain ⟨fc, hfc, hlt, rfl⟩ := (hmem fc').1 hfc'
      rw [hc2 h1 fc hlt]
      exact h3 fc hfc hlt
    · intro hK
      rw [hlen h1]
      exact h4 hK

theorem objective_eq {N : ℕ} {active relaxed : List Petal} {forb : List (List ℤ)} {K : Option ℕ} {X : List Bool} :
    (ptModel N active relaxed forb K).objective X = (((chosenOf active relaxed X).map (·.1)).map (·.cost)).sum := by
  unfold ScpModel.objective
  rw [pick_sum]
  show (pick ((active ++ relaxed).map (·.cost)) X).sum = _
  rw [pick_map, ← entries_fst active relaxed, pick_map]
  rfl

end Verif
