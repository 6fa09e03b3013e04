import Mathlib.Algebra.BigOperators.Group.Finset.Basic
import Mathlib.Algebra.BigOperators.Group.Finset.Sigma
import Mathlib.Data.List.Rotate
import Verif.Lemmas.TspGurobi

/-! # Edges of tours, for C71 -/

namespace Verif
open Spec

variable {n : ℕ} {X : EdgeVars}

/-! ## The number of the edges between the nodes of a list -/

theorem two_cutSum : ∀ {S : List ℕ}, (∀ a ∈ S, ∀ b ∈ S, X a b = X b a) → (∀ a ∈ S, X a a = false) →
    2 * cutSum X S = (S.map fun a => (S.filter (X a)).length).sum
  | [], _, _ => rfl
  | a :: l, hs, hl => by
    have ih := two_cutSum (S := l) (fun x hx y hy => hs x (List.mem_cons_of_mem _ hx) y (List.mem_cons_of_mem _ hy))
      (fun x hx => hl x (List.mem_cons_of_mem _ hx))
    have haa : X a a = false := hl a (by simp)
    have key : ∀ m : List ℕ, (∀ b ∈ m, X a b = X b a) →
        (m.map fun b => ((a :: l).filter (X b)).length).sum = (m.filter (X a)).length + (m.map fun b => (l.filter (X b)).length).sum := by
      intro m hm
      induction m with
      | nil => rfl
      | cons b m ihm =>
        have h1 := ihm fun c hc => hm c (List.mem_cons_of_mem _ hc)
        have h2 := hm b (by simp)
        rw [List.map_cons, List.sum_cons, List.map_cons, List.sum_cons, h1]
        by_cases hab : X a b = true
        · have hba : X b a = true := by rw [← h2]; exact hab
          rw [List.filter_cons_of_pos hba, List.filter_cons_of_pos hab, List.length_cons, List.length_cons]
          omega
        · have hba : ¬ X b a = true := by rw [← h2]; exact hab
          rw [List.filter_cons_of_neg hba, List.filter_cons_of_neg hab]
          omega
    rw [cutSum, List.map_cons, List.sum_cons, List.filter_cons_of_neg (by simp [haa]),
      key l fun b hb => hs a (by simp) b (List.mem_cons_of_mem _ hb), ← ih]
    omega

theorem filter_le_two (h : TwoEach n X) {S : List ℕ} (hnd : S.Nodup) (hr : ∀ x ∈ S, x < n) {a : ℕ} (ha : a < n) :
    (S.filter (X a)).length ≤ 2 ∧ ((S.filter (X a)).length = 2 ↔ ∀ y ∈ edgeNbrs n X a, y ∈ S) := by
  have hsub : (S.filter (X a)).Subperm (edgeNbrs n X a) := List.subperm_of_subset (hnd.filter _) fun x hx => by
    rw [List.mem_filter] at hx
    exact mem_edgeNbrs.2 ⟨hr x hx.1, hx.2⟩
  refine ⟨h.two a ha ▸ hsub.length_le, fun e y hy => ?_, fun e => ?_⟩
  · have := (hsub.perm_of_length_le (by rw [e, h.two a ha])).mem_iff.2 hy
    exact (List.mem_filter.1 this).1
  · refine le_antisymm (h.two a ha ▸ hsub.length_le) ?_
    rw [← h.two a ha]
    refine (List.subperm_of_subset (edgeNbrs_nodup a) fun y hy => ?_ : (edgeNbrs n X a).Subperm (S.filter (X a))).length_le
    exact List.mem_filter.2 ⟨e y hy, (mem_edgeNbrs.1 hy).2⟩

/-- The constraint of the callback for the nodes `S` is broken exactly if no edge leads out of them. -/
theorem cutSum_closed (h : TwoEach n X) {S : List ℕ} (hnd : S.Nodup) (hr : ∀ x ∈ S, x < n) :
    cutSum X S ≤ S.length ∧ (cutSum X S = S.length ↔ ∀ x ∈ S, ∀ y ∈ edgeNbrs n X x, y ∈ S) := by
  have h2 := two_cutSum (X := X) (S := S) (fun a ha b hb => h.symm a (hr a ha) b (hr b hb)) fun a ha => h.loops a (hr a ha)
  have key : ∀ m : List ℕ, (∀ x ∈ m, x < n) → (m.map fun a => (S.filter (X a)).length).sum ≤ 2 * m.length ∧
      ((m.map fun a => (S.filter (X a)).length).sum = 2 * m.length ↔ ∀ x ∈ m, ∀ y ∈ edgeNbrs n X x, y ∈ S) := by
    intro m hm
    induction m with
    | nil => simp
    | cons a m ih =>
      obtain ⟨i1, i2⟩ := ih fun x hx => hm x (List.mem_cons_of_mem _ hx)
      obtain ⟨j1, j2⟩ := filter_le_two h hnd hr (hm a (by simp))
      rw [List.map_cons, List.sum_cons, List.length_cons]
      refine ⟨by omega, ?_⟩
      rw [List.forall_mem_cons, ← i2, ← j2]
      omega
  obtain ⟨k1, k2⟩ := key S hr
  refine ⟨by omega, ?_⟩
  rw [← k2, ← h2]
  omega

/-! ## The edges of a tour -/

/-- The steps of a closed tour. -/
def steps (t : List ℕ) : List (ℕ × ℕ) := t.zip (t.rotate 1)

/-- The edges of a closed tour. -/
def tourVars (t : List ℕ) : EdgeVars := fun i j => decide ((i, j) ∈ steps t ∨ (j, i) ∈ steps t)

theorem mem_steps {t : List ℕ} {i j : ℕ} :
    (i, j) ∈ steps t ↔ ∃ k, ∃ h : k < t.length, t[k] = i ∧ t[(k + 1) % t.length]'(Nat.mod_lt _ (by omega)) = j := by
  unfold steps
  rw [List.mem_iff_getElem]
  constructor
  · rintro ⟨k, hk, e⟩
    have hk' : k < t.length := by simpa using hk
    rw [List.getElem_zip, List.getElem_rotate] at e
    injection e with e1 e2
    exact ⟨k, hk', e1, e2⟩
  · rintro ⟨k, hk, e1, e2⟩
    refine ⟨k, by simpa using hk, ?_⟩
    rw [List.getElem_zip, List.getElem_rotate, e1, e2]

theorem steps_unique {t : List ℕ} (hnd : t.Nodup) {i j i' j' : ℕ} (h : (i, j) ∈ steps t) (h' : (i', j') ∈ steps t) :
    i = i' ↔ j = j' := by
  rw [mem_steps] at h h'
  obtain ⟨k, hk, rfl, rfl⟩ := h
  obtain ⟨k', hk', rfl, rfl⟩ := h'
  rw [hnd.getElem_inj_iff, hnd.getElem_inj_iff]
  constructor
  · rintro rfl; rfl
  · intro e
    by_cases h1 : k + 1 = t.length <;> by_cases h2 : k' + 1 = t.length
    · omega
    · rw [h1, Nat.mod_self, Nat.mod_eq_of_lt (by omega : k' + 1 < t.length)] at e; omega
    · rw [h2, Nat.mod_self, Nat.mod_eq_of_lt (by omega : k + 1 < t.length)] at e; omega
    · rw [Nat.mod_eq_of_lt (by omega : k + 1 < t.length), Nat.mod_eq_of_lt (by omega : k' + 1 < t.length)] at e; omega

theorem steps_oneway {t : List ℕ} (hnd : t.Nodup) (h3 : 3 ≤ t.length) {i j : ℕ} (h : (i, j) ∈ steps t) : (j, i) ∉ steps t := by
  intro h'
  rw [mem_steps] at h h'
  obtain ⟨k, hk, rfl, rfl⟩ := h
  obtain ⟨m, hm, e1, e2⟩ := h'
  rw [hnd.getElem_inj_iff] at e1 e2
  have hmod : ∀ x, x < t.length → (x + 1) % t.length = if x + 1 = t.length then 0 else x + 1 := by
    intro x hx
    split_ifs with hx'
    · rw [hx', Nat.mod_self]
    · exact Nat.mod_eq_of_lt (by omega)
  rw [hmod k hk] at e1
  rw [hmod m hm] at e2
  split_ifs at e1 e2 <;> omega

theorem steps_ne {t : List ℕ} (hnd : t.Nodup) (h3 : 3 ≤ t.length) {i j : ℕ} (h : (i, j) ∈ steps t) : i ≠ j := by
  rintro rfl
  exact steps_oneway hnd h3 h h

theorem steps_mem {t : List ℕ} {i j : ℕ} (h : (i, j) ∈ steps t) : i ∈ t ∧ j ∈ t := by
  rw [mem_steps] at h
  obtain ⟨k, hk, rfl, rfl⟩ := h
  exact ⟨List.getElem_mem _, List.getElem_mem _⟩

theorem steps_out {t : List ℕ} {i : ℕ} (h : i ∈ t) : ∃ j, (i, j) ∈ steps t := by
  obtain ⟨k, hk, rfl⟩ := List.mem_iff_getElem.1 h
  exact ⟨_, mem_steps.2 ⟨k, hk, rfl, rfl⟩⟩

theorem steps_in {t : List ℕ} {j : ℕ} (h : j ∈ t) : ∃ i, (i, j) ∈ steps t := by
  obtain ⟨k, hk, rfl⟩ := List.mem_iff_getElem.1 h
  by_cases h0 : k = 0
  · subst h0
    refine ⟨t[t.length - 1], mem_steps.2 ⟨t.length - 1, by omega, rfl, ?_⟩⟩
    congr 1
    rw [Nat.sub_add_cancel (by omega), Nat.mod_self]
  · refine ⟨t[k - 1], mem_steps.2 ⟨k - 1, by omega, rfl, ?_⟩⟩
    congr 1
    rw [Nat.sub_add_cancel (by omega), Nat.mod_eq_of_lt hk]

theorem steps_length (t : List ℕ) : (steps t).length = t.length := by simp [steps]

theorem steps_nodup {t : List ℕ} (hnd : t.Nodup) : (steps t).Nodup := by
  have : (steps t).map Prod.fst = t := by
    unfold steps
    rw [List.map_fst_zip]
    simp
  rw [← this] at hnd
  exact hnd.of_map _

/-- A set of nodes of a tour that no edge leaves has all of them. -/
theorem tour_closed {t S : List ℕ} {x : ℕ} (hx : x ∈ t) (hxS : x ∈ S) (hc : ∀ e ∈ steps t, e.1 ∈ S → e.2 ∈ S) : ∀ y ∈ t, y ∈ S := by
  obtain ⟨k, hk, rfl⟩ := List.mem_iff_getElem.1 hx
  have hpos : 0 < t.length := by omega
  have key : ∀ m, t[(k + m) % t.length]'(Nat.mod_lt _ hpos) ∈ S := by
    intro m
    induction m with
    | zero =>
      have : (k + 0) % t.length = k := Nat.mod_eq_of_lt hk
      simp only [this]
      exact hxS
    | succ m ih =>
      have := hc _ (mem_steps.2 ⟨(k + m) % t.length, Nat.mod_lt _ hpos, rfl, rfl⟩) ih
      have e : ((k + m) % t.length + 1) % t.length = (k + (m + 1)) % t.length := by
        rw [Nat.mod_add_mod]; rfl
      simp only [e] at this
      exact this
  intro y hy
  obtain ⟨i, hi, rfl⟩ := List.mem_iff_getElem.1 hy
  have := key (i + (t.length - k))
  have e : (k + (i + (t.length - k))) % t.length = i := by
    rw [show k + (i + (t.length - k)) = i + t.length by omega, Nat.add_mod_right, Nat.mod_eq_of_lt hi]
  simp only [e] at this
  exact this

theorem tourVars_symm (t : List ℕ) (i j : ℕ) : tourVars t i j = tourVars t j i := by
  unfold tourVars
  simp only [or_comm]

theorem tourVars_two {t : List ℕ} (h3 : 3 ≤ n) (ht : t.Perm (List.range n)) : TwoEach n (tourVars t) := by
  have hnd : t.Nodup := ht.nodup_iff.2 List.nodup_range
  have hl : t.length = n := by rw [ht.length_eq, List.length_range]
  have hm : ∀ x, x ∈ t ↔ x < n := fun x => by rw [ht.mem_iff, List.mem_range]
  refine ⟨fun i _ j _ => tourVars_symm t i j, fun i _ => ?_, fun i hi => ?_⟩
  · unfold tourVars
    simp only [or_self, decide_eq_false_iff_not]
    exact fun h => steps_ne hnd (by omega) h rfl
  · obtain ⟨a, ha⟩ := steps_out ((hm i).2 hi)
    obtain ⟨b, hb⟩ := steps_in ((hm i).2 hi)
    have hab : a ≠ b := by
      rintro rfl
      exact steps_oneway hnd (by omega) ha hb
    have : (edgeNbrs n (tourVars t) i).Perm [a, b] := by
      rw [List.perm_ext_iff_of_nodup (edgeNbrs_nodup i) (by simp [hab])]
      intro y
      rw [mem_edgeNbrs]
      simp only [tourVars, decide_eq_true_eq, List.mem_cons, List.not_mem_nil, or_false]
      constructor
      · rintro ⟨-, h | h⟩
        · exact .inl ((steps_unique hnd h ha).1 rfl)
        · exact .inr ((steps_unique hnd h hb).2 rfl)
      · rintro (rfl | rfl)
        · exact ⟨(hm _).1 (steps_mem ha).2, .inl ha⟩
        · exact ⟨(hm _).1 (steps_mem hb).1, .inr hb⟩
    rw [this.length_eq]; rfl

/-- A tour keeps the constraint for every proper set of nodes. -/
theorem tour_keeps {t : List ℕ} (h3 : 3 ≤ n) (ht : t.Perm (List.range n)) {S : List ℕ} (hnd : S.Nodup) (hr : ∀ x ∈ S, x < n)
    (hS : S ≠ []) (hlt : S.length < n) : cutSum (tourVars t) S ≤ S.length - 1 := by
  have hm : ∀ x, x ∈ t ↔ x < n := fun x => by rw [ht.mem_iff, List.mem_range]
  obtain ⟨h1, h2⟩ := cutSum_closed (tourVars_two h3 ht) hnd hr
  by_cases he : cutSum (tourVars t) S = S.length
  · exfalso
    rw [h2] at he
    obtain ⟨x, hx⟩ := List.exists_mem_of_ne_nil S hS
    have hall := tour_closed ((hm x).2 (hr x hx)) hx fun e he1 he2 => by
      refine he e.1 he2 e.2 (mem_edgeNbrs.2 ⟨(hm _).1 (steps_mem he1).2, ?_⟩)
      simp only [tourVars, decide_eq_true_eq]
      exact .inl he1
    have := (List.subperm_of_subset List.nodup_range (fun y hy => hall y ((hm y).2 (List.mem_range.1 hy))) :
      (List.range n).Subperm S).length_le
    simp at this
    omega
  · omega

/-! ## The objective -/

theorem list_range_sum (f : ℕ → ℚ) (m : ℕ) : ((List.range m).map f).sum = ∑ i ∈ Finset.range m, f i := by
  induction m with
  | zero => rfl
  | succ m ih => rw [List.range_succ, List.map_append, List.sum_append, ih, Finset.sum_range_succ]; simp

theorem half_sum (f : ℕ → ℕ → ℚ) (n : ℕ) (hs : ∀ i < n, ∀ j < n, f i j = f j i) (hd : ∀ i < n, f i i = 0) :
    ∑ i ∈ Finset.range n, ∑ j ∈ Finset.range n, f i j = 2 * ∑ i ∈ Finset.range n, ∑ j ∈ Finset.range (i + 1), f i j := by
  induction n with
  | zero => simp
  | succ n ih =>
    have ih := ih (fun i hi j hj => hs i (by omega) j (by omega)) (fun i hi => hd i (by omega))
    rw [Finset.sum_range_succ, Finset.sum_congr rfl (fun i _ => Finset.sum_range_succ (f i) n), Finset.sum_add_distrib, ih,
      Finset.sum_range_succ (fun i => ∑ j ∈ Finset.range (i + 1), f i j) n, Finset.sum_range_succ (f n) n, hd n (by omega)]
    have : ∑ i ∈ Finset.range n, f i n = ∑ i ∈ Finset.range n, f n i :=
      Finset.sum_congr rfl fun i hi => hs i (by have := Finset.mem_range.1 hi; omega) n (by omega)
    rw [this]
    ring

/-- The chosen edges, in both directions. -/
def edgeSet (n : ℕ) (X : EdgeVars) : Finset (ℕ × ℕ) :=
  (Finset.range n ×ˢ Finset.range n).filter fun e => X e.1 e.2 = true

theorem edgeSet_card (h : TwoEach n X) : (edgeSet n X).card = 2 * n := by
  have h1 : (edgeSet n X).card = ∑ i ∈ Finset.range n, ∑ j ∈ Finset.range n, if X i j = true then 1 else 0 := by
    rw [edgeSet, Finset.card_filter, Finset.sum_product]
  rw [h1, Finset.sum_congr rfl (g := fun _ => 2) ?_]
  · simp [mul_comm]
  · intro i hi
    rw [← Finset.card_filter, ← h.two i (Finset.mem_range.1 hi), edgeNbrs]
    rw [← List.toFinset_card_of_nodup (List.nodup_range.filter _)]
    congr 1
    ext y
    simp

theorem two_edgeObj (h : TwoEach n X) {w : ℕ → ℕ → ℚ} (hw : ∀ i j, w i j = w j i) :
    2 * edgeObj n w X = ∑ e ∈ edgeSet n X, w e.1 e.2 := by
  rw [edgeSet, Finset.sum_filter, Finset.sum_product, edgeObj, list_range_sum]
  rw [Finset.sum_congr rfl fun i _ => list_range_sum (fun j => if X i j then w i j else 0) (i + 1)]
  rw [← half_sum (fun i j => if X i j = true then w i j else 0)]
  · intro i hi j hj
    rw [h.symm i hi j hj, hw i j]
  · intro i hi
    rw [h.loops i hi]; simp

/-- Edges that have all the steps of a tour have no other. -/
theorem edgeSet_tour (h : TwoEach n X) {t : List ℕ} (h3 : 3 ≤ n) (ht : t.Perm (List.range n)) (hX : ∀ e ∈ steps t, X e.1 e.2 = true) :
    edgeSet n X = (steps t).toFinset ∪ (steps t).toFinset.image Prod.swap := by
  have hnd : t.Nodup := ht.nodup_iff.2 List.nodup_range
  have hl : t.length = n := by rw [ht.length_eq, List.length_range]
  have hm : ∀ x, x ∈ t ↔ x < n := fun x => by rw [ht.mem_iff, List.mem_range]
  symm
  apply Finset.eq_of_subset_of_card_le
  · intro e he
    rw [Finset.mem_union, Finset.mem_image] at he
    rw [edgeSet, Finset.mem_filter, Finset.mem_product, Finset.mem_range, Finset.mem_range]
    rcases he with he | ⟨f, hf, rfl⟩
    · rw [List.mem_toFinset] at he
      have := steps_mem (i := e.1) (j := e.2) he
      exact ⟨⟨(hm _).1 this.1, (hm _).1 this.2⟩, hX e he⟩
    · rw [List.mem_toFinset] at hf
      have := steps_mem (i := f.1) (j := f.2) hf
      refine ⟨⟨(hm _).1 this.2, (hm _).1 this.1⟩, ?_⟩
      show X f.2 f.1 = true
      rw [h.symm _ ((hm _).1 this.2) _ ((hm _).1 this.1)]
      exact hX f hf
  · rw [edgeSet_card h, Finset.card_union_of_disjoint, Finset.card_image_of_injective _ Prod.swap_injective,
      List.toFinset_card_of_nodup (steps_nodup hnd), steps_length, hl]
    · omega
    · rw [Finset.disjoint_left]
      intro e he he'
      rw [Finset.mem_image] at he'
      obtain ⟨f, hf, rfl⟩ := he'
      rw [List.mem_toFinset] at he hf
      exact steps_oneway hnd (by omega) hf he

theorem cost_snoc (D : ℕ → ℕ → ℚ) : ∀ (a : ℕ) (l : List ℕ) (b : ℕ),
    cost D (a :: l ++ [b]) = (((a :: l).zip (l ++ [b])).map fun e => D e.1 e.2).sum
  | a, [], b => by simp [cost]
  | a, c :: l, b => by
    have ih := cost_snoc D c l b
    simp only [List.cons_append, cost, List.zip_cons_cons, List.map_cons, List.sum_cons] at ih ⊢
    rw [ih]

theorem cost_steps (D : ℕ → ℕ → ℚ) (a : ℕ) (l : List ℕ) :
    cost D (a :: l ++ [a]) = ((steps (a :: l)).map fun e => D e.1 e.2).sum := by
  rw [cost_snoc, steps, List.rotate_cons_succ, List.rotate_zero]

/-- The objective is the length of the tour. -/
theorem edgeObj_tour (h : TwoEach n X) {a : ℕ} {l : List ℕ} (h3 : 3 ≤ n) (ht : (a :: l).Perm (List.range n))
    (hX : ∀ e ∈ steps (a :: l), X e.1 e.2 = true) {w : ℕ → ℕ → ℚ} (hw : ∀ i j, w i j = w j i) :
    edgeObj n w X = cost w (a :: l ++ [a]) := by
  have hnd : (a :: l).Nodup := ht.nodup_iff.2 List.nodup_range
  have hl : (a :: l).length = n := by rw [ht.length_eq, List.length_range]
  have h2 := two_edgeObj h hw
  rw [edgeSet_tour h h3 ht hX, Finset.sum_union, Finset.sum_image (fun x _ y _ e => Prod.swap_injective e),
    List.sum_toFinset _ (steps_nodup hnd), ← cost_steps] at h2
  · have : ∑ x ∈ (steps (a :: l)).toFinset, w x.swap.1 x.swap.2 = cost w (a :: l ++ [a]) := by
      rw [List.sum_toFinset _ (steps_nodup hnd), cost_steps]
      congr 1
      apply List.map_congr_left
      intro e _
      exact hw e.2 e.1
    rw [this] at h2
    linarith
  · rw [Finset.disjoint_left]
    intro e he he'
    rw [Finset.mem_image] at he'
    obtain ⟨f, hf, rfl⟩ := he'
    rw [List.mem_toFinset] at he hf
    exact steps_oneway hnd (by omega) hf he

theorem isChain_steps {R : ℕ → ℕ → Prop} : ∀ {a : ℕ} {l : List ℕ} {b : ℕ}, List.IsChain R (a :: l) →
    (∀ x ∈ (a :: l).getLast?, R x b) → ∀ e ∈ (a :: l).zip (l ++ [b]), R e.1 e.2
  | a, [], b, _, h => by simpa using h
  | a, c :: l, b, hc, h => by
    rw [List.isChain_cons_cons] at hc
    have ih := isChain_steps (b := b) hc.2 (by simpa using h)
    intro e he
    simp only [List.cons_append, List.zip_cons_cons, List.mem_cons] at he
    rcases he with rfl | he
    · exact hc.1
    · exact ih e (by simpa using he)

theorem cycle_steps {P : List ℕ} (h : IsCycle n X P) : ∀ e ∈ steps P, X e.1 e.2 = true := by
  cases P with
  | nil => have := h.three; simp at this
  | cons a l =>
    intro e he
    rw [steps, List.rotate_cons_succ, List.rotate_zero] at he
    exact isChain_steps (R := fun a b => X a b = true) h.chain (fun x hx => h.ends a (by simp) x hx) e he

theorem cost_map (D : ℕ → ℕ → ℚ) (f : ℕ → ℕ) : ∀ l : List ℕ, cost D (l.map f) = cost (fun i j => D (f i) (f j)) l
  | [] => rfl
  | [_] => rfl
  | a :: b :: t => by
    have := cost_map D f (b :: t)
    simp only [List.map_cons, cost] at this ⊢
    rw [this]

end Verif
