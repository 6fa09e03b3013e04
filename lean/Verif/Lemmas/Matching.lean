import Verif.Model.Matching
import Verif.Spec.Matching
import Verif.Lemmas.Tyagi
import Mathlib.Data.List.Sort

/-! # Lemmas on the savings heuristic with matchings -/

namespace Verif
open Spec

/-! ## Node sets -/

theorem nsUnion_perm {a b : List ℕ} (h : a.Disjoint b) : (nsUnion a b).Perm (a ++ b) := by
  unfold nsUnion
  refine (pySort_perm _ _).trans (List.Perm.append_left _ ?_)
  rw [List.filter_eq_self.2]
  intro x hx
  simp only [decide_eq_false_iff_not, Bool.not_eq_eq_eq_not, Bool.not_true, List.contains_eq_mem]
  exact fun h' => h h' hx

theorem nsUnion_le (a b : List ℕ) : (nsUnion a b).Pairwise (· ≤ ·) := by
  have := pySort_pairwise (le := fun x y : ℕ => decide (x ≤ y)) (by simp only [decide_eq_true_eq]; omega)
    (by intro a b; simp only [Bool.or_eq_true, decide_eq_true_eq]; omega) (a ++ b.filter fun n => ! a.contains n)
  simpa [nsUnion] using this

theorem nsUnion_sorted {a b : List ℕ} (h : (a ++ b).Nodup) : (nsUnion a b).Pairwise (· < ·) := by
  have h1 := nsUnion_le a b
  have h2 : (nsUnion a b).Nodup := (nsUnion_perm (List.nodup_append.1 h |>.2.2 |> fun hh => by
    intro x hx hy; exact hh x hx x hy rfl)).nodup_iff.2 h
  exact (h1.and h2).imp fun ⟨h3, h4⟩ => by omega

theorem sorted_eq {a b : List ℕ} (ha : a.Pairwise (· < ·)) (hb : b.Pairwise (· < ·)) (h : a.Perm b) : a = b :=
  h.eq_of_pairwise (fun x y _ _ h1 h2 => by omega) ha hb

theorem disjoint_of_nodup {a b : List ℕ} (h : (a ++ b).Nodup) : a.Disjoint b := by
  intro x hx hy; exact (List.nodup_append.1 h).2.2 x hx x hy rfl

theorem nsUnion_comm {a b : List ℕ} (h : (a ++ b).Nodup) : nsUnion a b = nsUnion b a := by
  have h' : (b ++ a).Nodup := List.perm_append_comm.nodup_iff.2 h
  refine sorted_eq (nsUnion_sorted h) (nsUnion_sorted h') ?_
  exact (nsUnion_perm (disjoint_of_nodup h)).trans
    (List.perm_append_comm.trans (nsUnion_perm (disjoint_of_nodup h')).symm)

/-! ## The cache -/

/-- The entries of the cache are answers of the routine. -/
def CacheGood (tsp : Router) (cache : TspCache) : Prop := ∀ s v, cache.lookup s = some v → v = tsp (0 :: s)

/-- What is in one cache is in the other. -/
def CacheLe (c c' : TspCache) : Prop := ∀ s, (c.lookup s).isSome → (c'.lookup s).isSome

theorem CacheLe.refl (c : TspCache) : CacheLe c c := fun _ h => h
theorem CacheLe.trans {a b c : TspCache} (h : CacheLe a b) (h' : CacheLe b c) : CacheLe a c := fun s hs => h' s (h s hs)

theorem lookup_cons_self' {α β : Type} [BEq α] [LawfulBEq α] (a : α) (b : β) (l : List (α × β)) :
    ((a, b) :: l).lookup a = some b := by simp [List.lookup]

theorem lookup_cons_ne' {α β : Type} [BEq α] [LawfulBEq α] {a x : α} (b : β) (l : List (α × β)) (h : x ≠ a) :
    ((a, b) :: l).lookup x = l.lookup x := by
  have : (x == a) = false := by simpa using h
  simp [List.lookup, this]

theorem getTsp_spec {tsp : Router} {cache : TspCache} (h : CacheGood tsp cache) (s : List ℕ) :
    (getTsp tsp s cache).1 = tsp (0 :: s) ∧ CacheGood tsp (getTsp tsp s cache).2 ∧
      CacheLe cache (getTsp tsp s cache).2 ∧ ((getTsp tsp s cache).2.lookup s).isSome := by
  unfold getTsp
  cases hl : cache.lookup s with
  | some v => exact ⟨h s v hl, h, CacheLe.refl _, by simp [hl]⟩
  | none =>
    refine ⟨rfl, ?_, ?_, by simp⟩
    · intro t v ht
      by_cases e : t = s
      · subst e; rw [lookup_cons_self'] at ht; injection ht with ht; exact ht.symm
      · rw [lookup_cons_ne' _ _ e] at ht; exact h t v ht
    · intro t ht
      by_cases e : t = s
      · subst e; simp
      · simpa only [lookup_cons_ne' _ _ e] using ht

/-- The value that stands for joining two routes. -/
def sav (d : ℕ → ℚ) (C L : Option ℚ) (W : ℚ) (tsp : Router) (a b : List ℕ) : ℚ :=
  if exceeds C C_EPS (nsDemand d a + nsDemand d b) then W
  else if exceeds L S_EPS (tsp (0 :: nsUnion a b)).2 then W
  else (tsp (0 :: a)).2 + (tsp (0 :: b)).2 - (tsp (0 :: nsUnion a b)).2

theorem sav_comm (d : ℕ → ℚ) (C L : Option ℚ) (W : ℚ) (tsp : Router) {a b : List ℕ} (h : (a ++ b).Nodup) :
    sav d C L W tsp a b = sav d C L W tsp b a := by
  unfold sav
  rw [nsUnion_comm h, add_comm (nsDemand d a), add_comm (tsp (0 :: a)).2]

/-- The routes `a` and `b` can be joined within the limits. -/
def CanJoin (d : ℕ → ℚ) (C L : Option ℚ) (tsp : Router) (a b : List ℕ) : Prop :=
  exceeds C C_EPS (nsDemand d a + nsDemand d b) = false ∧ exceeds L S_EPS (tsp (0 :: nsUnion a b)).2 = false

theorem mbSaving_spec (d : ℕ → ℚ) (C L : Option ℚ) (W : ℚ) {tsp : Router} (a b : List ℕ) {cache : TspCache}
    (h : CacheGood tsp cache) :
    (mbSaving d C L W tsp a b cache).1 = sav d C L W tsp a b ∧ CacheGood tsp (mbSaving d C L W tsp a b cache).2 ∧
      CacheLe cache (mbSaving d C L W tsp a b cache).2 ∧
      (CanJoin d C L tsp a b → ∀ s ∈ [a, b, nsUnion a b], ((mbSaving d C L W tsp a b cache).2.lookup s).isSome) := by
  unfold mbSaving sav CanJoin
  by_cases hC : exceeds C C_EPS (nsDemand d a + nsDemand d b) = true
  · rw [if_pos hC, if_pos hC]
    exact ⟨rfl, h, CacheLe.refl _, fun hh => by rw [hC] at hh; cases hh.1⟩
  · rw [if_neg hC, if_neg hC]
    obtain ⟨u1, u2, u3, u4⟩ := getTsp_spec h (nsUnion a b)
    simp only [u1]
    by_cases hL : exceeds L S_EPS (tsp (0 :: nsUnion a b)).2 = true
    · rw [if_pos hL, if_pos hL]
      exact ⟨rfl, u2, u3, fun hh => by rw [hL] at hh; cases hh.2⟩
    · rw [if_neg hL, if_neg hL]
      obtain ⟨s1, s2, s3, s4⟩ := getTsp_spec u2 a
      obtain ⟨t1, t2, t3, t4⟩ := getTsp_spec s2 b
      refine ⟨by simp only [s1, t1], t2, u3.trans (s3.trans t3), fun _ s hs => ?_⟩
      simp only [List.mem_cons, List.not_mem_nil, or_false] at hs
      rcases hs with rfl | rfl | rfl
      · exact t3 _ s4
      · exact t4
      · exact t3 _ (s3 _ u4)

theorem mbEval_spec (d : ℕ → ℚ) (C L : Option ℚ) (W : ℚ) {tsp : Router} (ps : List ((List ℕ × ℕ) × (List ℕ × ℕ)))
    {cache : TspCache} (h : CacheGood tsp cache) :
    (mbEval d C L W tsp ps cache).1 = ps.map (fun p => (sav d C L W tsp p.1.1 p.2.1, p.1.2, p.2.2)) ∧
      CacheGood tsp (mbEval d C L W tsp ps cache).2 ∧ CacheLe cache (mbEval d C L W tsp ps cache).2 ∧
      ∀ p ∈ ps, CanJoin d C L tsp p.1.1 p.2.1 →
        ∀ s ∈ [p.1.1, p.2.1, nsUnion p.1.1 p.2.1], ((mbEval d C L W tsp ps cache).2.lookup s).isSome := by
  induction ps generalizing cache with
  | nil => exact ⟨rfl, h, CacheLe.refl _, by simp⟩
  | cons p ps ih =>
    obtain ⟨a, b⟩ := p
    obtain ⟨s1, s2, s3, s4⟩ := mbSaving_spec d C L W a.1 b.1 h
    obtain ⟨i1, i2, i3, i4⟩ := ih s2
    rw [mbEval]
    refine ⟨by simp only [i1, s1, List.map_cons], i2, s3.trans i3, ?_⟩
    intro p hp hj s hs
    rcases List.mem_cons.1 hp with rfl | hp
    · exact i3 _ (s4 hj s hs)
    · exact i4 p hp hj s hs

/-! ## The integer program -/

theorem selected_mem {es : List (ℚ × ℕ × ℕ)} {X : List Bool} {e : ℚ × ℕ × ℕ} (h : e ∈ selected es X) : e ∈ es := by
  unfold selected at h
  obtain ⟨p, hp, he⟩ := List.mem_filterMap.1 h
  split_ifs at he with hx
  injection he with he
  rw [← he]
  exact (List.of_mem_zip hp).1

/-- The choice with the row of `r` cleared. -/
def clearRow (r : ℕ) (es : List (ℚ × ℕ × ℕ)) (X : List Bool) : List Bool :=
  List.zipWith (fun e x => x && decide (e.2.1 ≠ r)) es X

theorem selected_cons (e : ℚ × ℕ × ℕ) (x : Bool) (es : List (ℚ × ℕ × ℕ)) (X : List Bool) :
    selected (e :: es) (x :: X) = (if x then [e] else []) ++ selected es X := by
  cases x <;> simp [selected]

theorem selected_append {es fs : List (ℚ × ℕ × ℕ)} {X Y : List Bool} (h : es.length = X.length) :
    selected (es ++ fs) (X ++ Y) = selected es X ++ selected fs Y := by
  unfold selected
  rw [List.zip_append h, List.filterMap_append]

theorem selected_clearRow (r : ℕ) (es : List (ℚ × ℕ × ℕ)) (X : List Bool) :
    selected es (clearRow r es X) = (selected es X).filter fun e => decide (e.2.1 ≠ r) := by
  induction es generalizing X with
  | nil => simp [selected]
  | cons e es ih =>
    cases X with
    | nil => simp [selected, clearRow]
    | cons x X =>
      have : clearRow r (e :: es) (x :: X) = (x && decide (e.2.1 ≠ r)) :: clearRow r es X := rfl
      rw [this, selected_cons, selected_cons, ih, List.filter_append]
      cases x <;> by_cases hr : e.2.1 = r <;> simp [hr]

theorem sum_filter_split (l : List (ℚ × ℕ × ℕ)) (p : ℚ × ℕ × ℕ → Bool) :
    (l.map (·.1)).sum = ((l.filter p).map (·.1)).sum + ((l.filter fun e => !p e).map (·.1)).sum := by
  induction l with
  | nil => simp
  | cons a t ih => cases h : p a <;> simp [h, ih] <;> ring

/-- An optimal choice contains an entry of the largest weight. -/
theorem rows_max {es : List (ℚ × ℕ × ℕ)} {X : List Bool} (hX : RowChoice es X)
    (hopt : ∀ Y, RowChoice es Y → weight es Y ≤ weight es X) {e : ℚ × ℕ × ℕ} (he : e ∈ es) :
    ∃ f ∈ selected es X, e.1 ≤ f.1 := by
  obtain ⟨l1, l2, rfl⟩ := List.append_of_mem he
  obtain ⟨hlen, hrow⟩ := hX
  have hx := hrow e he
  obtain ⟨f, hf⟩ := List.length_eq_one_iff.1 hx
  have hfm : f ∈ selected (l1 ++ e :: l2) X := (List.mem_filter.1 (by rw [hf]; simp)).1
  refine ⟨f, hfm, ?_⟩
  obtain ⟨X1, x, X2, rfl, hl1, hl2⟩ : ∃ X1 x X2, X = X1 ++ x :: X2 ∧ l1.length = X1.length ∧ l2.length = X2.length := by
    have : l1.length < X.length := by rw [hlen]; simp
    refine ⟨X.take l1.length, X[l1.length], X.drop (l1.length + 1), ?_, ?_, ?_⟩
    · rw [List.getElem_cons_drop, List.take_append_drop]
    · rw [List.length_take]; omega
    · rw [List.length_drop, hlen]; simp; omega
  generalize hY : clearRow e.2.1 l1 X1 ++ true :: clearRow e.2.1 l2 X2 = Y
  have hc1 : l1.length = (clearRow e.2.1 l1 X1).length := by simp [clearRow, hl1]
  have hc2 : l2.length = (clearRow e.2.1 l2 X2).length := by simp [clearRow, hl2]
  have hsY : selected (l1 ++ e :: l2) Y = (selected l1 X1).filter (fun g => decide (g.2.1 ≠ e.2.1)) ++
      e :: (selected l2 X2).filter (fun g => decide (g.2.1 ≠ e.2.1)) := by
    rw [← hY, selected_append hc1, selected_cons, selected_clearRow, selected_clearRow]; rfl
  have hsX : selected (l1 ++ e :: l2) (X1 ++ x :: X2) = selected l1 X1 ++ ((if x then [e] else []) ++ selected l2 X2) := by
    rw [selected_append hl1, selected_cons]
  have hnr : (selected (l1 ++ e :: l2) Y).filter (fun g => decide (g.2.1 ≠ e.2.1)) =
      (selected (l1 ++ e :: l2) (X1 ++ x :: X2)).filter (fun g => decide (g.2.1 ≠ e.2.1)) := by
    rw [hsY, hsX]
    simp only [List.filter_append, List.filter_cons, List.filter_filter]
    cases x <;> simp
  have hr : (selected (l1 ++ e :: l2) Y).filter (fun g => decide (g.2.1 = e.2.1)) = [e] := by
    rw [hsY]
    simp only [List.filter_append, List.filter_cons, List.filter_filter]
    simp
  have hYrow : RowChoice (l1 ++ e :: l2) Y := by
    refine ⟨by rw [← hY]; simp [← hc1, ← hc2], fun g hg => ?_⟩
    by_cases hge : g.2.1 = e.2.1
    · rw [hge, hr]; rfl
    · have key : ∀ S : List (ℚ × ℕ × ℕ), S.filter (fun f => decide (f.2.1 = g.2.1)) =
          (S.filter fun f => decide (f.2.1 ≠ e.2.1)).filter fun f => decide (f.2.1 = g.2.1) := by
        intro S
        rw [List.filter_filter]
        apply List.filter_congr
        intro f _
        by_cases h : f.2.1 = g.2.1 <;> simp [h, hge]
      rw [key, hnr, ← key]
      exact hrow g hg
  have := hopt Y hYrow
  unfold weight at this
  rw [sum_filter_split _ (fun g => decide (g.2.1 = e.2.1)),
    sum_filter_split (selected (l1 ++ e :: l2) (X1 ++ x :: X2)) (fun g => decide (g.2.1 = e.2.1)), hr, hf] at this
  have hn' : ∀ S : List (ℚ × ℕ × ℕ), S.filter (fun g => !decide (g.2.1 = e.2.1)) =
      S.filter fun g => decide (g.2.1 ≠ e.2.1) := fun S => List.filter_congr fun g _ => by simp
  rw [hn', hn', hnr] at this
  simp at this
  exact this

theorem mbLess_le {m x : (ℚ × ℕ × ℕ) × ℚ} (h : ¬ mbLess m x = true) : x.1.1 ≤ m.1.1 := by
  unfold mbLess at h
  by_contra hh
  exact h (by simp; left; linarith)

theorem mbLess_ge {m x : (ℚ × ℕ × ℕ) × ℚ} (h : mbLess m x = true) : m.1.1 ≤ x.1.1 := by
  unfold mbLess at h
  simp only [decide_eq_true_eq] at h
  rcases h with h | h
  · linarith
  · linarith [h.1]

theorem foldl_max_spec (l : List ((ℚ × ℕ × ℕ) × ℚ)) (a : (ℚ × ℕ × ℕ) × ℚ) :
    (l.foldl (fun m x => if mbLess m x then x else m) a) ∈ a :: l ∧
      ∀ x ∈ a :: l, x.1.1 ≤ (l.foldl (fun m x => if mbLess m x then x else m) a).1.1 := by
  induction l generalizing a with
  | nil => simp
  | cons b t ih =>
    rw [List.foldl_cons]
    obtain ⟨h1, h2⟩ := ih (if mbLess a b then b else a)
    constructor
    · rcases List.mem_cons.1 h1 with h | h
      · rw [h]; split_ifs <;> simp
      · exact List.mem_cons_of_mem _ (List.mem_cons_of_mem _ h)
    · intro x hx
      have hm := h2 _ (List.mem_cons_self ..)
      have ha : a.1.1 ≤ (if mbLess a b = true then b else a).1.1 := by
        split_ifs with h
        · exact mbLess_ge h
        · exact le_refl _
      have hb : b.1.1 ≤ (if mbLess a b = true then b else a).1.1 := by
        split_ifs with h
        · exact le_refl _
        · exact mbLess_le h
      rcases List.mem_cons.1 hx with rfl | hx
      · exact ha.trans hm
      · rcases List.mem_cons.1 hx with rfl | hx
        · exact hb.trans hm
        · exact h2 x (List.mem_cons_of_mem _ hx)

theorem zip3_selected {es : List (ℚ × ℕ × ℕ)} {w : List ℚ} {X : List Bool} (hw : w.length = es.length) :
    (((es.zip w).zip X).filterMap fun p => if p.2 then some p.1 else none).map (·.1) = selected es X := by
  induction es generalizing w X with
  | nil => simp [selected]
  | cons e es ih =>
    cases w with
    | nil => cases hw
    | cons a w =>
      cases X with
      | nil => simp [selected]
      | cons x X =>
        have := ih (w := w) (X := X) (by simpa using hw)
        rw [selected_cons, ← this]
        cases x <;> simp

/-- What is found is an entry of the largest weight of all. -/
theorem mmpSolve_spec {mmp : List (ℚ × ℕ × ℕ) → Option (List Bool)} (h : SolvesRows mmp) (second : Bool)
    {es : List (ℚ × ℕ × ℕ)} (hne : es ≠ []) :
    ∃ e ∈ es, mmpSolve mmp second es = .ok (some e) ∧ ∀ f ∈ es, f.1 ≤ e.1 := by
  obtain ⟨X, h1, h2, h3⟩ := h es hne
  unfold mmpSolve
  rw [h1]
  simp only
  have hw : (if second = true then mbSecondary es else es.map fun _ => (0 : ℚ)).length = es.length := by
    cases second <;> simp [mbSecondary]
  generalize (if second = true then mbSecondary es else es.map fun _ => (0 : ℚ)) = w at hw
  have hz := zip3_selected (X := X) hw
  generalize hS : (((es.zip w).zip X).filterMap fun p => if p.2 then some p.1 else none) = S at hz
  obtain ⟨e0, he0⟩ := List.exists_mem_of_ne_nil es hne
  obtain ⟨f0, hf0, _⟩ := rows_max h2 h3 he0
  cases S with
  | nil => rw [← hz] at hf0; cases hf0
  | cons a t =>
    rw [mbMax]
    obtain ⟨g1, g2⟩ := foldl_max_spec t a
    generalize (t.foldl (fun m x => if mbLess m x then x else m) a) = m at g1 g2
    refine ⟨m.1, ?_, rfl, ?_⟩
    · apply selected_mem (X := X)
      rw [← hz]
      exact List.mem_map.2 ⟨m, g1, rfl⟩
    · intro f hf
      obtain ⟨g, hg, hfg⟩ := rows_max h2 h3 hf
      rw [← hz] at hg
      obtain ⟨x, hx, rfl⟩ := List.mem_map.1 hg
      exact hfg.trans (g2 x hx)

theorem mbSecondary_eq (es : List (ℚ × ℕ × ℕ)) : mbSecondary es = es.map fun e => -otherWeight es e := by
  unfold mbSecondary otherWeight
  simp only
  apply List.map_congr_left
  intro e _
  rw [neg_inj, sub_left_inj, ← List.sum_map_add]
  congr 1
  apply List.map_congr_left
  intro g _
  simp only [List.count_cons, List.count_nil, beq_iff_eq]
  split_ifs <;> simp <;> ring

/-- Not after the other by weight and second criterion. -/
def pairLe (x m : (ℚ × ℕ × ℕ) × ℚ) : Prop := x.1.1 < m.1.1 ∨ (x.1.1 = m.1.1 ∧ x.2 ≤ m.2)

theorem pairLe_trans {x y z : (ℚ × ℕ × ℕ) × ℚ} (h1 : pairLe x y) (h2 : pairLe y z) : pairLe x z := by
  unfold pairLe at *
  rcases h1 with h1 | ⟨h1, h1'⟩ <;> rcases h2 with h2 | ⟨h2, h2'⟩
  · left; linarith
  · left; linarith
  · left; linarith
  · right; exact ⟨by linarith, by linarith⟩

theorem mbLess_pairLe {m x : (ℚ × ℕ × ℕ) × ℚ} : (mbLess m x = true → pairLe m x) ∧ (¬ mbLess m x = true → pairLe x m) := by
  unfold mbLess pairLe
  simp only [decide_eq_true_eq]
  constructor
  · rintro (h | ⟨h, h' | ⟨h', _⟩⟩)
    · exact Or.inl h
    · exact Or.inr ⟨h, h'.le⟩
    · exact Or.inr ⟨h, h'.le⟩
  · intro h
    push Not at h
    obtain ⟨h1, h2⟩ := h
    rcases lt_or_eq_of_le h1 with h3 | h3
    · exact Or.inl h3
    · exact Or.inr ⟨h3, (h2 h3.symm).1⟩

theorem foldl_max_pair (l : List ((ℚ × ℕ × ℕ) × ℚ)) (a : (ℚ × ℕ × ℕ) × ℚ) :
    (l.foldl (fun m x => if mbLess m x then x else m) a) ∈ a :: l ∧
      ∀ x ∈ a :: l, pairLe x (l.foldl (fun m x => if mbLess m x then x else m) a) := by
  induction l generalizing a with
  | nil => simp [pairLe]
  | cons b t ih =>
    rw [List.foldl_cons]
    obtain ⟨h1, h2⟩ := ih (if mbLess a b then b else a)
    constructor
    · rcases List.mem_cons.1 h1 with h | h
      · rw [h]; split_ifs <;> simp
      · exact List.mem_cons_of_mem _ (List.mem_cons_of_mem _ h)
    · intro x hx
      have hm := h2 _ (List.mem_cons_self ..)
      have ha : pairLe a (if mbLess a b = true then b else a) := by
        split_ifs with h
        · exact mbLess_pairLe.1 h
        · exact Or.inr ⟨rfl, le_refl _⟩
      have hb : pairLe b (if mbLess a b = true then b else a) := by
        split_ifs with h
        · exact Or.inr ⟨rfl, le_refl _⟩
        · exact mbLess_pairLe.2 h
      rcases List.mem_cons.1 hx with rfl | hx
      · exact pairLe_trans ha hm
      · rcases List.mem_cons.1 hx with rfl | hx
        · exact pairLe_trans hb hm
        · exact h2 x (List.mem_cons_of_mem _ hx)

end Verif
