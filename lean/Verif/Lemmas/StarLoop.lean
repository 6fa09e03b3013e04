import Verif.Lemmas.Star

/-! # Lemmas for the 3-opt* move: the loops -/

namespace Verif
open Spec

/-- A candidate: the tables, the cut positions and the move. -/
structure S3Cand where
  t : S3Data
  cuts : List (Option ℕ)
  mv : S3Move

/-- One loop over candidates instead of the four loops. -/
def s3Flat (check : S3Checker) (first : Bool) : List S3Cand → S3Best → Py (S3Best × Bool)
  | [], b => .ok (b, false)
  | c :: cs, b =>
    match check b.delta c.mv.edges c.t with
    | .error x => .error x
    | .ok none => s3Flat check first cs b
    | .ok (some δ) =>
      if first then .ok (⟨some (c.mv.idx, δ, c.cuts), δ⟩, true) else s3Flat check first cs ⟨some (c.mv.idx, δ, c.cuts), δ⟩

theorem s3Flat_append (check : S3Checker) (first : Bool) (xs ys : List S3Cand) (b : S3Best) :
    s3Flat check first (xs ++ ys) b =
      match s3Flat check first xs b with
      | .error x => .error x
      | .ok (b', true) => .ok (b', true)
      | .ok (b', false) => s3Flat check first ys b' := by
  induction xs generalizing b with
  | nil => simp [s3Flat]
  | cons c cs ih =>
    rw [List.cons_append, s3Flat, s3Flat]
    cases check b.delta c.mv.edges c.t with
    | error x => rfl
    | ok o =>
      cases o with
      | none => exact ih b
      | some δ =>
        cases first with
        | true => rfl
        | false => exact ih _

theorem s3Try_flat (check : S3Checker) (first : Bool) (t : S3Data) (cuts : List (Option ℕ)) (ms : List S3Move) (b : S3Best) :
    s3Try check first t cuts ms b = s3Flat check first (ms.map fun mv => ⟨t, cuts, mv⟩) b := by
  induction ms generalizing b with
  | nil => rfl
  | cons mv ms ih =>
    rw [List.map_cons, s3Try, s3Flat]
    cases check b.delta mv.edges t with
    | error x => rfl
    | ok o =>
      cases o with
      | none => exact ih b
      | some δ =>
        cases first with
        | true => rfl
        | false => exact ih _

/-- The candidates for three positions. -/
def s3At (D : ℕ → ℕ → ℚ) (C L : Option ℚ) (s : S3Sol) (i j k : ℕ) (lr12 lr34 : Option ℕ × Option ℕ) : List S3Cand :=
  (s3Moves lr12.1 lr34.1).map fun mv => ⟨s3Data D C L s i j k lr12.1 lr34.1, s3Cuts i j k lr12 lr34, mv⟩

def s3CandK (D : ℕ → ℕ → ℚ) (C L : Option ℚ) (s : S3Sol) (i j : ℕ) (lr12 : Option ℕ × Option ℕ) :
    List ℕ → Option ℕ × Option ℕ → List S3Cand
  | [], _ => []
  | k :: ks, lr34 => s3At D C L s i j k lr12 (s3See lr34 (s.node k) k) ++
      s3CandK D C L s i j lr12 ks (s3See lr34 (s.node k) k)

def s3CandJ (D : ℕ → ℕ → ℚ) (C L : Option ℚ) (s : S3Sol) (sN i : ℕ) :
    List ℕ → Option ℕ × Option ℕ → List S3Cand
  | [], _ => []
  | j :: js, lr12 => s3CandK D C L s i j (s3See lr12 (s.node j) j) (pyRange (j + 1) (sN - 1)) (none, none) ++
      s3CandJ D C L s sN i js (s3See lr12 (s.node j) j)

def s3CandI (D : ℕ → ℕ → ℚ) (C L : Option ℚ) (s : S3Sol) (sN : ℕ) : List ℕ → List S3Cand
  | [] => []
  | i :: is => s3CandJ D C L s sN i (pyRange (i + 1) (sN - 1)) (none, none) ++ s3CandI D C L s sN is

theorem s3LoopK_flat (D : ℕ → ℕ → ℚ) (C L : Option ℚ) (check : S3Checker) (first : Bool) (s : S3Sol) (i j : ℕ)
    (lr12 : Option ℕ × Option ℕ) (ks : List ℕ) (lr34 : Option ℕ × Option ℕ) (b : S3Best) :
    s3LoopK D C L check first s i j lr12 ks lr34 b = s3Flat check first (s3CandK D C L s i j lr12 ks lr34) b := by
  induction ks generalizing lr34 b with
  | nil => rfl
  | cons k ks ih =>
    rw [s3CandK, s3Flat_append, s3LoopK]
    simp only [s3Try_flat, s3At]
    cases s3Flat check first _ b with
    | error x => rfl
    | ok p =>
      obtain ⟨b', f⟩ := p
      cases f with
      | true => rfl
      | false => exact ih _ _

theorem s3LoopJ_flat (D : ℕ → ℕ → ℚ) (C L : Option ℚ) (check : S3Checker) (first : Bool) (s : S3Sol) (sN i : ℕ)
    (js : List ℕ) (lr12 : Option ℕ × Option ℕ) (b : S3Best) :
    s3LoopJ D C L check first s sN i js lr12 b = s3Flat check first (s3CandJ D C L s sN i js lr12) b := by
  induction js generalizing lr12 b with
  | nil => rfl
  | cons k ks ih =>
    rw [s3CandJ, s3Flat_append, s3LoopJ]
    simp only [s3LoopK_flat]
    cases s3Flat check first _ b with
    | error x => rfl
    | ok p =>
      obtain ⟨b', f⟩ := p
      cases f with
      | true => rfl
      | false => exact ih _ _

theorem s3LoopI_flat (D : ℕ → ℕ → ℚ) (C L : Option ℚ) (check : S3Checker) (first : Bool) (s : S3Sol) (sN : ℕ)
    (is : List ℕ) (b : S3Best) :
    s3LoopI D C L check first s sN is b = s3Flat check first (s3CandI D C L s sN is) b := by
  induction is generalizing b with
  | nil => rfl
  | cons k ks ih =>
    rw [s3CandI, s3Flat_append, s3LoopI]
    simp only [s3LoopJ_flat]
    cases s3Flat check first _ b with
    | error x => rfl
    | ok p =>
      obtain ⟨b', f⟩ := p
      cases f with
      | true => rfl
      | false => exact ih _

/-! ## What the loop over the candidates gives -/

/-- A checker that decides by the change alone, once the edges and the tables are given. -/
def S3Regular (check : S3Checker) (es : List (ℕ × ℕ)) (t : S3Data) : Prop :=
  ∃ (δ : ℚ) (f : Bool), ∀ bd, check bd es t = .ok (if f = true ∧ δ + S_EPS < bd then some δ else none)

theorem S_EPS_pos : 0 < S_EPS := by unfold S_EPS; norm_num

theorem s3Flat_spec {check : S3Checker} (first : Bool) {cs : List S3Cand} (h : ∀ c ∈ cs, S3Regular check c.mv.edges c.t)
    (b : S3Best) : ∃ b' f, s3Flat check first cs b = .ok (b', f) ∧ b'.delta ≤ b.delta ∧
      ((b' = b ∧ f = false) ∨ ∃ c ∈ cs, ∃ δ, check b.delta c.mv.edges c.t = .ok (some δ) ∧
        b' = ⟨some (c.mv.idx, δ, c.cuts), δ⟩) ∧
      (first = false → f = false) ∧ (f = false → ∀ c ∈ cs, check b'.delta c.mv.edges c.t = .ok none) := by
  induction cs generalizing b with
  | nil => exact ⟨b, false, rfl, le_refl _, .inl ⟨rfl, rfl⟩, fun _ => rfl, fun _ => by simp⟩
  | cons c cs ih =>
    obtain ⟨δ, f0, hreg⟩ := h c (by simp)
    have ih := ih fun c hc => h c (by simp [hc])
    unfold s3Flat
    rw [hreg]
    by_cases hc : f0 = true ∧ δ + S_EPS < b.delta
    · rw [if_pos hc]
      simp only
      have hlt : δ < b.delta := by have := S_EPS_pos; linarith [hc.2]
      have hok : check b.delta c.mv.edges c.t = .ok (some δ) := by rw [hreg, if_pos hc]
      cases first with
      | true => exact ⟨_, true, rfl, hlt.le, .inr ⟨c, by simp, δ, hok, rfl⟩, (fun hh => nomatch hh), (fun hh => nomatch hh)⟩
      | false =>
        obtain ⟨b', f, g1, g2, g3, g4, g5⟩ := ih ⟨some (c.mv.idx, δ, c.cuts), δ⟩
        simp only at g2 g3
        refine ⟨b', f, g1, g2.trans hlt.le, .inr ?_, g4, fun hf c' hc' => ?_⟩
        · rcases g3 with ⟨rfl, _⟩ | ⟨c', hc', δ', k1, k2⟩
          · exact ⟨c, by simp, δ, hok, rfl⟩
          · refine ⟨c', by simp [hc'], δ', ?_, k2⟩
            obtain ⟨δ2, f2, hr2⟩ := h c' (by simp [hc'])
            rw [hr2] at k1 ⊢
            split at k1
            · rename_i hh
              rw [if_pos ⟨hh.1, hh.2.trans hlt⟩]; exact k1
            · cases k1
        · rcases List.mem_cons.1 hc' with rfl | hc'
          · rw [hreg, if_neg fun hh => ?_]
            have := hh.2
            have := S_EPS_pos
            linarith
          · exact g5 hf c' hc'
    · rw [if_neg hc]
      simp only
      obtain ⟨b', f, g1, g2, g3, g4, g5⟩ := ih b
      refine ⟨b', f, g1, g2, g3.imp id fun ⟨c', hc', k⟩ => ⟨c', by simp [hc'], k⟩, g4, fun hf c' hc' => ?_⟩
      rcases List.mem_cons.1 hc' with rfl | hc'
      · rw [hreg, if_neg fun hh => hc ⟨hh.1, hh.2.trans_le g2⟩]
      · exact g5 hf c' hc'

/-! ## Which candidates there are -/

/-- The outermost depots of the positions `a` to `b - 1`. -/
def s3Seen (node : ℕ → ℕ) (a b : ℕ) (lr : Option ℕ × Option ℕ) : Option ℕ × Option ℕ :=
  (pyRange a b).foldl (fun lr p => s3See lr (node p) p) lr

theorem pyRange_cons {a b : ℕ} (h : a < b) : pyRange a b = a :: pyRange (a + 1) b := by
  unfold pyRange
  obtain ⟨n, hn⟩ : ∃ n, b - a = n + 1 := ⟨b - a - 1, by omega⟩
  rw [hn, List.range'_succ]
  congr 2
  omega

theorem pyRange_nil {a b : ℕ} (h : b ≤ a) : pyRange a b = [] := by
  unfold pyRange
  rw [show b - a = 0 by omega]; rfl

theorem mem_s3CandK {D : ℕ → ℕ → ℚ} {C L : Option ℚ} {s : S3Sol} {i j : ℕ} {lr12 : Option ℕ × Option ℕ} {c : S3Cand}
    (n a b : ℕ) (hn : b - a = n) (lr34 : Option ℕ × Option ℕ) :
    c ∈ s3CandK D C L s i j lr12 (pyRange a b) lr34 ↔
      ∃ k, a ≤ k ∧ k < b ∧ c ∈ s3At D C L s i j k lr12 (s3Seen s.node a (k + 1) lr34) := by
  induction n generalizing a lr34 with
  | zero =>
    rw [pyRange_nil (by omega)]
    simp only [s3CandK, List.not_mem_nil, false_iff]
    rintro ⟨k, h1, h2, _⟩; omega
  | succ n ih =>
    rw [pyRange_cons (by omega), s3CandK, List.mem_append, ih (a + 1) (by omega)]
    have hs : ∀ k, a ≤ k → s3Seen s.node a (k + 1) lr34 = s3Seen s.node (a + 1) (k + 1) (s3See lr34 (s.node a) a) := by
      intro k hk
      unfold s3Seen
      rw [pyRange_cons (by omega)]; rfl
    constructor
    · rintro (h | ⟨k, h1, h2, h3⟩)
      · refine ⟨a, le_refl _, by omega, ?_⟩
        rw [hs a (le_refl _)]
        unfold s3Seen
        rw [pyRange_nil (le_refl _)]
        exact h
      · exact ⟨k, by omega, h2, by rw [hs k (by omega)]; exact h3⟩
    · rintro ⟨k, h1, h2, h3⟩
      rw [hs k h1] at h3
      by_cases e : k = a
      · subst e
        left
        unfold s3Seen at h3
        rw [pyRange_nil (le_refl _)] at h3
        exact h3
      · exact .inr ⟨k, by omega, h2, h3⟩

theorem mem_s3CandJ {D : ℕ → ℕ → ℚ} {C L : Option ℚ} {s : S3Sol} {i : ℕ} {c : S3Cand} {sN : ℕ}
    (n a b : ℕ) (hn : b - a = n) (lr12 : Option ℕ × Option ℕ) :
    c ∈ s3CandJ D C L s sN i (pyRange a b) lr12 ↔
      ∃ j k, a ≤ j ∧ j < b ∧ j < k ∧ k < sN - 1 ∧
        c ∈ s3At D C L s i j k (s3Seen s.node a (j + 1) lr12) (s3Seen s.node (j + 1) (k + 1) (none, none)) := by
  induction n generalizing a lr12 with
  | zero =>
    rw [pyRange_nil (by omega)]
    simp only [s3CandJ, List.not_mem_nil, false_iff]
    rintro ⟨j, k, h1, h2, _⟩; omega
  | succ n ih =>
    rw [pyRange_cons (by omega), s3CandJ, List.mem_append, ih (a + 1) (by omega), mem_s3CandK _ _ _ rfl]
    have hs : ∀ k, a ≤ k → s3Seen s.node a (k + 1) lr12 = s3Seen s.node (a + 1) (k + 1) (s3See lr12 (s.node a) a) := by
      intro k hk
      unfold s3Seen
      rw [pyRange_cons (by omega)]; rfl
    have ha : s3Seen s.node (a + 1) (a + 1) (s3See lr12 (s.node a) a) = s3See lr12 (s.node a) a := by
      unfold s3Seen
      rw [pyRange_nil (le_refl _)]; rfl
    constructor
    · rintro (⟨k, h1, h2, h3⟩ | ⟨j, k, h1, h2, h3, h4, h5⟩)
      · exact ⟨a, k, le_refl _, by omega, by omega, h2, by rw [hs a (le_refl _), ha]; exact h3⟩
      · exact ⟨j, k, by omega, h2, h3, h4, by rw [hs j (by omega)]; exact h5⟩
    · rintro ⟨j, k, h1, h2, h3, h4, h5⟩
      rw [hs j h1] at h5
      by_cases e : j = a
      · subst e
        rw [ha] at h5
        exact .inl ⟨k, by omega, h4, h5⟩
      · exact .inr ⟨j, k, by omega, h2, h3, h4, h5⟩

theorem mem_s3CandI {D : ℕ → ℕ → ℚ} {C L : Option ℚ} {s : S3Sol} {c : S3Cand} {sN : ℕ} (is : List ℕ) :
    c ∈ s3CandI D C L s sN is ↔
      ∃ i j k, i ∈ is ∧ i < j ∧ j < k ∧ k < sN - 1 ∧
        c ∈ s3At D C L s i j k (s3Seen s.node (i + 1) (j + 1) (none, none)) (s3Seen s.node (j + 1) (k + 1) (none, none)) := by
  induction is with
  | nil => simp [s3CandI]
  | cons a is ih =>
    rw [s3CandI, List.mem_append, ih, mem_s3CandJ _ _ _ rfl]
    constructor
    · rintro (⟨j, k, h1, h2, h3, h4, h5⟩ | ⟨i, j, k, h1, h2⟩)
      · exact ⟨a, j, k, by simp, by omega, h3, h4, h5⟩
      · exact ⟨i, j, k, by simp [h1], h2⟩
    · rintro ⟨i, j, k, h1, h2, h3, h4, h5⟩
      rcases List.mem_cons.1 h1 with rfl | h1
      · exact .inl ⟨j, k, by omega, by omega, h3, h4, h5⟩
      · exact .inr ⟨i, j, k, h1, h2, h3, h4, h5⟩

/-! ## The outermost depots of a segment -/

/-- The same as `s3Seen` for the nodes of a list at the positions from `p`. -/
def seeList : ℕ → List ℕ → Option ℕ × Option ℕ → Option ℕ × Option ℕ
  | _, [], lr => lr
  | p, n :: t, lr => seeList (p + 1) t (s3See lr n p)

theorem s3Seen_list {node : ℕ → ℕ} (S : List ℕ) (a b : ℕ) (hb : b = a + S.length)
    (h : ∀ m < S.length, node (a + m) = S.getD m 0) (lr : Option ℕ × Option ℕ) :
    s3Seen node a b lr = seeList a S lr := by
  subst hb
  induction S generalizing a lr with
  | nil => unfold s3Seen; rw [pyRange_nil (by simp)]; rfl
  | cons n t ih =>
    unfold s3Seen
    rw [pyRange_cons (by simp), List.foldl_cons, seeList]
    have h0 := h 0 (by simp)
    simp only [Nat.add_zero, List.getD_cons_zero] at h0
    rw [h0]
    have := ih (a + 1) (fun m hm => by
      have := h (m + 1) (by simpa using hm)
      rw [List.getD_cons_succ] at this
      rw [← this]; congr 1; omega) (s3See lr n a)
    rw [← this]
    unfold s3Seen
    rw [show a + (n :: t).length = a + 1 + t.length by simp; omega]

theorem seeList_append (p : ℕ) (S T : List ℕ) (lr : Option ℕ × Option ℕ) :
    seeList p (S ++ T) lr = seeList (p + S.length) T (seeList p S lr) := by
  induction S generalizing p lr with
  | nil => simp [seeList]
  | cons n t ih =>
    rw [List.cons_append, seeList, seeList, ih]
    congr 1
    simp; omega

theorem seeList_zerofree (p : ℕ) {S : List ℕ} (h : 0 ∉ S) (lr : Option ℕ × Option ℕ) : seeList p S lr = lr := by
  induction S generalizing p lr with
  | nil => rfl
  | cons n t ih =>
    have hn : n ≠ 0 := fun e => h (by simp [e])
    rw [seeList, ih _ fun e => h (by simp [e])]
    simp [s3See, hn]

theorem seeList_fst (p : ℕ) (S : List ℕ) (a : ℕ) (r : Option ℕ) : (seeList p S (some a, r)).1 = some a := by
  induction S generalizing p r with
  | nil => rfl
  | cons n t ih =>
    rw [seeList]
    by_cases hn : n = 0
    · rw [s3See, if_pos hn, if_neg (by simp)]; exact ih _ _
    · rw [s3See, if_neg hn]; exact ih _ _

/-- A part that starts and ends at the depot, with customers only before and after it. -/
theorem seeList_depots (p : ℕ) {h M t : List ℕ} (hh : 0 ∉ h) (hM : DepotEnds M) (ht : 0 ∉ t) :
    seeList p (h ++ (M ++ t)) (none, none) = (some (p + h.length), some (p + h.length + M.length - 1)) := by
  rw [seeList_append, seeList_zerofree _ hh, seeList_append, seeList_zerofree _ ht]
  rcases depotEnds_cases hM with rfl | ⟨m, rfl⟩
  · simp [seeList, s3See]
  · refine Prod.ext ?_ ?_
    · rw [wrap, seeList, s3See, if_pos rfl, if_pos rfl, seeList_fst]
    · rw [wrap, ← List.cons_append, seeList_append]
      simp only [seeList, s3See, if_pos, List.length_append, List.length_cons, List.length_nil]
      congr 1

/-- A segment with a depot. -/
theorem split_depots {S : List ℕ} (h : 0 ∈ S) : ∃ a M b, S = a ++ (M ++ b) ∧ 0 ∉ a ∧ DepotEnds M ∧ 0 ∉ b := by
  obtain ⟨a, r, e1, e2⟩ := List.eq_append_cons_of_mem h
  by_cases hr : 0 ∈ r
  · obtain ⟨x, b, e3, e4⟩ : ∃ x b, r = x ++ 0 :: b ∧ 0 ∉ b := by
      obtain ⟨y, z, f1, f2⟩ := List.eq_append_cons_of_mem (List.mem_reverse.2 hr)
      refine ⟨z.reverse, y.reverse, ?_, by simpa using f2⟩
      have := congrArg List.reverse f1
      simpa using this
    exact ⟨a, wrap x, b, by rw [e1, e3]; simp [wrap], e2, depotEnds_wrap x, e4⟩
  · exact ⟨a, [0], r, by rw [e1]; rfl, e2, ⟨rfl, rfl⟩, hr⟩

end Verif
