import Verif.Lemmas.StarBlocks

/-! # Lemmas for the 3-opt* move: the routes for each move -/

namespace Verif
open Spec

/-- A segment opened at its last depot. -/
def S3Split (B B1 B2 : List ℕ) : Prop :=
  B = B1 ++ B2 ∧ 0 ∉ B2 ∧ ∃ h M, B1 = h ++ M ∧ 0 ∉ h ∧ DepotEnds M

theorem S3Split.mem {B B1 B2 : List ℕ} (h : S3Split B B1 B2) : 0 ∈ B1 := by
  obtain ⟨_, _, a, M, rfl, _, hM⟩ := h
  exact List.mem_append.2 (.inr (List.mem_of_mem_head? hM.1))

theorem S3Split.mem' {B B1 B2 : List ℕ} (h : S3Split B B1 B2) : 0 ∈ B := by
  rw [h.1]; exact List.mem_append.2 (.inl h.mem)

theorem S3Split.last {B B1 B2 : List ℕ} (h : S3Split B B1 B2) : B1.getLast? = some 0 := by
  obtain ⟨_, _, a, M, rfl, _, hM⟩ := h
  rw [List.getLast?_append, hM.2]; rfl

theorem S3Split.run {B B1 B2 : List ℕ} (h : S3Split B B1 B2) (p : List ℕ) : runFrom p B = B2 := by
  rw [h.1, runFrom_append, run_last_zero h.last, runFrom_zerofree _ h.2.1]; rfl

theorem headRun_append {X : List ℕ} (Y : List ℕ) (h : 0 ∈ X) : headRun (X ++ Y) = headRun X := by
  obtain ⟨a, r, rfl, ha⟩ := List.eq_append_cons_of_mem h
  rw [List.append_assoc, List.cons_append, headRun_split ha, headRun_split ha]

theorem S3Split.head {B B1 B2 : List ℕ} (h : S3Split B B1 B2) : headRun B = headRun B1 := by
  rw [h.1]; exact headRun_append _ h.mem

section
variable {D : ℕ → ℕ → ℚ} {d : ℕ → ℚ} {C L : Option ℚ}

theorem S3Split.chk {B B1 B2 : List ℕ} (h : S3Split B B1 B2) (p : List ℕ) : ChkOk D d C L p B ↔ ChkOk D d C L p B1 := by
  unfold ChkOk
  rw [if_pos h.mem, if_pos h.mem', h.head]

theorem S3Split.inner {B B1 B2 : List ℕ} (h : S3Split B B1 B2) (hi : Inner D d C L B) : Inner D d C L B1 := by
  rintro a x b e
  exact hi a x (b ++ B2) (by rw [h.1, e]; simp)

/-- The reversed segment opened at its last depot. -/
theorem S3Split.rev {B B1 B2 : List ℕ} (h : S3Split B B1 B2) : ∃ a M, B1 = a ++ M ∧ DepotEnds M ∧ DepotEnds M.reverse ∧
    0 ∉ a ∧ S3Split B.reverse (B2.reverse ++ M.reverse) a.reverse := by
  obtain ⟨e, h2, a, M, rfl, ha, hM⟩ := h
  have hM' : DepotEnds M.reverse := ⟨by rw [List.head?_reverse]; exact hM.2, by rw [List.getLast?_reverse]; exact hM.1⟩
  exact ⟨a, M, rfl, hM, hM', ha, by rw [e]; simp, by simpa using ha, B2.reverse, M.reverse, rfl, by simpa using h2, hM'⟩

/-! ## From the checker to the routes -/

theorem run_nil_free (A : List ℕ) : 0 ∉ runFrom [] A := run_free (by simp)

theorem feas_end {p E : List ℕ} (hE : E.getLast? = some 0) (hp : 0 ∉ p) (hi : Inner D d C L E)
    (hc : ChkOk D d C L p E) : Feasible D d C L (p ++ E) := by
  have := feas_step (l := []) hp hc hi (by rw [run_last_zero hE]; exact feas_nil)
  simpa using this

theorem feas_chain1 {A E : List ℕ} (hA : A.head? = some 0) (hE : E.getLast? = some 0) (iA : Inner D d C L A)
    (iE : Inner D d C L E) (h1 : ChkOk D d C L (runFrom [] A) E) : Feasible D d C L (A ++ E) :=
  feas_start hA iA (feas_end hE (run_nil_free A) iE h1)

theorem feas_chain2 {A X E : List ℕ} (hA : A.head? = some 0) (hE : E.getLast? = some 0) (iA : Inner D d C L A)
    (iX : Inner D d C L X) (iE : Inner D d C L E) (h1 : ChkOk D d C L (runFrom [] A) X)
    (h2 : ChkOk D d C L (runFrom (runFrom [] A) X) E) : Feasible D d C L (A ++ (X ++ E)) :=
  feas_start hA iA (feas_step (run_nil_free A) h1 iX (feas_end hE (run_free (run_nil_free A)) iE h2))

theorem feas_chain3 {A X Y E : List ℕ} (hA : A.head? = some 0) (hE : E.getLast? = some 0) (iA : Inner D d C L A)
    (iX : Inner D d C L X) (iY : Inner D d C L Y) (iE : Inner D d C L E) (h1 : ChkOk D d C L (runFrom [] A) X)
    (h2 : ChkOk D d C L (runFrom (runFrom [] A) X) Y) (h3 : ChkOk D d C L (runFrom (runFrom (runFrom [] A) X) Y) E) :
    Feasible D d C L (A ++ (X ++ (Y ++ E))) :=
  feas_start hA iA (feas_step (run_nil_free A) h1 iX (feas_step (run_free (run_nil_free A)) h2 iY
    (feas_end hE (run_free (run_free (run_nil_free A))) iE h3)))

theorem feas_loop0 {B B1 B2 : List ℕ} (h : S3Split B B1 B2) (iB : Inner D d C L B)
    (h1 : ChkOk D d C L (runFrom [] B) B) : Feasible D d C L (B2 ++ B1) := by
  rw [h.run] at h1
  exact feas_end h.last h.2.1 (h.inner iB) ((h.chk _).1 h1)

theorem feas_loop1 {B B1 B2 X : List ℕ} (h : S3Split B B1 B2) (iB : Inner D d C L B) (iX : Inner D d C L X)
    (h1 : ChkOk D d C L (runFrom [] B) X) (h2 : ChkOk D d C L (runFrom (runFrom [] B) X) B) :
    Feasible D d C L (B2 ++ (X ++ B1)) := by
  rw [h.run] at h1 h2
  exact feas_step h.2.1 h1 iX (feas_end h.last (run_free h.2.1) (h.inner iB) ((h.chk _).1 h2))

/-- The loop in the other direction. -/
theorem feas_loop_turn (hs : Symm D) {B2 X a M : List ℕ} (hM : DepotEnds M) (hM' : DepotEnds M.reverse) :
    Feasible D d C L (a.reverse ++ (X ++ (B2.reverse ++ M.reverse))) ↔ Feasible D d C L (B2 ++ (X.reverse ++ (a ++ M))) := by
  have e1 : a.reverse ++ (X ++ (B2.reverse ++ M.reverse)) = (a.reverse ++ (X ++ B2.reverse)) ++ (M.reverse ++ []) := by simp
  have e2 : B2 ++ (X.reverse ++ (a ++ M)) = (a.reverse ++ (X ++ B2.reverse)).reverse ++ (M ++ []) := by simp
  rw [e1, e2, feas_depots hM, feas_depots hM']
  have f : ∀ l : List ℕ, Feasible D d C L l.reverse ↔ Feasible D d C L l :=
    fun l => ⟨fun h => by simpa using feas_reverse hs h, feas_reverse hs⟩
  rw [f, f]

theorem feas_loop1_turn (hs : Symm D) {B B1 B2 X : List ℕ} (h : S3Split B B1 B2) (iB : Inner D d C L B) (iX : Inner D d C L X)
    (h1 : ChkOk D d C L (runFrom [] B.reverse) X) (h2 : ChkOk D d C L (runFrom (runFrom [] B.reverse) X) B.reverse) :
    Feasible D d C L (B2 ++ (X.reverse ++ B1)) := by
  obtain ⟨a, M, rfl, hM, hM', ha, hr⟩ := h.rev
  exact (feas_loop_turn hs hM hM').1 (feas_loop1 hr (inner_reverse hs iB) iX h1 h2)

theorem s3Parts_feas (hs : Symm D) {A B S E B1 B2 S1 S2 : List ℕ} (hA : A.head? = some 0) (hE : E.getLast? = some 0)
    (iA : Inner D d C L A) (iB : Inner D d C L B) (iS : Inner D d C L S) (iE : Inner D d C L E) {m : ℕ}
    (hm : m < 16) (h12 : m ∈ [7, 8, 9, 10, 15] → S3Split B B1 B2) (h34 : m ∈ [11, 12, 13, 14, 15] → S3Split S S1 S2)
    (hc : ∀ x ∈ s3Walk A B S E m, ChkOk D d C L x.1 x.2) :
    Feasible D d C L (s3Parts A B S E B1 B2 S1 S2 m).flatten := by
  have jB := inner_reverse hs iB
  have jS := inner_reverse hs iS
  have hcl := fun P Q => feas_close (D := D) (d := d) (C := C) (L := L) (P := P) (Q := Q) hE
  have lt : m = 0 ∨ m = 1 ∨ m = 2 ∨ m = 3 ∨ m = 4 ∨ m = 5 ∨ m = 6 ∨ m = 7 ∨ m = 8 ∨ m = 9 ∨ m = 10 ∨ m = 11 ∨ m = 12 ∨
      m = 13 ∨ m = 14 ∨ m = 15 := by omega
  rcases lt with rfl | rfl | rfl | rfl | rfl | rfl | rfl | rfl | rfl | rfl | rfl | rfl | rfl | rfl | rfl | rfl <;>
    simp only [s3Walk, List.cons_append, List.nil_append, List.mem_cons, List.not_mem_nil, or_false, forall_eq_or_imp,
      forall_eq] at hc <;>
    obtain ⟨c1, c2, c3⟩ := hc <;>
    simp only [s3Parts, List.flatten_cons, List.flatten_nil, List.append_nil, List.append_assoc, List.reverse_append]
  · exact feas_chain3 hA hE iA iB jS iE c1 c2 c3
  · exact feas_chain3 hA hE iA jS jB iE c1 c2 c3
  · exact feas_chain3 hA hE iA jB iS iE c1 c2 c3
  · exact feas_chain3 hA hE iA jB jS iE c1 c2 c3
  · exact feas_chain3 hA hE iA iS iB iE c1 c2 c3
  · exact feas_chain3 hA hE iA iS jB iE c1 c2 c3
  · exact feas_chain3 hA hE iA jS iB iE c1 c2 c3
  · rw [← List.append_assoc, hcl, List.append_assoc]
    exact ⟨feas_chain2 hA hE iA iS iE c1 c2, feas_loop0 (h12 (by decide)) iB c3⟩
  · rw [← List.append_assoc, hcl, List.append_assoc]
    exact ⟨feas_chain2 hA hE iA jS iE c1 c2, feas_loop0 (h12 (by decide)) iB c3⟩
  · rw [hcl]
    exact ⟨feas_chain1 hA hE iA iE c1, feas_loop1 (h12 (by decide)) iB iS c2 c3⟩
  · rw [hcl]
    exact ⟨feas_chain1 hA hE iA iE c1, feas_loop1_turn hs (h12 (by decide)) iB iS c2 c3⟩
  · rw [← List.append_assoc, hcl, List.append_assoc]
    exact ⟨feas_chain2 hA hE iA iB iE c1 c2, feas_loop0 (h34 (by decide)) iS c3⟩
  · rw [← List.append_assoc, hcl, List.append_assoc]
    exact ⟨feas_chain2 hA hE iA jB iE c1 c2, feas_loop0 (h34 (by decide)) iS c3⟩
  · rw [hcl]
    exact ⟨feas_chain1 hA hE iA iE c1, feas_loop1 (h34 (by decide)) iS iB c2 c3⟩
  · rw [hcl]
    exact ⟨feas_chain1 hA hE iA iE c1, feas_loop1 (h34 (by decide)) iS jB c2 c3⟩
  · have k12 := h12 (by decide)
    rw [hcl, feas_close k12.last]
    exact ⟨feas_chain1 hA hE iA iE c1, feas_loop0 k12 iB c2, feas_loop0 (h34 (by decide)) iS c3⟩

/-! ## From the routes to the checker -/

theorem mem_last {E : List ℕ} (h : E.getLast? = some 0) : 0 ∈ E := List.mem_of_getLast? h

theorem chk_end (hn : NonNegative D d C L) {p E : List ℕ} (hE : E.getLast? = some 0) (hp : 0 ∉ p)
    (h : Feasible D d C L (p ++ E)) : ChkOk D d C L p E :=
  (feas_step_conv (l := []) hn hp (by simpa using mem_last hE) (by simpa using h)).1

theorem chk_chain1 (hn : NonNegative D d C L) {A E : List ℕ} (hA : 0 ∈ A) (hE : E.getLast? = some 0)
    (h : Feasible D d C L (A ++ E)) : ChkOk D d C L (runFrom [] A) E :=
  chk_end hn hE (run_nil_free A) (feas_start_conv hA h)

theorem chk_chain2 (hn : NonNegative D d C L) {A X E : List ℕ} (hA : 0 ∈ A) (hE : E.getLast? = some 0)
    (h : Feasible D d C L (A ++ (X ++ E))) : ChkOk D d C L (runFrom [] A) X ∧ ChkOk D d C L (runFrom (runFrom [] A) X) E := by
  have h1 := feas_step_conv hn (run_nil_free A) (List.mem_append.2 (.inr (mem_last hE))) (feas_start_conv hA h)
  exact ⟨h1.1, chk_end hn hE (run_free (run_nil_free A)) h1.2⟩

theorem chk_chain3 (hn : NonNegative D d C L) {A X Y E : List ℕ} (hA : 0 ∈ A) (hE : E.getLast? = some 0)
    (h : Feasible D d C L (A ++ (X ++ (Y ++ E)))) : ChkOk D d C L (runFrom [] A) X ∧
      ChkOk D d C L (runFrom (runFrom [] A) X) Y ∧ ChkOk D d C L (runFrom (runFrom (runFrom [] A) X) Y) E := by
  have hm : 0 ∈ Y ++ E := List.mem_append.2 (.inr (mem_last hE))
  have h1 := feas_step_conv hn (run_nil_free A) (List.mem_append.2 (.inr hm)) (feas_start_conv hA h)
  have h2 := feas_step_conv hn (run_free (run_nil_free A)) hm h1.2
  exact ⟨h1.1, h2.1, chk_end hn hE (run_free (run_free (run_nil_free A))) h2.2⟩

theorem chk_loop0 (hn : NonNegative D d C L) {B B1 B2 : List ℕ} (h : S3Split B B1 B2)
    (h1 : Feasible D d C L (B2 ++ B1)) : ChkOk D d C L (runFrom [] B) B := by
  rw [h.run, h.chk]
  exact chk_end hn h.last h.2.1 h1

theorem chk_loop1 (hn : NonNegative D d C L) {B B1 B2 X : List ℕ} (h : S3Split B B1 B2)
    (h1 : Feasible D d C L (B2 ++ (X ++ B1))) :
    ChkOk D d C L (runFrom [] B) X ∧ ChkOk D d C L (runFrom (runFrom [] B) X) B := by
  rw [h.run, h.chk]
  have h2 := feas_step_conv hn h.2.1 (List.mem_append.2 (.inr h.mem)) h1
  exact ⟨h2.1, chk_end hn h.last (run_free h.2.1) h2.2⟩

theorem chk_loop1_turn (hn : NonNegative D d C L) (hs : Symm D) {B B1 B2 X : List ℕ} (h : S3Split B B1 B2)
    (h1 : Feasible D d C L (B2 ++ (X.reverse ++ B1))) :
    ChkOk D d C L (runFrom [] B.reverse) X ∧ ChkOk D d C L (runFrom (runFrom [] B.reverse) X) B.reverse := by
  obtain ⟨a, M, rfl, hM, hM', ha, hr⟩ := h.rev
  exact chk_loop1 hn hr ((feas_loop_turn hs hM hM').2 h1)

theorem s3Parts_chk (hn : NonNegative D d C L) (hs : Symm D) {A B S E B1 B2 S1 S2 : List ℕ} (hA : A.head? = some 0)
    (hE : E.getLast? = some 0) {m : ℕ} (hm : m < 16) (h12 : m ∈ [7, 8, 9, 10, 15] → S3Split B B1 B2)
    (h34 : m ∈ [11, 12, 13, 14, 15] → S3Split S S1 S2)
    (hf : Feasible D d C L (s3Parts A B S E B1 B2 S1 S2 m).flatten) :
    ∀ x ∈ s3Walk A B S E m, ChkOk D d C L x.1 x.2 := by
  have hA0 : 0 ∈ A := List.mem_of_mem_head? hA
  have hcl := fun P Q => feas_close (D := D) (d := d) (C := C) (L := L) (P := P) (Q := Q) hE
  have lt : m = 0 ∨ m = 1 ∨ m = 2 ∨ m = 3 ∨ m = 4 ∨ m = 5 ∨ m = 6 ∨ m = 7 ∨ m = 8 ∨ m = 9 ∨ m = 10 ∨ m = 11 ∨ m = 12 ∨
      m = 13 ∨ m = 14 ∨ m = 15 := by omega
  rcases lt with rfl | rfl | rfl | rfl | rfl | rfl | rfl | rfl | rfl | rfl | rfl | rfl | rfl | rfl | rfl | rfl <;>
    simp only [s3Parts, List.flatten_cons, List.flatten_nil, List.append_nil, List.append_assoc, List.reverse_append] at hf <;>
    simp only [s3Walk, List.cons_append, List.nil_append, List.mem_cons, List.not_mem_nil, or_false, forall_eq_or_imp,
      forall_eq]
  · exact chk_chain3 hn hA0 hE hf
  · exact chk_chain3 hn hA0 hE hf
  · exact chk_chain3 hn hA0 hE hf
  · exact chk_chain3 hn hA0 hE hf
  · exact chk_chain3 hn hA0 hE hf
  · exact chk_chain3 hn hA0 hE hf
  · exact chk_chain3 hn hA0 hE hf
  · rw [← List.append_assoc, hcl, List.append_assoc] at hf
    have := chk_chain2 hn hA0 hE hf.1
    exact ⟨this.1, this.2, chk_loop0 hn (h12 (by decide)) hf.2⟩
  · rw [← List.append_assoc, hcl, List.append_assoc] at hf
    have := chk_chain2 hn hA0 hE hf.1
    exact ⟨this.1, this.2, chk_loop0 hn (h12 (by decide)) hf.2⟩
  · rw [hcl] at hf
    exact ⟨chk_chain1 hn hA0 hE hf.1, chk_loop1 hn (h12 (by decide)) hf.2⟩
  · rw [hcl] at hf
    exact ⟨chk_chain1 hn hA0 hE hf.1, chk_loop1_turn hn hs (h12 (by decide)) hf.2⟩
  · rw [← List.append_assoc, hcl, List.append_assoc] at hf
    have := chk_chain2 hn hA0 hE hf.1
    exact ⟨this.1, this.2, chk_loop0 hn (h34 (by decide)) hf.2⟩
  · rw [← List.append_assoc, hcl, List.append_assoc] at hf
    have := chk_chain2 hn hA0 hE hf.1
    exact ⟨this.1, this.2, chk_loop0 hn (h34 (by decide)) hf.2⟩
  · rw [hcl] at hf
    exact ⟨chk_chain1 hn hA0 hE hf.1, chk_loop1 hn (h34 (by decide)) hf.2⟩
  · rw [hcl] at hf
    exact ⟨chk_chain1 hn hA0 hE hf.1, chk_loop1 hn (h34 (by decide)) hf.2⟩
  · have k12 := h12 (by decide)
    rw [hcl, feas_close k12.last] at hf
    exact ⟨chk_chain1 hn hA0 hE hf.1, chk_loop0 hn k12 hf.2.1, chk_loop0 hn (h34 (by decide)) hf.2.2⟩

/-! ## The change of the cost -/

theorem cost_last_zero {P Y : List ℕ} (hP : P.getLast? = some 0) : cost D (P ++ Y) = cost D P + cost D (0 :: Y) := by
  obtain ⟨P', x, rfl⟩ := exists_snoc (X := P) (by rintro rfl; cases hP)
  simp only [List.getLast?_append, List.getLast?_singleton, Option.some_or, Option.some.injEq] at hP
  subst hP
  cases Y with
  | nil => simp [cost]
  | cons y Y =>
    rw [cost_app D (by simp) (by simp)]
    simp [cost]

theorem cost_split {B B1 B2 : List ℕ} (h : S3Split B B1 B2) : cost D B = cost D B1 + cost D (0 :: B2) := by
  rw [h.1, cost_last_zero h.last]

theorem cost_zero_app (X : List ℕ) {Y : List ℕ} (hY : Y ≠ []) :
    cost D (0 :: (X ++ Y)) = cost D (0 :: X) + (D ((0 :: X).getLastD 0) (Y.headD 0) + cost D Y) := by
  rw [← List.cons_append, cost_app D (by simp) hY]

theorem split_last {B B1 B2 : List ℕ} (h : S3Split B B1 B2) : (0 :: B2).getLastD 0 = B.getLastD 0 := by
  rw [h.1]
  by_cases h2 : B2 = []
  · subst h2
    have := h.last
    rw [List.append_nil, List.getLastD_eq_getLast? (l := B1), this]; rfl
  · rw [getLastD_append h2]
    exact getLastD_append (X := [0]) h2

theorem split_head {B B1 B2 : List ℕ} (h : S3Split B B1 B2) : B1.headD 0 = B.headD 0 := by
  rw [h.1, headD_append]
  intro e
  have := h.mem
  rw [e] at this; simp at this

theorem S3Split.ne {B B1 B2 : List ℕ} (h : S3Split B B1 B2) : B1 ≠ [] := by
  intro e
  have := h.mem
  rw [e] at this; simp at this

theorem cost_loop0 {P B B1 B2 : List ℕ} (hP : P.getLast? = some 0) (h : S3Split B B1 B2) :
    cost D (P ++ (B2 ++ B1)) = cost D P + (cost D B + D (B.getLastD 0) (B.headD 0)) := by
  rw [cost_last_zero hP, cost_zero_app _ h.ne, split_last h, split_head h, cost_split h]
  ring

theorem cost_loop1 {P B B1 B2 X : List ℕ} (hP : P.getLast? = some 0) (h : S3Split B B1 B2) (hX : X ≠ []) :
    cost D (P ++ (B2 ++ (X ++ B1))) =
      cost D P + (cost D B + D (B.getLastD 0) (X.headD 0) + cost D X + D (X.getLastD 0) (B.headD 0)) := by
  rw [cost_last_zero hP, cost_zero_app _ (by simp [hX]), split_last h, headD_append hX, cost_app D hX h.ne, split_head h,
    cost_split h]
  ring

theorem last_append {P E : List ℕ} (hE : E.getLast? = some 0) : (P ++ E).getLast? = some 0 := by
  rw [List.getLast?_append, hE]; rfl

theorem s3Parts_cost (hs : Symm D) {A B S E B1 B2 S1 S2 : List ℕ} {t : S3Data} (ht : S3Tab D d C L A B S E t)
    {mv : S3Move} (hm : mv ∈ moves3optstar) (h12 : mv.idx ∈ [7, 8, 9, 10, 15] → S3Split B B1 B2)
    (h34 : mv.idx ∈ [11, 12, 13, 14, 15] → S3Split S S1 S2) :
    cost D (s3Parts A B S E B1 B2 S1 S2 mv.idx).flatten = cost D (A ++ (B ++ (S ++ E))) + s3Delta D t mv.edges := by
  have hA : A ≠ [] := by rintro rfl; exact nomatch ht.hA
  have hE : E ≠ [] := by rintro rfl; exact nomatch ht.hE
  have hB := ht.hB
  have hS := ht.hS
  have hB' : B.reverse ≠ [] := by simpa using hB
  have hS' : S.reverse ≠ [] := by simpa using hS
  have n0 := ht.nodes 0 (by decide)
  have n1 := ht.nodes 1 (by decide)
  have n2 := ht.nodes 2 (by decide)
  have n3 := ht.nodes 3 (by decide)
  have n4 := ht.nodes 4 (by decide)
  have n5 := ht.nodes 5 (by decide)
  simp only [sg, getLastD_reverse] at n0 n1 n2 n3 n4 n5
  have hP : ∀ P : List ℕ, (P ++ E).getLast? = some 0 := fun P => last_append ht.hE
  have base : cost D (A ++ (B ++ (S ++ E))) = cost D A + (D (A.getLastD 0) (B.headD 0) + (cost D B +
      (D (B.getLastD 0) (S.headD 0) + (cost D S + (D (S.getLastD 0) (E.headD 0) + cost D E))))) := by
    rw [cost_app D hA (by simp [hB]), headD_append hB, cost_app D hB (by simp [hS]), headD_append hS, cost_app D hS hE]
  have c3 : ∀ X Y : List ℕ, X ≠ [] → Y ≠ [] → cost D (A ++ (X ++ (Y ++ E))) = cost D A + (D (A.getLastD 0) (X.headD 0) + (cost D X +
      (D (X.getLastD 0) (Y.headD 0) + (cost D Y + (D (Y.getLastD 0) (E.headD 0) + cost D E))))) := by
    intro X Y hX hY
    rw [cost_app D hA (by simp [hX]), headD_append hX, cost_app D hX (by simp [hY]), headD_append hY, cost_app D hY hE]
  have c2 : ∀ X : List ℕ, X ≠ [] → cost D (A ++ X ++ E) = cost D A + (D (A.getLastD 0) (X.headD 0) + (cost D X +
      (D (X.getLastD 0) (E.headD 0) + cost D E))) := by
    intro X hX
    rw [List.append_assoc, cost_app D hA (by simp [hX]), headD_append hX, cost_app D hX hE]
  have c1 : cost D (A ++ E) = cost D A + (D (A.getLastD 0) (E.headD 0) + cost D E) := cost_app D hA hE
  have s1 := hs (B.headD 0) (S.headD 0)
  have s2 := hs (B.getLastD 0) (S.getLastD 0)
  have a1 : ∀ X Q : List ℕ, A ++ (X ++ (E ++ Q)) = (A ++ X ++ E) ++ Q := by simp
  have a2 : ∀ Q : List ℕ, A ++ (E ++ Q) = (A ++ E) ++ Q := by simp
  simp only [moves3optstar, List.mem_cons, List.not_mem_nil, or_false] at hm
  rcases hm with rfl | rfl | rfl | rfl | rfl | rfl | rfl | rfl | rfl | rfl | rfl | rfl | rfl | rfl | rfl | rfl <;>
    simp only [s3Parts, List.flatten_cons, List.flatten_nil, List.append_nil, List.append_assoc, List.reverse_append,
      s3Delta, List.map_cons, List.map_nil, List.sum_cons, List.sum_nil, n0, n1, n2, n3, n4, n5, ht.removed, base]
  · rw [c3 _ _ hB hS']; simp only [headD_reverse, getLastD_reverse, cost_reverse hs]; linarith
  · rw [c3 _ _ hS' hB']; simp only [headD_reverse, getLastD_reverse, cost_reverse hs]; linarith
  · rw [c3 _ _ hB' hS]; simp only [headD_reverse, getLastD_reverse, cost_reverse hs]; linarith
  · rw [c3 _ _ hB' hS']; simp only [headD_reverse, getLastD_reverse, cost_reverse hs]; linarith
  · rw [c3 _ _ hS hB]; linarith
  · rw [c3 _ _ hS hB']; simp only [headD_reverse, getLastD_reverse, cost_reverse hs]; linarith
  · rw [c3 _ _ hS' hB]; simp only [headD_reverse, getLastD_reverse, cost_reverse hs]; linarith
  · rw [a1, cost_loop0 (hP _) (h12 (by decide)), c2 _ hS]; linarith
  · rw [a1, cost_loop0 (hP _) (h12 (by decide)), c2 _ hS']
    simp only [headD_reverse, getLastD_reverse, cost_reverse hs]; linarith
  · rw [a2, cost_loop1 (hP _) (h12 (by decide)) hS, c1]; linarith
  · rw [a2, cost_loop1 (hP _) (h12 (by decide)) hS', c1]
    simp only [headD_reverse, getLastD_reverse, cost_reverse hs]
    have := hs (S.headD 0) (B.headD 0)
    have := hs (S.getLastD 0) (B.getLastD 0)
    linarith
  · rw [a1, cost_loop0 (hP _) (h34 (by decide)), c2 _ hB]; linarith
  · rw [a1, cost_loop0 (hP _) (h34 (by decide)), c2 _ hB']
    simp only [headD_reverse, getLastD_reverse, cost_reverse hs]; linarith
  · rw [a2, cost_loop1 (hP _) (h34 (by decide)) hB, c1]; linarith
  · rw [a2, cost_loop1 (hP _) (h34 (by decide)) hB', c1]
    simp only [headD_reverse, getLastD_reverse, cost_reverse hs]; linarith
  · have k12 := h12 (by decide)
    have e : A ++ (E ++ (B2 ++ (B1 ++ (S2 ++ S1)))) = ((A ++ E) ++ (B2 ++ B1)) ++ (S2 ++ S1) := by simp
    rw [e, cost_loop0 (by rw [← List.append_assoc]; exact last_append k12.last) (h34 (by decide)),
      cost_loop0 (hP _) k12, c1]
    linarith

end

end Verif
