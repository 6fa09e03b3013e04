import Verif.Lemmas.StarCase
import Verif.Model.Lr3opt
import Verif.Spec.Relaxed

/-! # Lemmas for the relaxed moves of Stewart and Golden -/

namespace Verif
open Spec

theorem overrun_falsy {lim : Option ℚ} (h : truthy lim ≠ true) (e x : ℚ) : overrun lim e x = 0 := by
  cases lim with
  | none => rfl
  | some c =>
    have : c = 0 := by simpa [truthy] using h
    simp [overrun, this]

theorem overrun_nonneg (lim : Option ℚ) {e : ℚ} (he : 0 ≤ e) (x : ℚ) : 0 ≤ overrun lim e x := by
  cases lim with
  | none => exact le_refl _
  | some c =>
    simp only [overrun]
    split
    · rename_i h; linarith [h.2]
    · exact le_refl _

/-- The multipliers belong to the limits. Nothing is negative. -/
structure LamOk (C L : Option ℚ) (lam : Lambdas) : Prop where
  hc : truthy C = true → lam.lc ≠ none
  hl : truthy L = true → lam.ll ≠ none
  c0 : 0 ≤ lam.lc.getD 0
  l0 : 0 ≤ lam.ll.getD 0
  cap : ∀ c, C = some c → 0 ≤ c
  len : ∀ c, L = some c → 0 ≤ c

theorem overrun_zero {lim : Option ℚ} (h : ∀ c, lim = some c → 0 ≤ c) {e x : ℚ} (hx : x ≤ e) : overrun lim e x = 0 := by
  cases lim with
  | none => rfl
  | some c =>
    have := h c rfl
    rw [overrun, if_neg]
    rintro ⟨_, h2⟩
    linarith

theorem C_EPS_pos : 0 < C_EPS := by unfold C_EPS; norm_num

theorem lrPen_ok {lim lam : Option ℚ} (h : truthy lim = true → lam ≠ none) (e : ℚ) {x y : ℚ} (hxy : truthy lim = true → x = y) :
    lrPen lim lam e x = .ok (lam.getD 0 * overrun lim e y) := by
  unfold lrPen
  by_cases ht : truthy lim = true
  · obtain rfl := hxy ht
    cases lim with
    | none => simp [truthy] at ht
    | some c =>
      cases lam with
      | none => exact absurd rfl (h ht)
      | some l =>
        have hc : c ≠ 0 := by simpa [truthy] using ht
        simp only [exceeds, overrun, Option.getD_some]
        by_cases hx : c < x - e
        · simp [hc, hx, mul_comm]
        · simp [hc, hx]
  · have : exceeds lim e x = false := (exceeds_iff lim e x).2 (within_of_not_truthy ht _ _)
    simp [this, overrun_falsy ht]

section
variable {D : ℕ → ℕ → ℚ} {d : ℕ → ℚ} {C L : Option ℚ} {lam : Lambdas}

/-- The price of a route with the given multipliers. -/
def lrPay (D : ℕ → ℕ → ℚ) (d : ℕ → ℚ) (C L : Option ℚ) (lam : Lambdas) (b : List ℕ) : ℚ :=
  penalty D d C L (lam.lc.getD 0) (lam.ll.getD 0) b

theorem lrPay_nonneg (h : LamOk C L lam) (b : List ℕ) : 0 ≤ lrPay D d C L lam b := by
  unfold lrPay penalty
  have h1 := overrun_nonneg C (e := C_EPS) (by unfold C_EPS; norm_num) (demand d b)
  have h2 := overrun_nonneg L (e := S_EPS) S_EPS_pos.le (cost D (wrap b))
  exact add_nonneg (mul_nonneg h.c0 h1) (mul_nonneg h.l0 h2)

/-- What the run `p` pays when it reaches a segment with a depot. -/
def chkPen (D : ℕ → ℕ → ℚ) (d : ℕ → ℚ) (C L : Option ℚ) (lam : Lambdas) (x : List ℕ × List ℕ) : ℚ :=
  if 0 ∈ x.2 then lrPay D d C L lam (x.1 ++ headRun x.2) else 0

theorem lrRoute_ok (h : LamOk C L lam) {rd rl : ℚ} {b : List ℕ} (h1 : truthy C = true → rd = demand d b)
    (h2 : truthy L = true → rl = cost D (wrap b)) : lrRoute C L lam rd rl = .ok (lrPay D d C L lam b) := by
  unfold lrRoute
  rw [lrPen_ok h.hc _ h1, lrPen_ok h.hl _ h2]
  rfl

/-- The sums of the loop where an edge ends. -/
def LrSum (D : ℕ → ℕ → ℚ) (d : ℕ → ℚ) (C L : Option ℚ) (p T : List ℕ) (rd rl : ℚ) : Prop :=
  (truthy C = true → rd = if 0 ∈ T then demand d (p ++ headRun T) else demand d (p ++ T)) ∧
  (truthy L = true → rl = if 0 ∈ T then cost D (wrap (p ++ headRun T)) else cost D (0 :: (p ++ T)))

/-- The sums of the loop where an edge starts. -/
def LrRun (D : ℕ → ℕ → ℚ) (d : ℕ → ℚ) (C L : Option ℚ) (p T : List ℕ) (rd rl : ℚ) : Prop :=
  (truthy C = true → rd = demand d p) ∧ (truthy L = true → rl = cost D (0 :: p)) ∧ (0 :: p).getLastD 0 = T.getLastD 0

theorem LrRun.edge (hs : Symm D) {A B S E : List ℕ} {t : S3Data} (h : S3Tab D d C L A B S E t) {e f : ℕ} (he : e < 6) (hf : f < 6)
    {p : List ℕ} {rd rl : ℚ} (hr : LrRun D d C L p (sg A B S E e) rd rl) :
    LrSum D d C L p (sg A B S E f).reverse (if truthy C then rd + t.cum_d f else rd)
      (if truthy L then rl + (D (t.end_n e) (t.end_n f) + t.cum_l f) else rl) := by
  obtain ⟨h1, h2, h3⟩ := hr
  have hT : (sg A B S E f).reverse ≠ [] := by simpa using h.sg_ne f
  have hTr : (sg A B S E f).reverse.reverse = sg A B S E f := by simp
  constructor
  · intro hC
    rw [if_pos hC, h.cumD hC _ hf, h1 hC, ← endD_rev, hTr]
  · intro hL
    rw [if_pos hL, h.cumL hL _ hf, h2 hL, ← endL_rev hs hT, h.nodes _ he, h.nodes _ hf, h3, hTr, headD_reverse]

theorem LrRun.start {A B S E : List ℕ} {t : S3Data} (h : S3Tab D d C L A B S E t) {e : ℕ} (he : e < 6) (h0 : 0 ∈ sg A B S E e)
    {rd rl : ℚ} (hc : truthy C = true → rd = t.cum_d e) (hl : truthy L = true → rl = t.cum_l e) :
    LrRun D d C L (runFrom [] (sg A B S E e)) (sg A B S E e) rd rl := by
  refine ⟨fun hC => by rw [hc hC, h.cumD hC _ he]; rfl, fun hL => by rw [hl hL, h.cumL hL _ he, endL, if_pos h0],
    run_last _ (h.sg_ne _)⟩

theorem LrSum.next {A B S E : List ℕ} {t : S3Data} (h : S3Tab D d C L A B S E t) {p : List ℕ} {f e : ℕ} {rd rl : ℚ}
    (hr : LrSum D d C L p (sg A B S E f).reverse rd rl) (h0 : 0 ∉ sg A B S E f)
    (he : sg A B S E e = (sg A B S E f).reverse) : LrRun D d C L (p ++ (sg A B S E f).reverse) (sg A B S E e) rd rl := by
  have h0' : 0 ∉ (sg A B S E f).reverse := by simpa using h0
  refine ⟨fun hC => by rw [hr.1 hC, if_neg h0'], fun hL => by rw [hr.2 hL, if_neg h0'], ?_⟩
  rw [he, ← List.cons_append, getLastD_append (by simpa using h.sg_ne f)]

/-- The loop over the edges, from the end of an edge on. -/
theorem lrLoop_next (hs : Symm D) (hl : LamOk C L lam) {A B S E : List ℕ} {t : S3Data} (h : S3Tab D d C L A B S E t) {best : ℚ}
    {e f g x : ℕ} (he : e < 6) (hg : g < 6) (es : List (ℕ × ℕ)) {p p' : List ℕ} (hn : S3Next t A B S E p p' f e)
    {δ rd rl : ℚ} (hr : LrSum D d C L p (sg A B S E f).reverse rd rl) :
    (best ≤ δ + chkPen D d C L lam (p, (sg A B S E f).reverse) + S_EPS ∧
      lrLoop D C L lam t best ((e, g) :: es) (some (x, f)) δ rd rl = .ok none) ∨
    ∃ rd' rl', LrSum D d C L p' (sg A B S E g).reverse rd' rl' ∧
      lrLoop D C L lam t best ((e, g) :: es) (some (x, f)) δ rd rl =
        lrLoop D C L lam t best es (some (e, g)) (δ + chkPen D d C L lam (p, (sg A B S E f).reverse)) rd' rl' := by
  obtain ⟨r, h1, h2, h3⟩ := hn
  rw [lrLoop]
  simp only [h1]
  cases r with
  | true =>
    obtain ⟨⟨k1, rfl⟩, k2⟩ := h2 rfl
    have k2' : 0 ∈ (sg A B S E f).reverse := by simpa using k2
    have hp : lrRoute C L lam rd rl = .ok (lrPay D d C L lam (p ++ headRun (sg A B S E f).reverse)) :=
      lrRoute_ok hl (fun hC => by rw [hr.1 hC, if_pos k2']) (fun hL => by rw [hr.2 hL, if_pos k2'])
    rw [chkPen, if_pos k2', hp]
    simp only
    by_cases hb : best ≤ δ + lrPay D d C L lam (p ++ headRun (sg A B S E f).reverse) + S_EPS
    · left; exact ⟨hb, by rw [if_pos hb]⟩
    · right
      rw [if_neg hb]
      exact ⟨_, _, LrRun.edge hs h he hg (LrRun.start h he k1 (fun hC => if_pos hC) (fun hL => if_pos hL)), rfl⟩
  | false =>
    obtain ⟨k1, rfl, k2⟩ := h3 rfl
    have k1' : 0 ∉ (sg A B S E f).reverse := by simpa using k1
    right
    rw [chkPen, if_neg k1', add_zero]
    exact ⟨_, _, LrRun.edge hs h he hg (hr.next h k1 k2), rfl⟩

/-- The last edge ends in a segment with a depot. -/
theorem lrLoop_end (hl : LamOk C L lam) {t : S3Data} {best : ℚ} {prev : Option (ℕ × ℕ)} {p T : List ℕ} {δ rd rl : ℚ}
    (hr : LrSum D d C L p T rd rl) (h0 : 0 ∈ T) : lrLoop D C L lam t best [] prev δ rd rl =
      .ok (if δ + chkPen D d C L lam (p, T) + S_EPS < best then some (δ + chkPen D d C L lam (p, T)) else none) := by
  have hp : lrRoute C L lam rd rl = .ok (lrPay D d C L lam (p ++ headRun T)) :=
    lrRoute_ok hl (fun hC => by rw [hr.1 hC, if_pos h0]) (fun hL => by rw [hr.2 hL, if_pos h0])
  rw [lrLoop, hp, chkPen, if_pos h0]
  simp only
  split <;> rfl

theorem chkPen_nonneg (hl : LamOk C L lam) (x : List ℕ × List ℕ) : 0 ≤ chkPen D d C L lam x := by
  unfold chkPen
  split
  · exact lrPay_nonneg hl _
  · exact le_refl _

/-- The loop over three edges adds what the new routes pay, and gives up only if that is too much. -/
theorem lrLoop_three (hs : Symm D) (hl : LamOk C L lam) {A B S E : List ℕ} {t : S3Data} (h : S3Tab D d C L A B S E t)
    {f1 e2 f2 e3 f3 : ℕ} (hf1 : f1 < 6) (he2 : e2 < 6) (hf2 : f2 < 6) (he3 : e3 < 6) (hf3 : f3 < 6) {p2 p3 : List ℕ}
    (h2 : S3Next t A B S E (runFrom [] A) p2 f1 e2) (h3 : S3Next t A B S E p2 p3 f2 e3) (h0 : 0 ∈ sg A B S E f3)
    (best δ : ℚ) (hδ : δ + S_EPS < best) :
    let δ' := δ + ([(runFrom [] A, (sg A B S E f1).reverse), (p2, (sg A B S E f2).reverse),
        (p3, (sg A B S E f3).reverse)].map (chkPen D d C L lam)).sum
    lrLoop D C L lam t best [(0, f1), (e2, f2), (e3, f3)] none δ 0 0 = .ok (if δ' + S_EPS < best then some δ' else none) := by
  intro δ'
  have hA0 : 0 ∈ A := List.mem_of_mem_head? h.hA
  have n1 := chkPen_nonneg (D := D) (d := d) hl (runFrom [] A, (sg A B S E f1).reverse)
  have n2 := chkPen_nonneg (D := D) (d := d) hl (p2, (sg A B S E f2).reverse)
  have n3 := chkPen_nonneg (D := D) (d := d) hl (p3, (sg A B S E f3).reverse)
  have e' : δ' = δ + chkPen D d C L lam (runFrom [] A, (sg A B S E f1).reverse) +
      chkPen D d C L lam (p2, (sg A B S E f2).reverse) + chkPen D d C L lam (p3, (sg A B S E f3).reverse) := by
    simp only [δ', List.map_cons, List.map_nil, List.sum_cons, List.sum_nil]; ring
  have z : lrRoute C L lam 0 0 = .ok 0 := by
    unfold lrRoute
    rw [lrPen_ok hl.hc _ (fun _ => rfl), lrPen_ok hl.hl _ (fun _ => rfl), overrun_zero hl.cap C_EPS_pos.le,
      overrun_zero hl.len S_EPS_pos.le]
    simp [lrAdd]
  rw [lrLoop]
  simp only [s3Depot, if_true, z, add_zero]
  rw [if_neg (not_le.2 hδ)]
  have r1 := LrRun.edge hs h (e := 0) (by decide) hf1 (LrRun.start h (e := 0) (by decide) (by simpa [sg] using hA0)
    (rd := if truthy C then t.cum_d 0 else 0) (rl := if truthy L then t.cum_l 0 else 0) (fun hC => if_pos hC) (fun hL => if_pos hL))
  rcases lrLoop_next hs hl h (best := best) (x := 0) he2 hf2 [(e3, f3)] h2 (δ := δ) r1 with ⟨k1, k2⟩ | ⟨rd2, rl2, r2, k2⟩
  · rw [k2, if_neg]
    rw [e']; linarith
  rw [k2]
  rcases lrLoop_next hs hl h (best := best) (x := e2) he3 hf3 [] h3 (δ := δ + chkPen D d C L lam (runFrom [] A, (sg A B S E f1).reverse)) r2
    with ⟨k1, k3⟩ | ⟨rd3, rl3, r3, k3⟩
  · rw [k3, if_neg]
    rw [e']; linarith
  rw [k3, lrLoop_end hl r3 (by simpa using h0), e']


/-! ## The penalties that are lifted -/

theorem lrTrue_iff {B S : List ℕ} {t : S3Data} {i j k : ℕ} (h : S3Pos B S t i j k) :
    (lrTrue t.l12 = decide (0 ∈ B)) ∧ lrTrue t.l34 = decide (0 ∈ S) := by
  constructor
  · cases hl : t.l12 with
    | none => simpa [lrTrue] using h.no12.1 hl
    | some p =>
      have hp := (h.in12 p hl).1
      have : 0 ∈ B := by by_contra hb; rw [h.no12.2 hb] at hl; exact nomatch hl
      have h0 : p ≠ 0 := by omega
      simp [lrTrue, this, h0]
  · cases hl : t.l34 with
    | none => simpa [lrTrue] using h.no34.1 hl
    | some p =>
      have hp := (h.in34 p hl).1
      have : 0 ∈ S := by by_contra hb; rw [h.no34.2 hb] at hl; exact nomatch hl
      have h0 : p ≠ 0 := by omega
      simp [lrTrue, this, h0]

theorem lrLifted_ok {lim lm : Option ℚ} (hlm : truthy lim = true → lm ≠ none) (e : ℚ) {cum w : ℕ → ℚ} {B S : List ℕ} {t : S3Data}
    {i j k : ℕ} (hp : S3Pos B S t i j k) {v1 v2 v3 u1 u2 : ℚ}
    (h1 : truthy lim = true → cum 0 + cum 1 + w 0 = if 0 ∈ B then v1 else u1)
    (h2 : truthy lim = true → (if 0 ∈ B then cum 2 + cum 3 + w 1 else u1 + (cum 3 + w 1)) = if 0 ∈ S then v2 else u2)
    (h3 : truthy lim = true → (if 0 ∈ S then cum 4 + cum 5 + w 2 else u2 + (cum 5 + w 2)) = v3) :
    lrLifted lim lm e cum w t = .ok ((if 0 ∈ B then lm.getD 0 * overrun lim e v1 else 0) +
      (if 0 ∈ S then lm.getD 0 * overrun lim e v2 else 0) + lm.getD 0 * overrun lim e v3) := by
  unfold lrLifted
  by_cases ht : truthy lim = true
  · rw [if_pos ht]
    obtain ⟨t1, t2⟩ := lrTrue_iff hp
    have pn := fun x => lrPen_ok hlm e (x := x) (y := x) (fun _ => rfl)
    have h1 := h1 ht
    have h2 := h2 ht
    have h3 := h3 ht
    simp only [t1, t2, decide_eq_true_eq]
    by_cases hB : 0 ∈ B <;> by_cases hS : 0 ∈ S <;>
      simp only [hB, hS, if_true, if_false] at h1 h2 h3 ⊢ <;> simp only [h1, h2, h3, pn, lrAdd]
  · rw [if_neg ht, overrun_falsy ht, overrun_falsy ht, overrun_falsy ht]
    simp

/-- The old way to connect the segments. -/
def s3Walk0 (A B S E : List ℕ) : List (List ℕ × List ℕ) :=
  [(runFrom [] A, B), (runFrom (runFrom [] A) B, S), (runFrom (runFrom (runFrom [] A) B) S, E)]

theorem lrRemoved_ok (hs : Symm D) (hl : LamOk C L lam) {A B S E : List ℕ} {t : S3Data} (h : S3Tab D d C L A B S E t) {i j k : ℕ}
    (hp : S3Pos B S t i j k) :
    lrRemoved D C L lam t = .ok (((s3Walk0 A B S E).map (chkPen D d C L lam)).sum) := by
  have hA0 : 0 ∈ A := List.mem_of_mem_head? h.hA
  have hE0 : 0 ∈ E := List.mem_of_getLast? h.hE
  have hE : E ≠ [] := by rintro rfl; simp at hE0
  set a := runFrom [] A with ha
  set q := runFrom a B with hq
  set q' := runFrom q S with hq'
  have q1 : (0 ∈ B → q = runFrom [] B) ∧ (0 ∉ B → q = a ++ B) := ⟨fun hb => runFrom_mem _ hb, fun hb => runFrom_zerofree _ hb⟩
  have q2 : (0 ∈ S → q' = runFrom [] S) ∧ (0 ∉ S → q' = q ++ S) := ⟨fun hb => runFrom_mem _ hb, fun hb => runFrom_zerofree _ hb⟩
  have l0 : (0 :: a).getLastD 0 = A.getLastD 0 := run_last _ (by rintro rfl; simp at hA0)
  have l1 : (0 :: q).getLastD 0 = B.getLastD 0 := run_last _ h.hB
  have l2 : (0 :: q').getLastD 0 = S.getLastD 0 := run_last _ h.hS
  have c1 : lrLifted C lam.lc C_EPS t.cum_d (fun _ => 0) t = _ := lrLifted_ok hl.hc C_EPS hp
    (v1 := demand d (a ++ headRun B)) (u1 := demand d (a ++ B)) (v2 := demand d (q ++ headRun S)) (u2 := demand d (q ++ S))
    (v3 := demand d (q' ++ headRun E))
    (fun hC => by
      rw [← endD_rev, h.cumD hC 0 (by decide), h.cumD hC 1 (by decide), add_zero]; rfl)
    (fun hC => by
      rw [← endD_rev, h.cumD hC 2 (by decide), h.cumD hC 3 (by decide), add_zero, add_zero]
      by_cases hb : 0 ∈ B
      · rw [if_pos hb, q1.1 hb]; rfl
      · rw [if_neg hb, q1.2 hb]; rfl)
    (fun hC => by
      have := endD_rev d E q'
      rw [if_pos hE0] at this
      rw [← this, h.cumD hC 4 (by decide), h.cumD hC 5 (by decide), add_zero, add_zero]
      by_cases hb : 0 ∈ S
      · rw [if_pos hb, q2.1 hb]; rfl
      · rw [if_neg hb, q2.2 hb]; rfl)
  have c2 : lrLifted L lam.ll S_EPS t.cum_l (fun i => D (t.end_n (2 * i)) (t.end_n (2 * i + 1))) t = _ := lrLifted_ok hl.hl S_EPS hp
    (v1 := cost D (wrap (a ++ headRun B))) (u1 := cost D (0 :: (a ++ B))) (v2 := cost D (wrap (q ++ headRun S)))
    (u2 := cost D (0 :: (q ++ S))) (v3 := cost D (wrap (q' ++ headRun E)))
    (fun hL => by
      rw [← endL_rev hs h.hB, h.cumL hL 0 (by decide), h.cumL hL 1 (by decide), h.nodes 0 (by decide), h.nodes 1 (by decide), l0]
      simp only [sg, endL, if_pos hA0, getLastD_reverse]
      ring)
    (fun hL => by
      rw [← endL_rev hs h.hS, h.cumL hL 2 (by decide), h.cumL hL 3 (by decide), h.nodes 2 (by decide), h.nodes 3 (by decide), l1]
      by_cases hb : 0 ∈ B
      · rw [if_pos hb, q1.1 hb]
        simp only [sg, getLastD_reverse]
        rw [endL, if_pos hb]
        ring
      · rw [if_neg hb, q1.2 hb]
        simp only [sg, getLastD_reverse]
        ring)
    (fun hL => by
      have := endL_rev hs hE q'
      rw [if_pos hE0] at this
      rw [← this, h.cumL hL 4 (by decide), h.cumL hL 5 (by decide), h.nodes 4 (by decide), h.nodes 5 (by decide), l2]
      by_cases hb : 0 ∈ S
      · rw [if_pos hb, q2.1 hb]
        simp only [sg, getLastD_reverse]
        rw [endL, if_pos hb]
        ring
      · rw [if_neg hb, q2.2 hb]
        simp only [sg, getLastD_reverse]
        ring)
  unfold lrRemoved
  rw [c1, c2]
  simp only [lrAdd, s3Walk0, List.map_cons, List.map_nil, List.sum_cons, List.sum_nil, chkPen, lrPay, penalty, if_pos hE0]
  congr 1
  by_cases hB : 0 ∈ B <;> by_cases hS : 0 ∈ S <;> simp only [hB, hS, if_true, if_false] <;> ring

/-- What the checker of the relaxed moves gives. -/
theorem check_lr3opt_regular (hs : Symm D) (hl : LamOk C L lam) {sol : List ℕ} {c : S3Cand}
    {A B S E B1 B2 S1 S2 : List ℕ} (h : S3Case D d C L sol c A B S E B1 B2 S1 S2) (bd : ℚ) :
    let δ := s3Delta D c.t c.mv.edges - ((s3Walk0 A B S E).map (chkPen D d C L lam)).sum +
      ((s3Walk A B S E c.mv.idx).map (chkPen D d C L lam)).sum
    check_lr3opt_move D C L lam bd c.mv.edges c.t = .ok (if δ + S_EPS < bd then some δ else none) := by
  intro δ
  obtain ⟨i, j, k, hp⟩ := h.pos
  obtain ⟨f1, e2, f2, e3, f3, p2, p3, l1, l2, l3, l4, l5, he, n1, n2, h0, hw⟩ :=
    s3Move_next h.tab hp h.mem (fun hh => (h.h12 hh).mem') (fun hh => (h.h34 hh).mem')
  unfold check_lr3opt_move
  rw [lrRemoved_ok hs hl h.tab hp]
  simp only
  by_cases hb : s3Delta D c.t c.mv.edges - ((s3Walk0 A B S E).map (chkPen D d C L lam)).sum + S_EPS < bd
  · rw [if_pos hb]
    have := lrLoop_three hs hl h.tab l1 l2 l3 l4 l5 n1 n2 h0 bd _ hb
    simp only at this
    rw [← he, ← hw] at this
    exact this
  · rw [if_neg hb, if_neg]
    have : 0 ≤ ((s3Walk A B S E c.mv.idx).map (chkPen D d C L lam)).sum := by
      rw [hw]
      simp only [List.map_cons, List.map_nil, List.sum_cons, List.sum_nil]
      have n1 := chkPen_nonneg (D := D) (d := d) hl (runFrom [] A, (sg A B S E f1).reverse)
      have n2 := chkPen_nonneg (D := D) (d := d) hl (p2, (sg A B S E f2).reverse)
      have n3 := chkPen_nonneg (D := D) (d := d) hl (p3, (sg A B S E f3).reverse)
      linarith
    simp only [δ]
    linarith

end
end Verif
