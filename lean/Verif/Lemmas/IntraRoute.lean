import Verif.Lemmas.Scan
import Verif.Spec.Moves
import Mathlib.Data.List.Nodup

/-! # Lemmas for the intra-route operators -/

namespace Verif
open Spec

/-- The answer built from the state of a search. -/
def answer {M : Type} (res : M → List ℕ) (s : Search M) : Option (List ℕ × ℚ) :=
  match s with
  | (some m, x) => some (res m, x)
  | (none, _) => none

theorem moveOk_of_scan {M : Type} {D : ℕ → ℕ → ℚ} {Nb Nc : List ℕ → List ℕ → Prop} {st : LSOPT}
    {b0 : ℚ} {route : List ℕ} {cands : List (M × ℚ)} {res : M → List ℕ}
    (hs : ∀ m x, (m, x) ∈ cands → Nb route (res m) ∧ cost D (res m) = cost D route + x)
    (hc : ∀ r'', Nc route r'' → ∃ c ∈ cands, c.2 = cost D r'' - cost D route) :
    MoveOkFor D Nb Nc (st == .BEST_ACCEPT) b0 route (answer res (scan st cands (none, b0)).1) := by
  rcases scan_cases st cands b0 with ⟨he, hn⟩ | ⟨m, x, he, hm, hx, hb⟩
  · rw [he]
    intro r'' hr
    obtain ⟨c, hc1, hc2⟩ := hc r'' hr
    rw [← hc2]; exact hn c hc1
  · rw [he]
    obtain ⟨h1, h2⟩ := hs m x hm
    refine ⟨h1, h2, hx, ?_⟩
    intro hbest r'' hr
    have hbest : st = .BEST_ACCEPT := by simpa using hbest
    obtain ⟨c, hc1, hc2⟩ := hc r'' hr
    rw [← hc2]; exact hb hbest c hc1

theorem initDelta_eq (bd : Option ℚ) : initDelta bd = bd.getD 0 := by cases bd <;> rfl

/-! ## 2-opt -/

def cands2 (route : List ℕ) (D : ℕ → ℕ → ℚ) : List ((ℕ × ℕ) × ℚ) :=
  (pyRange 0 (route.length - 1)).flatMap fun i =>
    (pyRange (i + 1) (route.length - 1)).flatMap fun j =>
      [((i, j), D (nth route i) (nth route j) + D (nth route (i + 1)) (nth route (j + 1))
        - D (nth route i) (nth route (i + 1)) - D (nth route j) (nth route (j + 1)))]

def res2 (route : List ℕ) (m : ℕ × ℕ) : List ℕ :=
  route.take (m.1 + 1) ++ sliceRev route m.2 m.1 ++ route.drop (m.2 + 1)

theorem do_2opt_eq (route : List ℕ) (D : ℕ → ℕ → ℚ) (st : LSOPT) (bd : Option ℚ) :
    do_2opt_move route D st bd
      = .ok (answer (res2 route) (scan st (cands2 route D) (none, initDelta bd)).1) := by
  unfold do_2opt_move
  extract_lets rN
  subst rN
  rw [forBreak_scan st (pyRange 0 (route.length - 1)) (fun i =>
    (pyRange (i + 1) (route.length - 1)).flatMap fun j =>
      [((i, j), D (nth route i) (nth route j) + D (nth route (i + 1)) (nth route (j + 1))
        - D (nth route i) (nth route (i + 1)) - D (nth route j) (nth route (j + 1)))])]
  · unfold cands2
    generalize scan st _ (none, initDelta bd) = r
    obtain ⟨⟨mv, x⟩, b⟩ := r
    cases mv with
    | none => rfl
    | some m => obtain ⟨i, j⟩ := m; rfl
  · intro i hi s
    rw [mem_pyRange] at hi
    refine forBreak_scan st _ _ _ ?_ s
    intro j hj s
    rw [mem_pyRange] at hj
    rw [idx_ok (by omega), idx_ok (by omega), idx_ok (by omega), idx_ok (by omega), scan_single]
    rfl

theorem mem_cands2 {route : List ℕ} {D : ℕ → ℕ → ℚ} {c : (ℕ × ℕ) × ℚ} :
    c ∈ cands2 route D ↔ ∃ i j, i < j ∧ j + 1 < route.length ∧
      c = ((i, j), D (nth route i) (nth route j) + D (nth route (i + 1)) (nth route (j + 1))
        - D (nth route i) (nth route (i + 1)) - D (nth route j) (nth route (j + 1))) := by
  unfold cands2
  simp only [List.mem_flatMap, mem_pyRange, List.mem_singleton]
  constructor
  · rintro ⟨i, hi, j, hj, rfl⟩; exact ⟨i, j, by omega, by omega, rfl⟩
  · rintro ⟨i, j, hij, hj, rfl⟩; exact ⟨i, by omega, j, by omega, rfl⟩

/-- A non-empty list has a first and a last element. -/
theorem ends {B : List ℕ} (h : B ≠ []) : ∃ x y, B.head? = some x ∧ B.getLast? = some y :=
  ⟨B.head h, B.getLast h, List.head?_eq_some_head h, List.getLast?_eq_some_getLast h⟩

theorem getLast_append_ne {X E : List ℕ} (h : E ≠ []) : (X ++ E).getLast? = E.getLast? := by
  obtain ⟨_, y, _, hy⟩ := ends h
  rw [List.getLast?_append, hy]; rfl

theorem cost_2opt {D : ℕ → ℕ → ℚ} (hD : Symm D) {A B C : List ℕ} {a b c d : ℕ}
    (ha : A.getLast? = some a) (hb : B.head? = some b) (hc : B.getLast? = some c)
    (hd : C.head? = some d) :
    cost D (A ++ B.reverse ++ C) = cost D (A ++ B ++ C) + (D a c + D b d - D a b - D c d) := by
  have hBne : B ≠ [] := by rintro rfl; simp at hb
  have h1 : (A ++ B).getLast? = some c := by rw [List.getLast?_append]; simp [hc]
  have h2 : (A ++ B.reverse).getLast? = some b := by
    rw [List.getLast?_append]; simp [hb]
  rw [cost_join h1 hd, cost_join ha hb, cost_join h2 hd,
    cost_join ha (b := c) (by rw [List.head?_reverse, hc]), cost_reverse hD]
  ring

/-- Positions of the parts of a route cut into three. -/
theorem nth_parts3 {A B C : List ℕ} {a b c d : ℕ} (ha : A.getLast? = some a)
    (hb : B.head? = some b) (hc : B.getLast? = some c) (hd : C.head? = some d) :
    nth (A ++ B ++ C) (A.length - 1) = a ∧ nth (A ++ B ++ C) A.length = b ∧
    nth (A ++ B ++ C) (A.length + B.length - 1) = c ∧ nth (A ++ B ++ C) (A.length + B.length) = d := by
  have h1 : (A ++ B).getLast? = some c := by rw [List.getLast?_append]; simp [hc]
  have h2 : (B ++ C).head? = some b := by rw [List.head?_append]; simp [hb]
  refine ⟨?_, ?_, ?_, ?_⟩
  · rw [List.append_assoc]; exact nth_append_last ha
  · rw [List.append_assoc]; exact nth_append_head h2
  · have := nth_append_last (B := C) h1; simpa using this
  · have := nth_append_head (A := A ++ B) hd; simpa using this

theorem ne_nil_length {A : List ℕ} (h : A ≠ []) : 0 < A.length := List.length_pos_of_ne_nil h

theorem cands2_sound {route : List ℕ} {D : ℕ → ℕ → ℚ} (hD : Symm D) (m : ℕ × ℕ) (x : ℚ)
    (h : (m, x) ∈ cands2 route D) :
    Nb2opt route (res2 route m) ∧ cost D (res2 route m) = cost D route + x := by
  obtain ⟨i, j, hij, hj, he⟩ := mem_cands2.1 h
  simp only [Prod.mk.injEq] at he
  obtain ⟨rfl, rfl⟩ := he
  have hsp : route.take (i + 1) ++ slice route (i + 1) (j + 1) ++ route.drop (j + 1) = route :=
    split3 (by omega)
  have ha := take_getLast (l := route) (i := i) (by omega)
  have hb := slice_head (l := route) (i := i + 1) (j := j + 1) (by omega) (by omega)
  have hc := slice_getLast (l := route) (i := i + 1) (j := j) (by omega) (by omega)
  have hd := drop_head (l := route) (i := j + 1) (by omega)
  refine ⟨⟨route.take (i + 1), slice route (i + 1) (j + 1), route.drop (j + 1), ?_, ?_, ?_,
    hsp.symm, rfl⟩, ?_⟩
  · intro h; rw [h] at ha; simp at ha
  · intro h; rw [h] at hb; simp at hb
  · intro h; rw [h] at hd; simp at hd
  · have := cost_2opt hD ha hb hc hd
    rw [hsp] at this
    exact this

theorem cands2_complete {D : ℕ → ℕ → ℚ} (hD : Symm D) {A B C : List ℕ} (hA : A ≠ [])
    (hB : B ≠ []) (hC : C ≠ []) :
    ∃ c ∈ cands2 (A ++ B ++ C) D,
      c.2 = cost D (A ++ B.reverse ++ C) - cost D (A ++ B ++ C) := by
  obtain ⟨_, a, _, ha⟩ := ends hA
  obtain ⟨b, c, hb, hc⟩ := ends hB
  obtain ⟨d, _, hd, _⟩ := ends hC
  have lA := ne_nil_length hA
  have lB := ne_nil_length hB
  have lC := ne_nil_length hC
  obtain ⟨n1, n2, n3, n4⟩ := nth_parts3 ha hb hc hd
  refine ⟨_, mem_cands2.2 ⟨A.length - 1, A.length + B.length - 1, by omega, ?_, rfl⟩, ?_⟩
  · simp only [List.length_append]; omega
  · rw [show A.length - 1 + 1 = A.length by omega,
      show A.length + B.length - 1 + 1 = A.length + B.length by omega, n1, n2, n3, n4,
      cost_2opt hD ha hb hc hd]
    ring

/-! ## 3-opt -/

/-- The moves without the second one, which is never accepted. -/
def moves3 (D : ℕ → ℕ → ℚ) (i j k a b c d e f : ℕ) : List ((Seg × Seg × Seg × Seg) × ℚ) :=
  (moves3opt D i j k a b c d e f).eraseIdx 1

/-- A second test with the same delta never succeeds. -/
theorem scan_dup {M : Type} (st : LSOPT) (m m' : M) (x : ℚ) (t : List (M × ℚ)) (s : Search M) :
    scan st ((m, x) :: (m', x) :: t) s = scan st ((m, x) :: t) s := by
  have heps : (0 : ℚ) < S_EPS := by norm_num [S_EPS]
  rw [scan, scan, tryMove]
  by_cases h : x + S_EPS < s.2
  · simp only [if_pos h]
    cases st
    · rfl
    · simp only [show (LSOPT.BEST_ACCEPT == LSOPT.FIRST_ACCEPT) = false from rfl]
      rw [scan, tryMove]
      rw [if_neg (by simp only; linarith)]
  · simp only [if_neg h]
    rw [scan, tryMove]
    simp only [if_neg h]

theorem scan_moves3 (st : LSOPT) (D : ℕ → ℕ → ℚ) (i j k a b c d e f : ℕ)
    (s : Search (Seg × Seg × Seg × Seg)) :
    scan st (moves3opt D i j k a b c d e f) s = scan st (moves3 D i j k a b c d e f) s :=
  scan_dup _ _ _ _ _ _

def cands3 (route : List ℕ) (D : ℕ → ℕ → ℚ) : List ((Seg × Seg × Seg × Seg) × ℚ) :=
  (pyRange 0 (route.length - 1)).flatMap fun i =>
    (pyRange (i + 1) (route.length - 1)).flatMap fun j =>
      (pyRange (j + 1) (route.length - 1)).flatMap fun k =>
        moves3 D i j k (nth route i) (nth route (i + 1)) (nth route j) (nth route (j + 1))
          (nth route k) (nth route (k + 1))

def res3 (route : List ℕ) (m : Seg × Seg × Seg × Seg) : List ℕ :=
  segSlice route m.1 ++ segSlice route m.2.1 ++ segSlice route m.2.2.1 ++ segSlice route m.2.2.2

theorem forBreak_tryMove {M : Type} (st : LSOPT) (l : List (M × ℚ)) (s : Search M) :
    forBreak l s (fun mv s => (pure (tryMove st mv.1 mv.2 s) : Py _)) = .ok (scan st l s) := by
  have := forBreak_scan st l (fun c => [c]) (fun mv s => (pure (tryMove st mv.1 mv.2 s) : Py _))
    (fun a _ s => by rw [scan_single]; rfl) s
  rw [this]
  simp

theorem do_3opt_eq (route : List ℕ) (D : ℕ → ℕ → ℚ) (st : LSOPT) (bd : Option ℚ) :
    do_3opt_move route D st bd
      = .ok (answer (res3 route) (scan st (cands3 route D) (none, initDelta bd)).1) := by
  unfold do_3opt_move
  extract_lets rN
  subst rN
  rw [forBreak_scan st (pyRange 0 (route.length - 1)) (fun i =>
    (pyRange (i + 1) (route.length - 1)).flatMap fun j =>
      (pyRange (j + 1) (route.length - 1)).flatMap fun k =>
        moves3 D i j k (nth route i) (nth route (i + 1)) (nth route j) (nth route (j + 1))
          (nth route k) (nth route (k + 1)))]
  · unfold cands3
    generalize scan st _ (none, initDelta bd) = r
    obtain ⟨⟨mv, x⟩, b⟩ := r
    cases mv with
    | none => rfl
    | some m => obtain ⟨i, j, k, l⟩ := m; rfl
  · intro i hi s
    rw [mem_pyRange] at hi
    refine forBreak_scan st _ _ _ ?_ s
    intro j hj s
    rw [mem_pyRange] at hj
    refine forBreak_scan st _ _ _ ?_ s
    intro k hk s
    rw [mem_pyRange] at hk
    rw [idx_ok (by omega), idx_ok (by omega), idx_ok (by omega), idx_ok (by omega),
      idx_ok (by omega), idx_ok (by omega), ← scan_moves3,
      ← forBreak_tryMove]
    rfl

theorem mem_cands3 {route : List ℕ} {D : ℕ → ℕ → ℚ} {c : (Seg × Seg × Seg × Seg) × ℚ} :
    c ∈ cands3 route D ↔ ∃ i j k, i < j ∧ j < k ∧ k + 1 < route.length ∧
      c ∈ moves3 D i j k (nth route i) (nth route (i + 1)) (nth route j) (nth route (j + 1))
          (nth route k) (nth route (k + 1)) := by
  unfold cands3
  simp only [List.mem_flatMap, mem_pyRange]
  constructor
  · rintro ⟨i, hi, j, hj, k, hk, h⟩; exact ⟨i, j, k, by omega, by omega, by omega, h⟩
  · rintro ⟨i, j, k, hij, hj, hk, h⟩; exact ⟨i, by omega, j, by omega, k, by omega, h⟩

/-- The cost of four parts in a row. -/
theorem cost_join4 {D : ℕ → ℕ → ℚ} {A B C E : List ℕ} {a b c d e f : ℕ}
    (ha : A.getLast? = some a) (hb : B.head? = some b) (hc : B.getLast? = some c)
    (hd : C.head? = some d) (he : C.getLast? = some e) (hf : E.head? = some f) :
    cost D (A ++ B ++ C ++ E)
      = cost D A + cost D B + cost D C + cost D E + D a b + D c d + D e f := by
  have h1 : (A ++ B).getLast? = some c := by rw [List.getLast?_append]; simp [hc]
  have h2 : (A ++ B ++ C).getLast? = some e := by rw [List.getLast?_append]; simp [he]
  rw [cost_join h2 hf, cost_join h1 hd, cost_join ha hb]
  ring

theorem rev_head {B : List ℕ} {c : ℕ} (h : B.getLast? = some c) : B.reverse.head? = some c := by
  rw [List.head?_reverse, h]

theorem rev_last {B : List ℕ} {c : ℕ} (h : B.head? = some c) : B.reverse.getLast? = some c := by
  rw [List.getLast?_reverse, h]

/-- The segments of a move are the parts of the route. -/
theorem cands3_sound {route : List ℕ} {D : ℕ → ℕ → ℚ} (hD : Symm D) (m : Seg × Seg × Seg × Seg)
    (x : ℚ) (h : (m, x) ∈ cands3 route D) :
    Nb3opt route (res3 route m) ∧ cost D (res3 route m) = cost D route + x := by
  obtain ⟨i, j, k, hij, hjk, hk, he⟩ := mem_cands3.1 h
  have hsp : route.take (i + 1) ++ slice route (i + 1) (j + 1) ++ slice route (j + 1) (k + 1)
      ++ route.drop (k + 1) = route := by
    rw [take_slice (by omega), take_slice (by omega), List.take_append_drop]
  have ha := take_getLast (l := route) (i := i) (by omega)
  have hb := slice_head (l := route) (i := i + 1) (j := j + 1) (by omega) (by omega)
  have hc := slice_getLast (l := route) (i := i + 1) (j := j) (by omega) (by omega)
  have hd := slice_head (l := route) (i := j + 1) (j := k + 1) (by omega) (by omega)
  have he' := slice_getLast (l := route) (i := j + 1) (j := k) (by omega) (by omega)
  have hf := drop_head (l := route) (i := k + 1) (by omega)
  have hcost := cost_join4 (D := D) ha hb hc hd he' hf
  rw [hsp] at hcost
  have hA : route.take (i + 1) ≠ [] := by intro h; rw [h] at ha; simp at ha
  have hB : slice route (i + 1) (j + 1) ≠ [] := by intro h; rw [h] at hb; simp at hb
  have hC : slice route (j + 1) (k + 1) ≠ [] := by intro h; rw [h] at hd; simp at hd
  have hE : route.drop (k + 1) ≠ [] := by intro h; rw [h] at hf; simp at hf
  have nb : ∀ M, (M = slice route (i + 1) (j + 1) ++ (slice route (j + 1) (k + 1)).reverse ∨
      M = (slice route (i + 1) (j + 1)).reverse ++ slice route (j + 1) (k + 1) ∨
      M = (slice route (i + 1) (j + 1)).reverse ++ (slice route (j + 1) (k + 1)).reverse ∨
      M = slice route (j + 1) (k + 1) ++ slice route (i + 1) (j + 1) ∨
      M = (slice route (j + 1) (k + 1)).reverse ++ slice route (i + 1) (j + 1) ∨
      M = slice route (j + 1) (k + 1) ++ (slice route (i + 1) (j + 1)).reverse ∨
      M = (slice route (j + 1) (k + 1)).reverse ++ (slice route (i + 1) (j + 1)).reverse) →
      Nb3opt route (route.take (i + 1) ++ M ++ route.drop (k + 1)) := fun M hM =>
    ⟨_, _, _, _, hA, hB, hC, hE, hsp.symm, M, rfl, hM⟩
  simp only [moves3, moves3opt, List.eraseIdx_cons_succ, List.eraseIdx_cons_zero, List.mem_cons, List.not_mem_nil, or_false,
    Prod.mk.injEq] at he
  have r1 := rev_head hc
  have r2 := rev_last hb
  have r3 := rev_head he'
  have r4 := rev_last hd
  have k1 := cost_reverse hD (slice route (i + 1) (j + 1))
  have k2 := cost_reverse hD (slice route (j + 1) (k + 1))
  rcases he with ⟨rfl, rfl⟩ | ⟨rfl, rfl⟩ | ⟨rfl, rfl⟩ | ⟨rfl, rfl⟩ | ⟨rfl, rfl⟩ | ⟨rfl, rfl⟩ <;>
    simp only [res3, segSlice, sliceRev] <;> (try simp only [← slice.eq_1])
  · refine ⟨by simpa using nb _ (Or.inl rfl), ?_⟩
    rw [cost_join4 ha hb hc r3 r4 hf, hcost, k2]; ring
  · refine ⟨by simpa using nb _ (Or.inr <| Or.inr <| Or.inr <| Or.inr <| Or.inr <| Or.inr rfl), ?_⟩
    rw [cost_join4 ha r3 r4 r1 r2 hf, hcost, k1, k2]; ring
  · refine ⟨by simpa using nb _ (Or.inr <| Or.inr <| Or.inl rfl), ?_⟩
    rw [cost_join4 ha r1 r2 r3 r4 hf, hcost, k1, k2]; ring
  · refine ⟨by simpa using nb _ (Or.inr <| Or.inr <| Or.inr <| Or.inl rfl), ?_⟩
    rw [cost_join4 ha hd he' hb hc hf, hcost]; ring
  · refine ⟨by simpa using nb _ (Or.inr <| Or.inr <| Or.inr <| Or.inr <| Or.inr <| Or.inl rfl), ?_⟩
    rw [cost_join4 ha hd he' r1 r2 hf, hcost, k1]; ring
  · refine ⟨by simpa using nb _ (Or.inr <| Or.inr <| Or.inr <| Or.inr <| Or.inl rfl), ?_⟩
    rw [cost_join4 ha r3 r4 hb hc hf, hcost, k2]; ring

/-- Each way to reconnect except for the reversal of the first segment alone is a candidate. -/
theorem cands3_complete {D : ℕ → ℕ → ℚ} (hD : Symm D) {A B C E M : List ℕ} (hA : A ≠ [])
    (hB : B ≠ []) (hC : C ≠ []) (hE : E ≠ [])
    (hM : M = B ++ C.reverse ∨ M = B.reverse ++ C.reverse ∨
        M = C ++ B ∨ M = C.reverse ++ B ∨ M = C ++ B.reverse ∨ M = C.reverse ++ B.reverse) :
    ∃ c ∈ cands3 (A ++ B ++ C ++ E) D,
      c.2 = cost D (A ++ M ++ E) - cost D (A ++ B ++ C ++ E) := by
  obtain ⟨_, a, _, ha⟩ := ends hA
  obtain ⟨b, c, hb, hc⟩ := ends hB
  obtain ⟨d, e, hd, he⟩ := ends hC
  obtain ⟨f, _, hf, _⟩ := ends hE
  have lA := ne_nil_length hA
  have lB := ne_nil_length hB
  have lC := ne_nil_length hC
  have lE := ne_nil_length hE
  have hde : (C ++ E).head? = some d := by rw [List.head?_append]; simp [hd]
  have hbc : (B ++ C).head? = some b := by rw [List.head?_append]; simp [hb]
  have hbe : (B ++ C).getLast? = some e := by rw [List.getLast?_append]; simp [he]
  obtain ⟨n1, n2, n3, n4⟩ := nth_parts3 ha hb hc hde
  obtain ⟨_, _, n5, n6⟩ := nth_parts3 ha hbc hbe hf
  rw [← List.append_assoc] at n1 n2 n3 n4 n5 n6
  have r1 := rev_head hc
  have r2 := rev_last hb
  have r3 := rev_head he
  have r4 := rev_last hd
  have k1 := cost_reverse hD B
  have k2 := cost_reverse hD C
  have hcost := cost_join4 (D := D) ha hb hc hd he hf
  have key : ∀ y, (∃ m, (m, y) ∈ moves3 D (A.length - 1) (A.length + B.length - 1)
      (A.length + (B ++ C).length - 1) a b c d e f) → ∃ c ∈ cands3 (A ++ B ++ C ++ E) D, c.2 = y := by
    rintro y ⟨m, hm⟩
    refine ⟨(m, y), mem_cands3.2 ⟨A.length - 1, A.length + B.length - 1,
      A.length + (B ++ C).length - 1, by omega, ?_, ?_, ?_⟩, rfl⟩
    · simp only [List.length_append]; omega
    · simp only [List.length_append]; omega
    · rw [show A.length - 1 + 1 = A.length by omega,
        show A.length + B.length - 1 + 1 = A.length + B.length by omega,
        show A.length + (B ++ C).length - 1 + 1 = A.length + (B ++ C).length by omega,
        n1, n2, n3, n4, n5, n6]
      exact hm
  apply key
  simp only [moves3, moves3opt, List.eraseIdx_cons_succ, List.eraseIdx_cons_zero, List.mem_cons, List.not_mem_nil, or_false,
    Prod.mk.injEq]
  rcases hM with rfl | rfl | rfl | rfl | rfl | rfl <;> rw [hcost, ← List.append_assoc]
  · exact ⟨_, Or.inl ⟨rfl, by rw [cost_join4 ha hb hc r3 r4 hf, k2]; ring⟩⟩
  · exact ⟨_, Or.inr <| Or.inr <| Or.inl ⟨rfl, by rw [cost_join4 ha r1 r2 r3 r4 hf, k1, k2]; ring⟩⟩
  · exact ⟨_, Or.inr <| Or.inr <| Or.inr <| Or.inl
      ⟨rfl, by rw [cost_join4 ha hd he hb hc hf]; ring⟩⟩
  · exact ⟨_, Or.inr <| Or.inr <| Or.inr <| Or.inr <| Or.inr
      ⟨rfl, by rw [cost_join4 ha r3 r4 hb hc hf, k2]; ring⟩⟩
  · exact ⟨_, Or.inr <| Or.inr <| Or.inr <| Or.inr <| Or.inl
      ⟨rfl, by rw [cost_join4 ha hd he r1 r2 hf, k1]; ring⟩⟩
  · exact ⟨_, Or.inr <| Or.inl ⟨rfl, by rw [cost_join4 ha r3 r4 r1 r2 hf, k1, k2]; ring⟩⟩

/-- A reversal of a segment is a candidate, or changes nothing. -/
theorem cands3_2opt {D : ℕ → ℕ → ℚ} (hD : Symm D) {A B C : List ℕ} (hA : A ≠ [])
    (hB : B ≠ []) (hC : C ≠ []) :
    (∃ c ∈ cands3 (A ++ B ++ C) D,
      c.2 = cost D (A ++ B.reverse ++ C) - cost D (A ++ B ++ C)) ∨ B.reverse = B := by
  rcases B with _ | ⟨x, _ | ⟨y, t⟩⟩
  · exact absurd rfl hB
  · right; rfl
  · left
    have := cands3_complete hD (A := A) (B := [x]) (C := y :: t) (E := C)
      (M := (y :: t).reverse ++ [x].reverse) hA (by simp) (by simp) hC (by simp)
    simpa using this

/-! ## relocate -/

def candsR (route : List ℕ) (D : ℕ → ℕ → ℚ) : List ((ℕ × ℕ) × ℚ) :=
  (pyRange 1 (route.length - 1)).flatMap fun i =>
    (pyRange 1 route.length).flatMap fun j =>
      if i = j ∨ j + 1 = i then []
      else if nth route (j - 1) = nth route i ∨ nth route j = nth route i then []
      else [((i, j), -D (nth route (i - 1)) (nth route i) - D (nth route i) (nth route (i + 1))
        + D (nth route (i - 1)) (nth route (i + 1)) - D (nth route (j - 1)) (nth route j)
        + D (nth route (j - 1)) (nth route i) + D (nth route i) (nth route j))]

def resR (route : List ℕ) (m : ℕ × ℕ) : List ℕ :=
  if m.1 < m.2 then
    route.take m.1 ++ slice route (m.1 + 1) m.2 ++ [nth route m.1] ++ route.drop m.2
  else route.take m.2 ++ [nth route m.1] ++ slice route m.2 m.1 ++ route.drop (m.1 + 1)

theorem mem_candsR {route : List ℕ} {D : ℕ → ℕ → ℚ} {c : (ℕ × ℕ) × ℚ} :
    c ∈ candsR route D ↔ ∃ i j, 1 ≤ i ∧ i + 1 < route.length ∧ 1 ≤ j ∧ j < route.length ∧
      i ≠ j ∧ j + 1 ≠ i ∧ nth route (j - 1) ≠ nth route i ∧ nth route j ≠ nth route i ∧
      c = ((i, j), -D (nth route (i - 1)) (nth route i) - D (nth route i) (nth route (i + 1))
        + D (nth route (i - 1)) (nth route (i + 1)) - D (nth route (j - 1)) (nth route j)
        + D (nth route (j - 1)) (nth route i) + D (nth route i) (nth route j)) := by
  unfold candsR
  simp only [List.mem_flatMap, mem_pyRange]
  constructor
  · rintro ⟨i, hi, j, hj, h⟩
    split_ifs at h with h1 h2
    · simp at h
    · simp at h
    · push Not at h1 h2
      exact ⟨i, j, by omega, by omega, by omega, by omega, h1.1, h1.2, h2.1, h2.2,
        List.mem_singleton.1 h⟩
  · rintro ⟨i, j, h1, h2, h3, h4, h5, h6, h7, h8, rfl⟩
    refine ⟨i, by omega, j, by omega, ?_⟩
    rw [if_neg (by tauto), if_neg (by tauto)]
    simp

theorem do_relocate_eq (route : List ℕ) (D : ℕ → ℕ → ℚ) (st : LSOPT) (bd : Option ℚ) :
    do_relocate_move route D st bd
      = .ok (answer (resR route) (scan st (candsR route D) (none, initDelta bd)).1) := by
  unfold do_relocate_move
  extract_lets rN
  subst rN
  rw [forBreak_scan st (pyRange 1 (route.length - 1)) (fun i =>
    (pyRange 1 route.length).flatMap fun j =>
      if i = j ∨ j + 1 = i then []
      else if nth route (j - 1) = nth route i ∨ nth route j = nth route i then []
      else [((i, j), -D (nth route (i - 1)) (nth route i) - D (nth route i) (nth route (i + 1))
        + D (nth route (i - 1)) (nth route (i + 1)) - D (nth route (j - 1)) (nth route j)
        + D (nth route (j - 1)) (nth route i) + D (nth route i) (nth route j))])]
  · rw [← candsR]
    rcases scan_cases st (candsR route D) (initDelta bd) with ⟨he, -⟩ | ⟨m, x, he, hm, -⟩
    · rcases hr : scan st (candsR route D) (none, initDelta bd) with ⟨s, b⟩
      rw [hr] at he
      simp only at he
      subst he
      rfl
    · rcases hr : scan st (candsR route D) (none, initDelta bd) with ⟨s, b⟩
      rw [hr] at he
      simp only at he
      subst he
      obtain ⟨i, j, h1, h2, h3, h4, -, -, -, -, hc⟩ := mem_candsR.1 hm
      simp only [Prod.mk.injEq] at hc
      obtain ⟨rfl, -⟩ := hc
      simp only [bind, Except.bind, idx_ok (show i < route.length by omega), answer, resR]
      split_ifs <;> rfl
  · intro i hi s
    rw [mem_pyRange] at hi
    refine forBreak_scan st _ _ _ ?_ s
    intro j hj s
    rw [mem_pyRange] at hj
    split_ifs with h1 h2
    · rfl
    · rw [idx_ok (by omega), idx_ok (by omega), idx_ok (by omega), idx_ok (by omega),
        idx_ok (by omega)]
      simp only [bind, Except.bind, if_pos h2]
      rfl
    · rw [idx_ok (by omega), idx_ok (by omega), idx_ok (by omega), idx_ok (by omega),
        idx_ok (by omega), scan_single]
      simp only [bind, Except.bind, if_neg h2]
      rfl

/-- The cost of a relocation. -/
theorem cost_relocate {D : ℕ → ℕ → ℚ} {A M E : List ℕ} {a n c d e : ℕ}
    (ha : A.getLast? = some a) (hc : M.head? = some c) (hd : M.getLast? = some d)
    (he : E.head? = some e) :
    cost D (A ++ M ++ [n] ++ E) = cost D (A ++ [n] ++ M ++ E)
      + (-D a n - D n c + D a c - D d e + D d n + D n e) := by
  rw [cost_join4 (B := M) (C := [n]) ha hc hd (d := n) rfl (e := n) rfl he,
    cost_join4 (B := [n]) (C := M) ha (b := n) rfl (c := n) rfl hc hd he]
  simp; ring

theorem candsR_sound {route : List ℕ} {D : ℕ → ℕ → ℚ} (m : ℕ × ℕ) (x : ℚ)
    (h : (m, x) ∈ candsR route D) :
    NbRelocate route (resR route m) ∧ cost D (resR route m) = cost D route + x := by
  obtain ⟨i, j, h1, h2, h3, h4, h5, h6, h7, h8, he⟩ := mem_candsR.1 h
  simp only [Prod.mk.injEq] at he
  obtain ⟨rfl, rfl⟩ := he
  have hi : i - 1 + 1 = i := by omega
  have hj : j - 1 + 1 = j := by omega
  by_cases hij : i < j
  · have hij' : i + 1 < j := by
      rcases Nat.lt_or_ge (i + 1) j with h | h
      · exact h
      · exfalso; apply h7; congr 1; omega
    have hsp : route.take i ++ [nth route i] ++ slice route (i + 1) j ++ route.drop j = route := by
      rw [← slice_one (by omega), take_slice (by omega), take_slice (by omega),
        List.take_append_drop]
    have ha := take_getLast (l := route) (i := i - 1) (by omega)
    have hc := slice_head (l := route) (i := i + 1) (j := j) (by omega) (by omega)
    have hd := slice_getLast (l := route) (i := i + 1) (j := j - 1) (by omega) (by omega)
    have he := drop_head (l := route) (i := j) (by omega)
    rw [hi] at ha
    rw [hj] at hd
    have hcost := cost_relocate (D := D) (n := nth route i) ha hc hd he
    rw [hsp] at hcost
    unfold resR
    simp only [if_pos hij]
    refine ⟨⟨route.take i, slice route (i + 1) j, route.drop j, nth route i, ?_, ?_, ?_,
      Or.inl ⟨hsp.symm, rfl⟩⟩, hcost⟩
    · intro h; rw [h] at ha; simp at ha
    · intro h; rw [h] at hc; simp at hc
    · intro h; rw [h] at he; simp at he
  · have hij' : j + 1 < i := by omega
    have hsp : route.take j ++ slice route j i ++ [nth route i] ++ route.drop (i + 1) = route := by
      rw [← slice_one (by omega), take_slice (by omega), take_slice (by omega),
        List.take_append_drop]
    have ha := take_getLast (l := route) (i := j - 1) (by omega)
    have hc := slice_head (l := route) (i := j) (j := i) (by omega) (by omega)
    have hd := slice_getLast (l := route) (i := j) (j := i - 1) (by omega) (by omega)
    have he := drop_head (l := route) (i := i + 1) (by omega)
    rw [hj] at ha
    rw [hi] at hd
    have hcost := cost_relocate (D := D) (n := nth route i) ha hc hd he
    rw [hsp] at hcost
    unfold resR
    simp only [if_neg hij]
    refine ⟨⟨route.take j, slice route j i, route.drop (i + 1), nth route i, ?_, ?_, ?_,
      Or.inr ⟨hsp.symm, rfl⟩⟩, ?_⟩
    · intro h; rw [h] at ha; simp at ha
    · intro h; rw [h] at hc; simp at hc
    · intro h; rw [h] at he; simp at he
    · linarith

/-- In a circuit an inner node is at one position only. -/
theorem circuit_nth {r : List ℕ} (h : Circuit r) {i j : ℕ} (hi : 1 ≤ i) (hi' : i + 1 < r.length)
    (hj : j < r.length) (hij : i ≠ j) : nth r i ≠ nth r j := by
  obtain ⟨x, m, y, rfl, hn, hy⟩ := h
  rw [List.nodup_cons] at hn
  simp only [List.length_cons, List.length_append, List.length_nil] at hi' hj
  obtain ⟨p, rfl⟩ : ∃ p, i = p + 1 := ⟨i - 1, by omega⟩
  have hp : p < m.length := by omega
  have e1 : nth (x :: (m ++ [y])) (p + 1) = m[p] := by
    simp [nth, List.getElem?_append_left hp, hp]
  rw [e1]
  rcases j with _ | q
  · intro h
    have : nth (x :: (m ++ [y])) 0 = x := by simp [nth]
    rw [this] at h
    exact hn.1 (h ▸ List.getElem_mem hp)
  · by_cases hq : q < m.length
    · have e2 : nth (x :: (m ++ [y])) (q + 1) = m[q] := by
        simp [nth, List.getElem?_append_left hq, hq]
      rw [e2]
      intro h
      have := (List.Nodup.getElem_inj_iff hn.2).1 h
      omega
    · have hq' : q = m.length := by omega
      subst hq'
      have e2 : nth (x :: (m ++ [y])) (m.length + 1) = y := by simp [nth]
      rw [e2]
      intro h
      exact hy (h ▸ List.getElem_mem hp)

theorem candsR_fwd {D : ℕ → ℕ → ℚ} {A M E : List ℕ} {n : ℕ} (hA : A ≠ []) (hM : M ≠ [])
    (hE : E ≠ []) (hr : Circuit (A ++ [n] ++ M ++ E)) :
    ∃ c ∈ candsR (A ++ [n] ++ M ++ E) D,
      c.2 = cost D (A ++ M ++ [n] ++ E) - cost D (A ++ [n] ++ M ++ E) := by
  obtain ⟨_, a, _, ha⟩ := ends hA
  obtain ⟨c, d, hc, hd⟩ := ends hM
  obtain ⟨e, _, he, _⟩ := ends hE
  have lA := ne_nil_length hA
  have lM := ne_nil_length hM
  have lE := ne_nil_length hE
  have hme : (M ++ E).head? = some c := by rw [List.head?_append]; simp [hc]
  obtain ⟨n1, n2, n3, n4⟩ := nth_parts3 ha (B := [n]) (b := n) rfl (c := n) rfl hme
  have hnm : ([n] ++ M).getLast? = some d := by rw [List.getLast?_append]; simp [hd]
  obtain ⟨_, _, n5, n6⟩ := nth_parts3 ha (B := [n] ++ M) (b := n) rfl hnm he
  rw [← List.append_assoc] at n1 n2 n3 n4
  rw [← List.append_assoc A [n] M] at n5 n6
  simp only [List.length_append, List.length_cons, List.length_nil] at n4 n5 n6
  have hlen : (A ++ [n] ++ M ++ E).length = A.length + 1 + M.length + E.length := by
    simp; omega
  have hD1 := circuit_nth hr (i := A.length) (j := A.length + 1 + M.length - 1) lA (by omega)
    (by omega) (by omega)
  have hD2 := circuit_nth hr (i := A.length) (j := A.length + 1 + M.length) lA (by omega)
    (by omega) (by omega)
  refine ⟨_, mem_candsR.2 ⟨A.length, A.length + 1 + M.length, lA, by omega, by omega, by omega,
    by omega, by omega, hD1.symm, hD2.symm, rfl⟩, ?_⟩
  rw [show A.length + 1 + M.length - 1 = A.length + (0 + 1 + M.length) - 1 by omega,
    show A.length + 1 + M.length = A.length + (0 + 1 + M.length) by omega,
    show A.length + 1 = A.length + (0 + 1) by omega, n1, n2, n4, n5, n6,
    cost_relocate ha hc hd he]
  ring

theorem candsR_bwd {D : ℕ → ℕ → ℚ} {A M E : List ℕ} {n : ℕ} (hA : A ≠ []) (hM : M ≠ [])
    (hE : E ≠ []) (hr : Circuit (A ++ M ++ [n] ++ E)) :
    ∃ c ∈ candsR (A ++ M ++ [n] ++ E) D,
      c.2 = cost D (A ++ [n] ++ M ++ E) - cost D (A ++ M ++ [n] ++ E) := by
  rcases M with _ | ⟨x, _ | ⟨y, t⟩⟩
  · exact absurd rfl hM
  · exact candsR_fwd hA (by simp) hE hr
  · obtain ⟨_, a, _, ha⟩ := ends hA
    obtain ⟨c, d, hc, hd⟩ := ends hM
    obtain ⟨e, _, he, _⟩ := ends hE
    generalize hMM : x :: y :: t = M at *
    have lA := ne_nil_length hA
    have lM : 2 ≤ M.length := by rw [← hMM]; simp
    have lE := ne_nil_length hE
    obtain ⟨n1, n2, -, -⟩ := nth_parts3 ha hc hd (C := [n] ++ E) (d := n) rfl
    have hne : (M ++ [n]).head? = some c := by rw [List.head?_append]; simp [hc]
    have ham : (A ++ M).getLast? = some d := by rw [List.getLast?_append]; simp [hd]
    obtain ⟨n3, n4, n5, n6⟩ := nth_parts3 ham (B := [n]) (b := n) rfl (c := n) rfl he
    rw [← List.append_assoc] at n1 n2
    simp only [List.length_append, List.length_cons, List.length_nil] at n3 n4 n5 n6
    have hlen : (A ++ M ++ [n] ++ E).length = A.length + M.length + 1 + E.length := by
      simp; omega
    have hD1 := circuit_nth hr (i := A.length + M.length) (j := A.length - 1) (by omega) (by omega)
      (by omega) (by omega)
    have hD2 := circuit_nth hr (i := A.length + M.length) (j := A.length) (by omega) (by omega)
      (by omega) (by omega)
    refine ⟨_, mem_candsR.2 ⟨A.length + M.length, A.length, by omega, by omega, by omega, by omega,
      by omega, by omega, hD1.symm, hD2.symm, rfl⟩, ?_⟩
    rw [show A.length + M.length + 1 = A.length + M.length + (0 + 1) by omega, n1, n2, n3, n4, n6,
      cost_relocate ha hc hd he]
    ring

/-! ## exchange -/

def candsX (route : List ℕ) (D : ℕ → ℕ → ℚ) : List ((ℕ × ℕ) × ℚ) :=
  (pyRange 1 (route.length - 1)).flatMap fun i =>
    (pyRange (i + 1) (route.length - 1)).flatMap fun j =>
      [((i, j), if nth route (i + 1) = nth route j then
          -D (nth route (i - 1)) (nth route i) - D (nth route i) (nth route j)
          - D (nth route j) (nth route (j + 1)) + D (nth route (i - 1)) (nth route j)
          + D (nth route j) (nth route i) + D (nth route i) (nth route (j + 1))
        else -D (nth route (i - 1)) (nth route i) - D (nth route i) (nth route (i + 1))
          + D (nth route (i - 1)) (nth route j) + D (nth route j) (nth route (i + 1))
          - D (nth route (j - 1)) (nth route j) - D (nth route j) (nth route (j + 1))
          + D (nth route (j - 1)) (nth route i) + D (nth route i) (nth route (j + 1)))]

def resX (route : List ℕ) (m : ℕ × ℕ) : List ℕ :=
  route.take m.1 ++ [nth route m.2] ++ slice route (m.1 + 1) m.2 ++ [nth route m.1]
    ++ route.drop (m.2 + 1)

/-- Positions and change of cost of an exchange. -/
def deltaX (route : List ℕ) (D : ℕ → ℕ → ℚ) (i j : ℕ) : ℚ :=
  if nth route (i + 1) = nth route j then
    -D (nth route (i - 1)) (nth route i) - D (nth route i) (nth route j)
    - D (nth route j) (nth route (j + 1)) + D (nth route (i - 1)) (nth route j)
    + D (nth route j) (nth route i) + D (nth route i) (nth route (j + 1))
  else -D (nth route (i - 1)) (nth route i) - D (nth route i) (nth route (i + 1))
    + D (nth route (i - 1)) (nth route j) + D (nth route j) (nth route (i + 1))
    - D (nth route (j - 1)) (nth route j) - D (nth route j) (nth route (j + 1))
    + D (nth route (j - 1)) (nth route i) + D (nth route i) (nth route (j + 1))

theorem mem_candsX {route : List ℕ} {D : ℕ → ℕ → ℚ} {c : (ℕ × ℕ) × ℚ} :
    c ∈ candsX route D ↔ ∃ i j, 1 ≤ i ∧ i < j ∧ j + 1 < route.length ∧
      c = ((i, j), deltaX route D i j) := by
  unfold candsX
  simp only [List.mem_flatMap, mem_pyRange, List.mem_singleton]
  constructor
  · rintro ⟨i, hi, j, hj, rfl⟩; exact ⟨i, j, by omega, by omega, by omega, rfl⟩
  · rintro ⟨i, j, hi, hij, hj, rfl⟩; exact ⟨i, by omega, j, by omega, rfl⟩

theorem do_exchange_eq (route : List ℕ) (D : ℕ → ℕ → ℚ) (st : LSOPT) (bd : Option ℚ) :
    do_exchange_move route D st bd
      = .ok (answer (resX route) (scan st (candsX route D) (none, initDelta bd)).1) := by
  unfold do_exchange_move
  extract_lets rN
  subst rN
  rw [forBreak_scan st (pyRange 1 (route.length - 1)) (fun i =>
    (pyRange (i + 1) (route.length - 1)).flatMap fun j => [((i, j), deltaX route D i j)])]
  · change (do let __x ← Except.ok (scan st (candsX route D) (none, initDelta bd)); _) = _
    rcases scan_cases st (candsX route D) (initDelta bd) with ⟨he, -⟩ | ⟨m, x, he, hm, -⟩
    · rcases hr : scan st (candsX route D) (none, initDelta bd) with ⟨s, b⟩
      rw [hr] at he
      simp only at he
      subst he
      rfl
    · rcases hr : scan st (candsX route D) (none, initDelta bd) with ⟨s, b⟩
      rw [hr] at he
      simp only at he
      subst he
      obtain ⟨i, j, h1, h2, h3, hc⟩ := mem_candsX.1 hm
      simp only [Prod.mk.injEq] at hc
      obtain ⟨rfl, -⟩ := hc
      simp only [bind, Except.bind, idx_ok (show i < route.length by omega),
        idx_ok (show j < route.length by omega), answer, resX]
      rfl
  · intro i hi s
    rw [mem_pyRange] at hi
    refine forBreak_scan st _ _ _ ?_ s
    intro j hj s
    rw [mem_pyRange] at hj
    rw [if_neg (by omega), idx_ok (by omega), idx_ok (by omega), idx_ok (by omega),
      idx_ok (by omega), idx_ok (by omega), idx_ok (by omega), scan_single]
    rfl

theorem cost_join5 {D : ℕ → ℕ → ℚ} {A M E : List ℕ} {a n m c d f : ℕ}
    (ha : A.getLast? = some a) (hc : M.head? = some c) (hd : M.getLast? = some d)
    (hf : E.head? = some f) :
    cost D (A ++ [n] ++ M ++ [m] ++ E)
      = cost D A + cost D M + cost D E + D a n + D n c + D d m + D m f := by
  have h2 : (A ++ [n] ++ M).getLast? = some d := by rw [List.getLast?_append]; simp [hd]
  have h3 : (A ++ [n] ++ M ++ [m]).getLast? = some m := by
    rw [List.getLast?_append]; rfl
  rw [cost_join h3 hf, cost_join h2 (b := m) rfl, cost_join (A := A ++ [n]) (a := n) (by simp) hc,
    cost_join ha (b := n) rfl]
  simp; ring

theorem candsX_sound {route : List ℕ} {D : ℕ → ℕ → ℚ} (hr : Circuit route) (m : ℕ × ℕ) (x : ℚ)
    (h : (m, x) ∈ candsX route D) :
    NbExchange route (resX route m) ∧ cost D (resX route m) = cost D route + x := by
  obtain ⟨i, j, h1, h2, h3, he⟩ := mem_candsX.1 h
  simp only [Prod.mk.injEq] at he
  obtain ⟨rfl, rfl⟩ := he
  have hi : i - 1 + 1 = i := by omega
  have hj : j - 1 + 1 = j := by omega
  have hsp : route.take i ++ [nth route i] ++ slice route (i + 1) j ++ [nth route j]
      ++ route.drop (j + 1) = route := by
    rw [← slice_one (by omega), ← slice_one (show j < route.length by omega),
      take_slice (by omega), take_slice (by omega), take_slice (by omega), List.take_append_drop]
  have ha := take_getLast (l := route) (i := i - 1) (by omega)
  have hf := drop_head (l := route) (i := j + 1) (by omega)
  rw [hi] at ha
  refine ⟨⟨route.take i, slice route (i + 1) j, route.drop (j + 1), nth route i, nth route j,
    ?_, ?_, hsp.symm, rfl⟩, ?_⟩
  · intro h; rw [h] at ha; simp at ha
  · intro h; rw [h] at hf; simp at hf
  · unfold resX deltaX
    by_cases hadj : j = i + 1
    · subst hadj
      have hnil : slice route (i + 1) (i + 1) = [] := by simp [slice]
      rw [hnil, List.append_nil] at hsp
      have hc := cost_join4 (D := D) (B := [nth route i]) (C := [nth route (i + 1)]) ha
        (b := nth route i) rfl (c := nth route i) rfl (d := nth route (i + 1)) rfl
        (e := nth route (i + 1)) rfl hf
      have hc' := cost_join4 (D := D) (B := [nth route (i + 1)]) (C := [nth route i]) ha
        (b := nth route (i + 1)) rfl (c := nth route (i + 1)) rfl (d := nth route i) rfl
        (e := nth route i) rfl hf
      rw [hsp] at hc
      simp only [hnil, List.append_nil, if_true]
      rw [hc, hc']
      ring
    · have hne : nth route (i + 1) ≠ nth route j :=
        circuit_nth hr (by omega) (by omega) (by omega) (by omega)
      have hc := slice_head (l := route) (i := i + 1) (j := j) (by omega) (by omega)
      have hd := slice_getLast (l := route) (i := i + 1) (j := j - 1) (by omega) (by omega)
      rw [hj] at hd
      have hcost := cost_join5 (D := D) (n := nth route i) (m := nth route j) ha hc hd hf
      rw [hsp] at hcost
      simp only [if_neg hne]
      rw [cost_join5 ha hc hd hf, hcost]
      ring

theorem candsX_complete {D : ℕ → ℕ → ℚ} {A M E : List ℕ} {n m : ℕ} (hA : A ≠ [])
    (hE : E ≠ []) (hr : Circuit (A ++ [n] ++ M ++ [m] ++ E)) :
    ∃ c ∈ candsX (A ++ [n] ++ M ++ [m] ++ E) D,
      c.2 = cost D (A ++ [m] ++ M ++ [n] ++ E) - cost D (A ++ [n] ++ M ++ [m] ++ E) := by
  have lA := ne_nil_length hA
  have lE := ne_nil_length hE
  have hlen : (A ++ [n] ++ M ++ [m] ++ E).length = A.length + 1 + M.length + 1 + E.length := by
    simp; omega
  have hmem : ((A.length, A.length + 1 + M.length), deltaX (A ++ [n] ++ M ++ [m] ++ E) D A.length
      (A.length + 1 + M.length)) ∈ candsX (A ++ [n] ++ M ++ [m] ++ E) D :=
    mem_candsX.2 ⟨_, _, lA, by omega, by omega, rfl⟩
  refine ⟨_, hmem, ?_⟩
  have hs := (candsX_sound hr _ _ hmem).2
  have hn : nth (A ++ [n] ++ M ++ [m] ++ E) A.length = n := by simp [nth]
  have hm : nth (A ++ [n] ++ M ++ [m] ++ E) (A.length + 1 + M.length) = m := by
    have := nth_append_head (A := A ++ [n] ++ M) (B := [m] ++ E) (b := m) rfl
    rw [← List.append_assoc] at this
    rw [show A.length + 1 + M.length = (A ++ [n] ++ M).length by
      rw [List.length_append, List.length_append]; rfl]
    exact this
  have hres : resX (A ++ [n] ++ M ++ [m] ++ E) (A.length, A.length + 1 + M.length)
      = A ++ [m] ++ M ++ [n] ++ E := by
    unfold resX
    simp only
    rw [hn, hm]
    congr 1
    · congr 1
      congr 1
      · congr 1
        have := take_append_len A ([n] ++ M ++ [m] ++ E) A.length rfl
        simpa using this
      · have := slice_append_mid (A ++ [n]) M ([m] ++ E) (A.length + 1) (A.length + 1 + M.length)
          (by simp) (by simp)
        simpa using this
    · exact drop_append_len _ _ _ (by simp; omega)
  rw [hres] at hs
  linarith

end Verif
