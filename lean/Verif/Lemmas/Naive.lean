import Verif.Model.Naive
import Verif.Spec.Naive
import Verif.Lemmas.IntraRoute
import Verif.Props.Lr3opt
import Mathlib.Data.List.InsertIdx

/-! # Lemmas about the naive operators -/

namespace Verif
open Spec

theorem naiveAnswer_scan {st : LSOPT} {cands : List (List ℕ × ℚ)} {b0 : ℚ} (h : ∀ c ∈ cands, c.1 ≠ []) :
    naiveAnswer (scan st cands (none, b0)).1 = answer id (scan st cands (none, b0)).1 := by
  rcases scan_cases st cands b0 with ⟨he, -⟩ | ⟨m, x, he, hm, -⟩
  · rw [he]; rfl
  · rw [he]
    cases m with
    | nil => exact absurd rfl (h _ hm)
    | cons a t => rfl

/-! ## Solutions as lists of routes, which may be empty -/

theorem exists_tour {sol : List ℕ} (h : DepotEnds sol) : ∃ bs : List (List ℕ), (∀ b ∈ bs, ∀ x ∈ b, x ≠ 0) ∧ sol = tour bs := by
  have key : ∀ l : List ℕ, l.getLast? = some 0 → ∃ (b : List ℕ) (bs : List (List ℕ)), (∀ x ∈ b, x ≠ 0) ∧ (∀ b ∈ bs, ∀ x ∈ b, x ≠ 0) ∧
      l = b ++ tour bs := by
    intro l
    induction l with
    | nil => intro h; simp at h
    | cons a t ih =>
      intro h
      cases t with
      | nil =>
        have : a = 0 := by simpa using h
        subst this
        exact ⟨[], [], by simp, by simp, rfl⟩
      | cons a' t =>
        rw [List.getLast?_cons_cons] at h
        obtain ⟨b, bs, h1, h2, h3⟩ := ih h
        by_cases ha : a = 0
        · subst ha
          refine ⟨[], b :: bs, by simp, ?_, by rw [h3]; simp [tour]⟩
          intro c hc
          rcases List.mem_cons.1 hc with rfl | hc
          · exact h1
          · exact h2 c hc
        · refine ⟨a :: b, bs, ?_, h2, by rw [h3]; rfl⟩
          intro x hx
          rcases List.mem_cons.1 hx with rfl | hx
          · exact ha
          · exact h1 x hx
  obtain ⟨b, bs, h1, h2, h3⟩ := key sol h.2
  cases b with
  | nil => exact ⟨bs, h2, h3⟩
  | cons a b =>
    have := h.1
    rw [h3] at this
    simp at this
    exact absurd this (h1 a (by simp))

theorem routeEnd_eq : ∀ (b r : List ℕ) (i : ℕ), (∀ x ∈ b, x ≠ 0) → routeEnd (b ++ 0 :: r) i = .ok (i + b.length) := by
  intro b
  induction b with
  | nil => intro r i _; simp [routeEnd]
  | cons a b ih =>
    intro r i h
    rw [List.cons_append, routeEnd, if_pos (h a (by simp)), ih r (i + 1) fun x hx => h x (by simp [hx])]
    simp
    omega

theorem zero_prefix {b r p y : List ℕ} (hb : ∀ x ∈ b, x ≠ 0) (h : b ++ 0 :: r = p ++ 0 :: y) : ∃ p', p = b ++ p' ∧ 0 :: r = p' ++ 0 :: y := by
  rcases List.append_eq_append_iff.1 h with ⟨a', h1, h2⟩ | ⟨c', h1, h2⟩
  · exact ⟨a', h1, h2⟩
  · cases c' with
    | nil => exact ⟨[], by simpa using h1.symm, by simpa using h2.symm⟩
    | cons z c' =>
      injection h2 with h2 _
      subst h2
      exact absurd rfl (hb 0 (by rw [h1]; simp))

theorem zero_block {b r c y : List ℕ} (hb : ∀ x ∈ b, x ≠ 0) (hc : ∀ x ∈ c, x ≠ 0) (h : b ++ 0 :: r = c ++ 0 :: y) : b = c ∧ r = y := by
  obtain ⟨p, h1, h2⟩ := zero_prefix hb h
  cases p with
  | nil =>
    refine ⟨by simpa using h1.symm, ?_⟩
    injection h2
  | cons z p =>
    injection h2 with h2 _
    subst h2
    exact absurd rfl (hc 0 (by rw [h1]; simp))

/-- The parts of a solution before and after a run of customers. -/
theorem split_left {A : List ℕ} (h : A.head? = some 0) : ∃ A0 P, A = A0 ++ 0 :: P ∧ ∀ x ∈ P, x ≠ 0 := by
  have key : ∀ A : List ℕ, 0 ∈ A → ∃ A0 P, A = A0 ++ 0 :: P ∧ ∀ x ∈ P, x ≠ 0 := by
    intro A
    induction A with
    | nil => intro h; simp at h
    | cons a A ih =>
      intro h
      by_cases hA : 0 ∈ A
      · obtain ⟨A0, P, h1, h2⟩ := ih hA
        exact ⟨a :: A0, P, by rw [h1]; rfl, h2⟩
      · have : a = 0 := by
          rcases List.mem_cons.1 h with h | h
          · exact h.symm
          · exact absurd h hA
        subst this
        exact ⟨[], A, rfl, fun x hx e => hA (e ▸ hx)⟩
  exact key A (List.mem_of_head? h)

theorem split_right {E : List ℕ} (h : E.getLast? = some 0) : ∃ Q E0, E = Q ++ 0 :: E0 ∧ ∀ x ∈ Q, x ≠ 0 := by
  have h' : E.reverse.head? = some 0 := by rw [List.head?_reverse]; exact h
  obtain ⟨A0, P, h1, h2⟩ := split_left h'
  refine ⟨P.reverse, A0.reverse, ?_, fun x hx => h2 x (by simpa using hx)⟩
  have := congrArg List.reverse h1
  simpa using this

/-! ## Reversals -/

/-- The candidates of a route. -/
def candsRev (sol : List ℕ) (D : ℕ → ℕ → ℚ) (rs re : ℕ) : List (List ℕ × ℚ) :=
  (pyRange rs re).flatMap fun a => (pyRange (a + 2) re).flatMap fun c => [(reversal sol a c, objf (reversal sol a c) D - objf sol D)]

/-- The candidates of the routes. -/
def candsAll (sol : List ℕ) (D : ℕ → ℕ → ℚ) : ℕ → List (List ℕ) → List (List ℕ × ℚ)
  | _, [] => []
  | rs, b :: bs => candsRev sol D rs (rs + 1 + b.length) ++ candsAll sol D (rs + 1 + b.length) bs

theorem naive2optRoutes_eq (sol : List ℕ) (D : ℕ → ℕ → ℚ) (st : LSOPT) : ∀ (bs : List (List ℕ)) (n rs : ℕ) (s : Search (List ℕ)),
    bs.length ≤ n → (∀ b ∈ bs, ∀ x ∈ b, x ≠ 0) → sol.drop rs = tour bs →
    naive2optRoutes sol D st n rs (rs + 1) s = .ok (scan st (candsAll sol D rs bs) s).1 := by
  intro bs
  induction bs with
  | nil =>
    intro n rs s _ _ h
    have hl : sol.length = rs + 1 := by
      have := congrArg List.length h
      simp [tour] at this
      omega
    cases n with
    | zero => rfl
    | succ n => rw [naive2optRoutes, if_neg (by omega)]; rfl
  | cons b bs ih =>
    intro n rs s hn hb h
    cases n with
    | zero => simp at hn
    | succ n =>
      obtain ⟨r, hr⟩ := tour_eq_cons bs
      have hl : sol.length = rs + 1 + b.length + (tour bs).length := by
        have := congrArg List.length h
        simp [tour] at this
        have hlt : rs < sol.length := by
          by_contra hc
          omega
        omega
      have hl2 : 0 < (tour bs).length := by rw [hr]; simp
      have h1 : sol.drop (rs + 1) = b ++ 0 :: r := by
        have := congrArg (List.drop 1) h
        rw [List.drop_drop] at this
        rw [this, tour, hr]
        rfl
      have h2 : sol.drop (rs + 1 + b.length) = tour bs := by
        have := congrArg (List.drop b.length) h1
        rw [List.drop_drop] at this
        rw [this, hr]
        simp
      rw [naive2optRoutes, if_pos (by omega), h1, routeEnd_eq b r _ (hb b (by simp))]
      dsimp only
      rw [forBreak_scan st (pyRange rs (rs + 1 + b.length)) (fun a => (pyRange (a + 2) (rs + 1 + b.length)).flatMap fun c =>
        [(reversal sol a c, objf (reversal sol a c) D - objf sol D)])]
      · rw [candsAll, scan_append]
        change (match (Except.ok (scan st (candsRev sol D rs (rs + 1 + b.length)) s) : Py _) with
          | .error e => _
          | .ok (s, true) => _
          | .ok (s, false) => _) = _
        rcases scan st (candsRev sol D rs (rs + 1 + b.length)) s with ⟨s', bb⟩
        cases bb
        · exact ih n (rs + 1 + b.length) s' (by simpa using hn) (fun c hc => hb c (by simp [hc])) h2
        · rfl
      · intro a _ s
        refine forBreak_scan st _ _ _ ?_ s
        intro c _ s
        rw [scan_single]

theorem do_naive_2opt_eq {sol : List ℕ} (D : ℕ → ℕ → ℚ) (st : LSOPT) (bd : Option ℚ) {bs : List (List ℕ)}
    (hb : ∀ b ∈ bs, ∀ x ∈ b, x ≠ 0) (h : sol = tour bs) :
    do_naive_2opt_move sol D st bd = .ok (naiveAnswer (scan st (candsAll sol D 0 bs) (none, initDelta bd)).1) := by
  have hl : ∀ bs : List (List ℕ), bs.length ≤ (tour bs).length := by
    intro bs
    induction bs with
    | nil => simp
    | cons b bs ih => simp only [tour, List.length_cons, List.length_append]; omega
  rw [do_naive_2opt_move, naive2optRoutes_eq sol D st bs sol.length 0 _ (by rw [h]; exact hl bs) hb (by simpa using h)]

theorem mem_candsRev {sol : List ℕ} {D : ℕ → ℕ → ℚ} {rs re : ℕ} {c : List ℕ × ℚ} :
    c ∈ candsRev sol D rs re ↔ ∃ a e, rs ≤ a ∧ a + 2 ≤ e ∧ e < re ∧ c = (reversal sol a e, objf (reversal sol a e) D - objf sol D) := by
  unfold candsRev
  simp only [List.mem_flatMap, mem_pyRange, List.mem_singleton]
  constructor
  · rintro ⟨a, ha, e, he, rfl⟩; exact ⟨a, e, ha.1, he.1, he.2, rfl⟩
  · rintro ⟨a, e, h1, h2, h3, rfl⟩; exact ⟨a, ⟨h1, by omega⟩, e, ⟨h2, h3⟩, rfl⟩

theorem mem_candsAll {sol : List ℕ} {D : ℕ → ℕ → ℚ} {c : List ℕ × ℚ} : ∀ (bs : List (List ℕ)) (q : List ℕ),
    (∀ b ∈ bs, ∀ x ∈ b, x ≠ 0) → sol = q ++ tour bs → c ∈ candsAll sol D q.length bs →
    ∃ p b r, (∀ x ∈ b, x ≠ 0) ∧ sol = p ++ 0 :: (b ++ 0 :: r) ∧ c ∈ candsRev sol D p.length (p.length + 1 + b.length) := by
  intro bs
  induction bs with
  | nil => intro q _ _ h; simp [candsAll] at h
  | cons b bs ih =>
    intro q hb hs h
    obtain ⟨r, hr⟩ := tour_eq_cons bs
    rw [candsAll, List.mem_append] at h
    rcases h with h | h
    · exact ⟨q, b, r, hb b (by simp), by rw [hs, tour, hr], h⟩
    · refine ih (q ++ 0 :: b) (fun c hc => hb c (by simp [hc])) (by rw [hs, tour]; simp) ?_
      have : (q ++ 0 :: b).length = q.length + 1 + b.length := by simp; omega
      rw [this]
      exact h

theorem candsAll_mem {sol : List ℕ} {D : ℕ → ℕ → ℚ} {c : List ℕ × ℚ} {b r : List ℕ} (hb0 : ∀ x ∈ b, x ≠ 0) : ∀ (bs : List (List ℕ)) (rs : ℕ)
    (p : List ℕ), (∀ b ∈ bs, ∀ x ∈ b, x ≠ 0) → tour bs = p ++ 0 :: (b ++ 0 :: r) →
    c ∈ candsRev sol D (rs + p.length) (rs + p.length + 1 + b.length) → c ∈ candsAll sol D rs bs := by
  intro bs
  induction bs with
  | nil =>
    intro rs p _ h
    have := congrArg List.length h
    simp [tour] at this
    omega
  | cons b0 bs ih =>
    intro rs p hb h hc
    obtain ⟨t, ht⟩ := tour_eq_cons bs
    rw [candsAll, List.mem_append]
    cases p with
    | nil =>
      rw [tour, ht] at h
      injection h with _ h
      obtain ⟨rfl, -⟩ := zero_block (hb b0 (by simp)) hb0 h
      exact .inl (by simpa using hc)
    | cons z p =>
      rw [tour, ht, List.cons_append] at h
      injection h with _ h
      obtain ⟨p', rfl, h2⟩ := zero_prefix (hb b0 (by simp)) h
      right
      refine ih (rs + 1 + b0.length) p' (fun c hc => hb c (by simp [hc])) (by rw [ht, h2]) ?_
      have : rs + 1 + b0.length + p'.length = rs + (z :: (b0 ++ p')).length := by simp; omega
      rw [this]
      exact hc

theorem reversal_parts {sol : List ℕ} {a e : ℕ} (h1 : a < e) : sol = sol.take (a + 1) ++ slice sol (a + 1) (e + 1) ++ sol.drop (e + 1) ∧
    reversal sol a e = sol.take (a + 1) ++ (slice sol (a + 1) (e + 1)).reverse ++ sol.drop (e + 1) := ⟨(split3 (by omega)).symm, rfl⟩

theorem candsAll_sound {bs : List (List ℕ)} {D : ℕ → ℕ → ℚ} (hb : ∀ b ∈ bs, ∀ x ∈ b, x ≠ 0) {m : List ℕ} {x : ℚ}
    (h : (m, x) ∈ candsAll (tour bs) D 0 bs) : NbReverse (tour bs) m ∧ cost D m = cost D (tour bs) + x := by
  obtain ⟨p, b, r, h0, h1, h2⟩ := mem_candsAll (sol := tour bs) bs [] hb (by simp) h
  generalize tour bs = sol at *
  obtain ⟨a, e, g1, g2, g3, g4⟩ := mem_candsRev.1 h2
  injection g4 with g4 g5
  subst g4 g5
  refine ⟨?_, by rw [objf_eq_cost, objf_eq_cost]; ring⟩
  obtain ⟨k1, k2⟩ := reversal_parts (sol := sol) (a := a) (e := e) (by omega)
  have hl : sol.length = p.length + 1 + b.length + 1 + r.length := by rw [h1]; simp; omega
  refine ⟨sol.take (a + 1), slice sol (a + 1) (e + 1), sol.drop (e + 1), ?_, ?_, ?_, ?_, k1, k2⟩
  · intro hc
    have := congrArg List.length hc
    rw [List.length_take, List.length_nil] at this
    omega
  · intro hc
    have := congrArg List.length hc
    rw [List.length_drop, List.length_nil] at this
    omega
  · rw [slice_length (by omega)]; omega
  · intro y hy
    refine h0 y ?_
    have e1 : slice sol (p.length + 1) (p.length + 1 + b.length) = b := by
      rw [h1]
      have : p ++ 0 :: (b ++ 0 :: r) = (p ++ [0]) ++ b ++ (0 :: r) := by simp
      rw [this]
      exact slice_append_mid _ _ _ _ _ (by simp) (by simp)
    rw [← e1, ← slice_slice (j := a + 1) (by omega) (by omega), ← slice_slice (i := a + 1) (j := e + 1) (by omega) (by omega)]
    simp [hy]

theorem candsAll_complete {bs : List (List ℕ)} {D : ℕ → ℕ → ℚ} (hb : ∀ b ∈ bs, ∀ x ∈ b, x ≠ 0) {m : List ℕ} (h : NbReverse (tour bs) m) :
    ∃ c ∈ candsAll (tour bs) D 0 bs, c.2 = cost D m - cost D (tour bs) := by
  obtain ⟨A, B, E, hA, hE, hB, h0, h1, rfl⟩ := h
  have hA0 : A.head? = some 0 := by
    have := tour_head bs
    rw [h1] at this
    cases A with
    | nil => exact absurd rfl hA
    | cons a A => simpa using this
  have hE0 : E.getLast? = some 0 := by
    have := tour_getLast bs
    rwa [h1, getLast_append_ne hE] at this
  obtain ⟨A0, P, rfl, hP⟩ := split_left hA0
  obtain ⟨Q, E0, rfl, hQ⟩ := split_right hE0
  have e : tour bs = A0 ++ 0 :: ((P ++ B ++ Q) ++ 0 :: E0) := by rw [h1]; simp
  refine ⟨(reversal (tour bs) (A0.length + P.length) (A0.length + P.length + B.length), _), ?_, rfl⟩
  refine candsAll_mem (b := P ++ B ++ Q) ?_ bs 0 A0 hb e ?_
  · intro x hx
    rcases List.mem_append.1 hx with hx | hx
    · rcases List.mem_append.1 hx with hx | hx
      · exact hP x hx
      · exact h0 x hx
    · exact hQ x hx
  · refine mem_candsRev.2 ⟨A0.length + P.length, A0.length + P.length + B.length, by omega, by omega, by simp; omega, ?_⟩
    rw [objf_eq_cost, objf_eq_cost]
    congr 3
    have e2 : tour bs = (A0 ++ 0 :: P) ++ B ++ (Q ++ 0 :: E0) := h1
    rw [(reversal_parts (sol := tour bs) (a := A0.length + P.length) (e := A0.length + P.length + B.length) (by omega)).2, e2,
      slice_append_mid _ _ _ _ _ (by simp; omega) (by simp; omega)]
    rw [List.append_assoc (A0 ++ 0 :: P) B, take_append_len _ _ _ (by simp; omega), ← List.append_assoc (A0 ++ 0 :: P) B,
      drop_append_len _ _ _ (by simp; omega)]

theorem nbReverse_same {s t : List ℕ} (hs : DepotEnds s) (h : NbReverse s t) : SameVisits s t := by
  obtain ⟨A, B, E, hA, hE, -, -, rfl, rfl⟩ := h
  refine ⟨⟨?_, ?_⟩, (List.Perm.append_left _ (List.reverse_perm B)).append_right _⟩
  · have := hs.1
    cases A with
    | nil => exact absurd rfl hA
    | cons a A => simpa using this
  · have := hs.2
    rw [getLast_append_ne hE] at this ⊢
    exact this

/-! ## Moves of a customer -/

theorem nbMove_same {s t : List ℕ} (hs : DepotEnds s) (h : NbMove s t) : SameVisits s t := by
  obtain ⟨A, E, A', E', n, -, hA, hE, hA', hE', rfl, he, rfl⟩ := h
  refine ⟨⟨?_, ?_⟩, ?_⟩
  · have h1 := hs.1
    cases A with
    | nil => exact absurd rfl hA
    | cons a A =>
      cases A' with
      | nil => exact absurd rfl hA'
      | cons a' A' =>
        injection he with he _
        subst he
        simpa using h1
  · have h2 := hs.2
    have h3 := congrArg List.getLast? he
    rw [getLast_append_ne hE, getLast_append_ne hE'] at h3
    rw [getLast_append_ne (by simp), List.getLast?_cons] at h2 ⊢
    rw [← h3]
    exact h2
  · refine List.perm_middle.trans ?_
    rw [← he]
    exact List.perm_middle.symm

/-- The candidates of a move of a customer. -/
def candsMove (sol : List ℕ) (D : ℕ → ℕ → ℚ) (d : ℕ → ℚ) (C L : Option ℚ) : List (List ℕ × ℚ) :=
  sol.flatMap fun n => if n = 0 then [] else (pyRange 1 (sol.length - 1)).flatMap fun j =>
    if naive_constraint_check ((sol.erase n).insertIdx j n) D d C L then
      [((sol.erase n).insertIdx j n, objf ((sol.erase n).insertIdx j n) D - objf sol D)] else []

theorem naiveTry_eq (sol a : List ℕ) (D : ℕ → ℕ → ℚ) (d : ℕ → ℚ) (C L : Option ℚ) (st : LSOPT) (s : Search (List ℕ)) :
    naiveTry sol a D d C L st s = scan st (if naive_constraint_check a D d C L then [(a, objf a D - objf sol D)] else []) s := by
  unfold naiveTry
  split
  · rw [scan_single]
  · rfl

theorem do_naive_1point_eq (sol : List ℕ) (D : ℕ → ℕ → ℚ) (d : ℕ → ℚ) (C L : Option ℚ) (st : LSOPT) (bd : Option ℚ) :
    do_naive_1point_move sol D d C L st bd = .ok (naiveAnswer (scan st (candsMove sol D d C L) (none, initDelta bd)).1) := by
  unfold do_naive_1point_move
  rw [forBreak_scan st sol (fun n => if n = 0 then [] else (pyRange 1 (sol.length - 1)).flatMap fun j =>
    if naive_constraint_check ((sol.erase n).insertIdx j n) D d C L then
      [((sol.erase n).insertIdx j n, objf ((sol.erase n).insertIdx j n) D - objf sol D)] else [])]
  · rfl
  · intro n _ s
    by_cases h : n = 0
    · rw [if_pos h, if_pos h]; rfl
    · rw [if_neg h, if_neg h]
      refine forBreak_scan st _ _ _ ?_ s
      intro j _ s
      rw [naiveTry_eq]

theorem mem_candsMove {sol : List ℕ} {D : ℕ → ℕ → ℚ} {d : ℕ → ℚ} {C L : Option ℚ} {c : List ℕ × ℚ} :
    c ∈ candsMove sol D d C L ↔ ∃ n ∈ sol, n ≠ 0 ∧ ∃ j, 1 ≤ j ∧ j < sol.length - 1 ∧
      naive_constraint_check ((sol.erase n).insertIdx j n) D d C L = true ∧
      c = ((sol.erase n).insertIdx j n, objf ((sol.erase n).insertIdx j n) D - objf sol D) := by
  unfold candsMove
  rw [List.mem_flatMap]
  constructor
  · rintro ⟨n, hn, hc⟩
    by_cases h : n = 0
    · rw [if_pos h] at hc; simp at hc
    · rw [if_neg h, List.mem_flatMap] at hc
      obtain ⟨j, hj, hc⟩ := hc
      rw [mem_pyRange] at hj
      by_cases hk : naive_constraint_check ((sol.erase n).insertIdx j n) D d C L = true
      · rw [if_pos hk] at hc
        exact ⟨n, hn, h, j, hj.1, hj.2, hk, by simpa using hc⟩
      · rw [if_neg hk] at hc; simp at hc
  · rintro ⟨n, hn, h, j, h1, h2, hk, rfl⟩
    refine ⟨n, hn, ?_⟩
    rw [if_neg h, List.mem_flatMap]
    refine ⟨j, mem_pyRange.2 ⟨h1, h2⟩, ?_⟩
    rw [if_pos hk]
    simp

theorem insertIdx_split (l : List ℕ) (j n : ℕ) (h : j ≤ l.length) : l.insertIdx j n = l.take j ++ n :: l.drop j := by
  induction l generalizing j with
  | nil =>
    have : j = 0 := by simpa using h
    subst this
    rfl
  | cons a l ih =>
    cases j with
    | zero => rfl
    | succ j =>
      rw [List.insertIdx_succ_cons, ih j (by simpa using h)]
      rfl

theorem erase_split {A E : List ℕ} {n : ℕ} (h : n ∉ A) : (A ++ n :: E).erase n = A ++ E := by
  rw [List.erase_append_right _ h, List.erase_cons_head]

theorem candsMove_sound {sol : List ℕ} (hs : DepotEnds sol) {D : ℕ → ℕ → ℚ} {d : ℕ → ℚ} {C L : Option ℚ} {m : List ℕ} {x : ℚ}
    (h : (m, x) ∈ candsMove sol D d C L) : (NbMove sol m ∧ Feasible D d C L m) ∧ cost D m = cost D sol + x := by
  obtain ⟨n, hn, h0, j, h1, h2, hk, he⟩ := mem_candsMove.1 h
  injection he with he1 he2
  subst he1 he2
  have hm : NbMove sol ((sol.erase n).insertIdx j n) := by
    obtain ⟨A, E, rfl, hA⟩ := List.eq_append_cons_of_mem hn
    rw [erase_split hA]
    have hl : (A ++ n :: E).length = (A ++ E).length + 1 := by simp; omega
    rw [insertIdx_split _ _ _ (by omega)]
    refine ⟨A, E, (A ++ E).take j, (A ++ E).drop j, n, h0, ?_, ?_, ?_, ?_, rfl, (List.take_append_drop _ _).symm, rfl⟩
    · rintro rfl
      have := hs.1
      simp at this
      exact h0 this
    · rintro rfl
      have := hs.2
      simp at this
      exact h0 this
    · intro hc
      have := congrArg List.length hc
      rw [List.length_take] at this
      simp only [List.length_nil] at this
      omega
    · intro hc
      have := congrArg List.length hc
      rw [List.length_drop] at this
      simp only [List.length_nil] at this
      omega
  exact ⟨⟨hm, C32_check_sound (nbMove_same hs hm).ends hk⟩, by rw [objf_eq_cost, objf_eq_cost]; ring⟩

theorem candsMove_complete {sol : List ℕ} (hs : DepotEnds sol) (hn : (customers sol).Nodup) {D : ℕ → ℕ → ℚ} (hD : ∀ i j, 0 ≤ D i j)
    (h00 : D 0 0 = 0) {d : ℕ → ℚ} (hd : ∀ n, 0 ≤ d n) {C L : Option ℚ} (hL : ∀ x, L = some x → 0 ≤ x) {m : List ℕ}
    (h : NbMove sol m ∧ Feasible D d C L m) : ∃ c ∈ candsMove sol D d C L, c.2 = cost D m - cost D sol := by
  obtain ⟨hm, hf⟩ := h
  have hc := C32_check_complete (nbMove_same hs hm).ends hD h00 hd hL hf
  obtain ⟨A, E, A', E', n, h0, hA, hE, hA', hE', rfl, he, rfl⟩ := hm
  have hnA : n ∉ A := by
    intro hnA
    unfold customers at hn
    rw [List.filter_append, List.filter_cons_of_pos (by simpa using h0)] at hn
    exact (List.nodup_append.1 hn).2.2 n (List.mem_filter.2 ⟨hnA, by simpa using h0⟩) n (by simp) rfl
  have e : ((A ++ n :: E).erase n).insertIdx A'.length n = A' ++ n :: E' := by
    rw [erase_split hnA, he, insertIdx_split _ _ _ (by simp)]
    simp
  have hl : (A ++ n :: E).length = A'.length + E'.length + 1 := by
    have := congrArg List.length he
    simp at this
    simp
    omega
  have l1 := ne_nil_length hA'
  have l2 := ne_nil_length hE'
  refine ⟨_, mem_candsMove.2 ⟨n, by simp, h0, A'.length, by omega, by omega, by rw [e]; exact hc, rfl⟩, ?_⟩
  rw [e, objf_eq_cost, objf_eq_cost]

/-! ## Swaps -/

theorem nbSwap_same {s t : List ℕ} (hs : DepotEnds s) (h : NbSwap s t) : SameVisits s t := by
  obtain ⟨A, M, E, n, m, h1, h2, rfl, rfl⟩ := h
  have hA : A ≠ [] := by
    rintro rfl
    have := hs.1
    simp at this
    exact h1 this
  have hE : E ≠ [] := by
    rintro rfl
    have := hs.2
    rw [← List.cons_append, ← List.append_assoc, List.getLast?_concat] at this
    exact h2 (by simpa using this)
  refine ⟨⟨?_, ?_⟩, ?_⟩
  · have := hs.1
    cases A with
    | nil => exact absurd rfl hA
    | cons a A => simpa using this
  · have := hs.2
    have e1 : A ++ n :: (M ++ m :: E) = (A ++ n :: (M ++ [m])) ++ E := by simp
    have e2 : A ++ m :: (M ++ n :: E) = (A ++ m :: (M ++ [n])) ++ E := by simp
    rw [e1, getLast_append_ne hE] at this
    rw [e2, getLast_append_ne hE]
    exact this
  · refine List.Perm.append_left _ ?_
    refine (List.Perm.cons _ List.perm_middle).trans ?_
    refine (List.Perm.swap _ _ _).trans ?_
    exact List.Perm.cons _ List.perm_middle.symm

/-- The candidates of a swap. -/
def candsSwap (sol : List ℕ) (D : ℕ → ℕ → ℚ) (d : ℕ → ℚ) (C L : Option ℚ) : List (List ℕ × ℚ) :=
  (pyRange 0 sol.length).flatMap fun i => if nth sol i = 0 then [] else (pyRange 1 (sol.length - 1)).flatMap fun j =>
    if nth sol j = 0 then [] else
    if naive_constraint_check ((sol.set i (nth sol j)).set j (nth sol i)) D d C L then
      [((sol.set i (nth sol j)).set j (nth sol i), objf ((sol.set i (nth sol j)).set j (nth sol i)) D - objf sol D)] else []

theorem do_naive_2point_eq (sol : List ℕ) (D : ℕ → ℕ → ℚ) (d : ℕ → ℚ) (C L : Option ℚ) (st : LSOPT) (bd : Option ℚ) :
    do_naive_2point_move sol D d C L st bd = .ok (naiveAnswer (scan st (candsSwap sol D d C L) (none, initDelta bd)).1) := by
  unfold do_naive_2point_move
  rw [forBreak_scan st (pyRange 0 sol.length) (fun i => if nth sol i = 0 then [] else (pyRange 1 (sol.length - 1)).flatMap fun j =>
    if nth sol j = 0 then [] else
    if naive_constraint_check ((sol.set i (nth sol j)).set j (nth sol i)) D d C L then
      [((sol.set i (nth sol j)).set j (nth sol i), objf ((sol.set i (nth sol j)).set j (nth sol i)) D - objf sol D)] else [])]
  · rfl
  · intro i hi s
    rw [mem_pyRange] at hi
    rw [idx_ok hi.2]
    dsimp only
    by_cases h : nth sol i = 0
    · rw [if_pos h, if_pos h]; rfl
    · rw [if_neg h, if_neg h]
      refine forBreak_scan st _ _ _ ?_ s
      intro j hj s
      rw [mem_pyRange] at hj
      rw [idx_ok (by omega)]
      dsimp only
      by_cases h' : nth sol j = 0
      · rw [if_pos h', if_pos h']; rfl
      · rw [if_neg h', if_neg h', naiveTry_eq]

theorem mem_candsSwap {sol : List ℕ} {D : ℕ → ℕ → ℚ} {d : ℕ → ℚ} {C L : Option ℚ} {c : List ℕ × ℚ} :
    c ∈ candsSwap sol D d C L ↔ ∃ i j, i < sol.length ∧ nth sol i ≠ 0 ∧ 1 ≤ j ∧ j < sol.length - 1 ∧ nth sol j ≠ 0 ∧
      naive_constraint_check ((sol.set i (nth sol j)).set j (nth sol i)) D d C L = true ∧
      c = ((sol.set i (nth sol j)).set j (nth sol i), objf ((sol.set i (nth sol j)).set j (nth sol i)) D - objf sol D) := by
  unfold candsSwap
  rw [List.mem_flatMap]
  constructor
  · rintro ⟨i, hi, hc⟩
    rw [mem_pyRange] at hi
    by_cases h : nth sol i = 0
    · rw [if_pos h] at hc; simp at hc
    · rw [if_neg h, List.mem_flatMap] at hc
      obtain ⟨j, hj, hc⟩ := hc
      rw [mem_pyRange] at hj
      by_cases h' : nth sol j = 0
      · rw [if_pos h'] at hc; simp at hc
      · rw [if_neg h'] at hc
        by_cases hk : naive_constraint_check ((sol.set i (nth sol j)).set j (nth sol i)) D d C L = true
        · rw [if_pos hk] at hc
          exact ⟨i, j, hi.2, h, hj.1, hj.2, h', hk, by simpa using hc⟩
        · rw [if_neg hk] at hc; simp at hc
  · rintro ⟨i, j, hi, h, h1, h2, h', hk, rfl⟩
    refine ⟨i, mem_pyRange.2 ⟨by omega, hi⟩, ?_⟩
    rw [if_neg h, List.mem_flatMap]
    refine ⟨j, mem_pyRange.2 ⟨h1, h2⟩, ?_⟩
    rw [if_neg h', if_pos hk]
    simp

theorem nth_middle (A E : List ℕ) (n : ℕ) : nth (A ++ n :: E) A.length = n := nth_append_head (by simp)

theorem set_middle (A E : List ℕ) (n m : ℕ) : (A ++ n :: E).set A.length m = A ++ m :: E := by
  rw [List.set_append_right _ _ le_rfl]; simp

theorem nv_split_at {l : List ℕ} {i : ℕ} (h : i < l.length) : ∃ A E, l = A ++ nth l i :: E ∧ A.length = i := by
  refine ⟨l.take i, l.drop (i + 1), ?_, by rw [List.length_take]; omega⟩
  have := split3 (l := l) (i := i) (j := i + 1) (by omega)
  rw [slice_one h] at this
  rw [← List.singleton_append (x := nth l i), ← List.append_assoc]
  exact this.symm

theorem swap_split {l : List ℕ} {i j : ℕ} (hij : i < j) (hj : j < l.length) : ∃ A M E, l = A ++ nth l i :: (M ++ nth l j :: E) ∧ A.length = i ∧
    (A ++ nth l i :: M).length = j := by
  obtain ⟨X, E, h1, h2⟩ := nv_split_at hj
  have hi : i < X.length := by omega
  obtain ⟨A, M, h3, h4⟩ := nv_split_at hi
  have e : nth l i = nth X i := by
    unfold nth
    rw [h1, List.getD_eq_getElem?_getD, List.getD_eq_getElem?_getD, List.getElem?_append_left hi]
  rw [← e] at h3
  refine ⟨A, M, E, ?_, h4, by rw [← h3]; exact h2⟩
  conv_lhs => rw [h1, h3]
  simp

theorem swap_lt {l : List ℕ} {i j : ℕ} (hij : i < j) (hj : j < l.length) (hi0 : nth l i ≠ 0) (hj0 : nth l j ≠ 0) :
    NbSwap l ((l.set i (nth l j)).set j (nth l i)) := by
  obtain ⟨A, M, E, h1, h2, h3⟩ := swap_split hij hj
  refine ⟨A, M, E, nth l i, nth l j, hi0, hj0, h1, ?_⟩
  generalize nth l i = n at *
  generalize nth l j = m at *
  subst h1
  rw [← h2, set_middle, ← h3]
  have e1 : A ++ m :: (M ++ m :: E) = (A ++ m :: M) ++ m :: E := by simp
  have e2 : (A ++ n :: M).length = (A ++ m :: M).length := by simp
  rw [e1, e2, set_middle]
  simp

theorem candsSwap_sound {sol : List ℕ} (hs : DepotEnds sol) {D : ℕ → ℕ → ℚ} {d : ℕ → ℚ} {C L : Option ℚ} {m : List ℕ} {x : ℚ}
    (h : (m, x) ∈ candsSwap sol D d C L) : ((m = sol ∨ NbSwap sol m) ∧ Feasible D d C L m) ∧ cost D m = cost D sol + x := by
  obtain ⟨i, j, hi, hi0, h1, h2, hj0, hk, he⟩ := mem_candsSwap.1 h
  injection he with he1 he2
  subst he1 he2
  have hm : (sol.set i (nth sol j)).set j (nth sol i) = sol ∨ NbSwap sol ((sol.set i (nth sol j)).set j (nth sol i)) := by
    rcases Nat.lt_trichotomy i j with hij | hij | hij
    · exact .inr (swap_lt hij (by omega) hi0 hj0)
    · left
      subst hij
      obtain ⟨A, E, e1, e2⟩ := nv_split_at hi
      generalize nth sol i = n at *
      subst e1
      rw [← e2, set_middle, set_middle]
    · right
      rw [List.set_comm _ _ (by omega)]
      exact swap_lt hij hi hj0 hi0
  have hde : DepotEnds ((sol.set i (nth sol j)).set j (nth sol i)) := by
    rcases hm with hm | hm
    · rw [hm]; exact hs
    · exact (nbSwap_same hs hm).ends
  exact ⟨⟨hm, C32_check_sound hde hk⟩, by rw [objf_eq_cost, objf_eq_cost]; ring⟩

theorem candsSwap_complete {sol : List ℕ} (hs : DepotEnds sol) {D : ℕ → ℕ → ℚ} (hD : ∀ i j, 0 ≤ D i j)
    (h00 : D 0 0 = 0) {d : ℕ → ℚ} (hd : ∀ n, 0 ≤ d n) {C L : Option ℚ} (hL : ∀ x, L = some x → 0 ≤ x) {m : List ℕ}
    (h : NbSwap sol m ∧ Feasible D d C L m) : ∃ c ∈ candsSwap sol D d C L, c.2 = cost D m - cost D sol := by
  obtain ⟨hm, hf⟩ := h
  have hc := C32_check_complete (nbSwap_same hs hm).ends hD h00 hd hL hf
  obtain ⟨A, M, E, n, m, h1, h2, rfl, rfl⟩ := hm
  have hE : E ≠ [] := by
    rintro rfl
    have := hs.2
    rw [← List.cons_append, ← List.append_assoc, List.getLast?_concat] at this
    exact h2 (by simpa using this)
  have l2 := ne_nil_length hE
  have e1 : nth (A ++ n :: (M ++ m :: E)) A.length = n := nth_middle _ _ _
  have e2 : nth (A ++ n :: (M ++ m :: E)) (A ++ n :: M).length = m := by
    have : A ++ n :: (M ++ m :: E) = (A ++ n :: M) ++ m :: E := by simp
    rw [this]
    exact nth_middle _ _ _
  have e3 : ((A ++ n :: (M ++ m :: E)).set A.length m).set (A ++ n :: M).length n = A ++ m :: (M ++ n :: E) := by
    rw [set_middle]
    have e4 : A ++ m :: (M ++ m :: E) = (A ++ m :: M) ++ m :: E := by simp
    have e5 : (A ++ n :: M).length = (A ++ m :: M).length := by simp
    rw [e4, e5, set_middle]
    simp
  refine ⟨_, mem_candsSwap.2 ⟨A.length, (A ++ n :: M).length, by simp, by rw [e1]; exact h1, by simp; omega, by simp; omega,
    by rw [e2]; exact h2, by rw [e1, e2, e3]; exact hc, rfl⟩, ?_⟩
  rw [e1, e2, e3, objf_eq_cost, objf_eq_cost]

end Verif
