import Verif.Model.CvrpIo
import Verif.Lemmas.Util

/-!
# VRPH solution encoding (C37)
-/

namespace Verif

open Spec

/-- The code of a route: the first customer is negated. -/
def vrphCode : List ℕ → List ℤ
  | [] => []
  | a :: t => -(a : ℤ) :: t.map fun n => (n : ℤ)

theorem vrphLoop_free : ∀ (g r : List ℕ), (∀ x ∈ g, x ≠ 0) →
    vrphLoop (g ++ r) false = (g.map fun n => (n : ℤ)) ++ vrphLoop r false
  | [], r, _ => rfl
  | a :: g, r, h => by
    have ha : a ≠ 0 := h a (by simp)
    rw [List.cons_append, vrphLoop, if_neg ha]
    simp only [Bool.false_eq_true, if_false]
    rw [vrphLoop_free g r fun x hx => h x (by simp [hx])]
    rfl

theorem vrphLoop_true (g r : List ℕ) (h : ∀ x ∈ g, x ≠ 0) (hr : r.head? = some 0 ∨ r = []) :
    vrphLoop (g ++ r) true = vrphCode g ++ vrphLoop r true := by
  cases g with
  | nil => rfl
  | cons a g =>
    have ha : a ≠ 0 := h a (by simp)
    rw [List.cons_append, vrphLoop, if_neg ha]
    simp only [if_true]
    rw [vrphLoop_free g r fun x hx => h x (by simp [hx])]
    rcases hr with hr | rfl
    · cases r with
      | nil => rfl
      | cons b r =>
        simp only [List.head?_cons, Option.some.injEq] at hr
        subst hr
        simp [vrphCode, vrphLoop]
    · rfl

theorem vrphLoop_blocks (l : List ℕ) : vrphLoop l true = (blocks l).flatMap vrphCode := by
  induction l using zero_split_ind with
  | h0 g hg =>
    have := vrphLoop_true g [] hg (Or.inr rfl)
    rw [List.append_nil] at this
    rw [this, blocks_zerofree g hg]
    by_cases h : g = []
    · subst h; rfl
    · rw [if_neg h]; simp [vrphLoop]
  | h1 g r hg ih =>
    rw [vrphLoop_true g (0 :: r) hg (Or.inl rfl), blocks_block_zero g r hg, vrphLoop, if_pos rfl, ih]
    by_cases h : g = []
    · subst h; rfl
    · rw [if_neg h, List.flatMap_cons]

theorem foldl_max (t : List ℕ) (a : ℕ) : (∀ x ∈ a :: t, x ≤ t.foldl max a) ∧ t.foldl max a ∈ a :: t := by
  induction t generalizing a with
  | nil => simp
  | cons b t ih =>
    rw [List.foldl_cons]
    obtain ⟨h1, h2⟩ := ih (max a b)
    constructor
    · intro x hx
      simp only [List.mem_cons] at hx
      rcases hx with rfl | rfl | hx
      · exact le_trans (le_max_left x b) (h1 _ (by simp))
      · exact le_trans (le_max_right a x) (h1 _ (by simp))
      · exact h1 x (by simp [hx])
    · rcases List.mem_cons.1 h2 with h | h
      · rw [h]
        rcases max_choice a b with h | h <;> rw [h] <;> simp
      · simp [h]

/-- C37. The code is the largest node id plus one, then for each route its customers with the first one
negated, then 0. -/
theorem C37_shape {sol : List ℕ} (hs : DepotEnds sol) :
    ∃ m, m ∈ sol ∧ (∀ x ∈ sol, x ≤ m) ∧
      as_VRPH_solution sol = .ok (((m : ℤ) + 1) :: (blocks sol).flatMap vrphCode ++ [0]) := by
  obtain ⟨h1, -⟩ := hs
  cases sol with
  | nil => simp at h1
  | cons a t =>
    simp only [List.head?_cons, Option.some.injEq] at h1
    subst h1
    obtain ⟨k1, k2⟩ := foldl_max t 0
    refine ⟨_, k2, k1, ?_⟩
    rw [blocks_zero, ← vrphLoop_blocks]
    simp [as_VRPH_solution, vrphLoop]

theorem vrph_pos : ∀ (s t : List ℕ) (u v : List ℤ), (∀ z ∈ u.head?, z < 0) → (∀ z ∈ v.head?, z < 0) →
    (s.map fun n => (n : ℤ)) ++ u = (t.map fun n => (n : ℤ)) ++ v → s = t ∧ u = v
  | [], [], u, v, _, _, e => ⟨rfl, e⟩
  | [], a :: t, u, v, hu, _, e => by
    have e : u = (a : ℤ) :: ((t.map fun n => (n : ℤ)) ++ v) := e
    subst e
    have := hu a (by simp)
    omega
  | x :: s, [], u, v, _, hv, e => by
    have e : (x : ℤ) :: ((s.map fun n => (n : ℤ)) ++ u) = v := e
    subst e
    have := hv x (by simp)
    omega
  | x :: s, a :: t, u, v, hu, hv, e => by
    have e : (x : ℤ) :: ((s.map fun n => (n : ℤ)) ++ u) = (a : ℤ) :: ((t.map fun n => (n : ℤ)) ++ v) := e
    rw [List.cons.injEq, Int.natCast_inj] at e
    obtain ⟨k1, k2⟩ := vrph_pos s t u v hu hv e.2
    exact ⟨by rw [e.1, k1], k2⟩

/-- The routes can be told from the code. -/
theorem vrph_decode : ∀ (bs cs : List (List ℕ)), (∀ b ∈ bs, b ≠ [] ∧ ∀ x ∈ b, x ≠ 0) →
    (∀ b ∈ cs, b ≠ [] ∧ ∀ x ∈ b, x ≠ 0) → bs.flatMap vrphCode = cs.flatMap vrphCode → bs = cs
  | [], [], _, _, _ => rfl
  | [], c :: cs, _, h2, h => by
    have := (h2 c (by simp)).1
    cases c with
    | nil => exact absurd rfl this
    | cons a t => simp [vrphCode] at h
  | b :: bs, [], h1, _, h => by
    have := (h1 b (by simp)).1
    cases b with
    | nil => exact absurd rfl this
    | cons a t => simp [vrphCode] at h
  | b :: bs, c :: cs, h1, h2, h => by
    have hb := h1 b (by simp)
    have hc := h2 c (by simp)
    have hbs : ∀ b ∈ bs, b ≠ [] ∧ ∀ x ∈ b, x ≠ 0 := fun b hb => h1 b (by simp [hb])
    have hcs : ∀ b ∈ cs, b ≠ [] ∧ ∀ x ∈ b, x ≠ 0 := fun b hb => h2 b (by simp [hb])
    -- what follows a route starts with a negative number
    have neg : ∀ {xs : List (List ℕ)}, (∀ b ∈ xs, b ≠ [] ∧ ∀ x ∈ b, x ≠ 0) →
        ∀ z ∈ (xs.flatMap vrphCode).head?, z < 0 := by
      intro xs hxs z hz
      cases xs with
      | nil => simp at hz
      | cons x xs =>
        have := hxs x (by simp)
        cases x with
        | nil => exact absurd rfl this.1
        | cons a t =>
          simp [vrphCode] at hz
          have := this.2 a (by simp)
          omega
    cases b with
    | nil => exact absurd rfl hb.1
    | cons x b =>
      cases c with
      | nil => exact absurd rfl hc.1
      | cons y c =>
        simp only [List.flatMap_cons, vrphCode, List.cons_append, List.cons.injEq, neg_inj,
          Int.natCast_inj] at h
        obtain ⟨k1, k2⟩   := vrph_pos b c _ _ (neg hbs) (neg hcs) h.2
        rw [h.1, k1, vrph_decode bs cs hbs hcs k2]

/-- C37. Two solutions have the same code exactly if they are equal up to empty routes. -/
theorem C37_lossless {a b : List ℕ} (ha : DepotEnds a) (hb : DepotEnds b) :
    as_VRPH_solution a = as_VRPH_solution b ↔ squeeze a = squeeze b := by
  obtain ⟨m, m1, m2, m3⟩ := C37_shape ha
  obtain ⟨k, k1, k2, k3⟩ := C37_shape hb
  rw [m3, k3, squeeze_depotEnds ha, squeeze_depotEnds hb]
  constructor
  · intro h
    simp only [Except.ok.injEq, List.cons_append, List.cons.injEq, List.append_cancel_right_eq] at h
    rw [vrph_decode _ _ (mem_blocks a) (mem_blocks b) h.2]
  · intro h
    have e : blocks a = blocks b := by
      have := congrArg blocks h
      rwa [blocks_tour_of_routes _ (mem_blocks a), blocks_tour_of_routes _ (mem_blocks b)] at this
    have hmem : ∀ x, x ≠ 0 → (x ∈ a ↔ x ∈ b) := by
      intro x hx
      have h1 : x ∈ customers a ↔ x ∈ customers b := by
        rw [← blocks_flatten, ← blocks_flatten, e]
      simpa [customers, hx] using h1
    have hmk : m = k := by
      apply le_antisymm
      · by_cases h : m = 0
        · omega
        · exact k2 m ((hmem m h).1 m1)
      · by_cases h : k = 0
        · omega
        · exact m2 k ((hmem k h).2 k1)
    rw [e, hmk]

example : as_VRPH_solution [0, 3, 1, 0, 0, 2, 4, 0] = .ok [5, -3, 1, -2, 4, 0] := by decide
example : DepotEnds [0, 3, 1, 0, 0, 2, 4, 0] := by decide

end Verif
