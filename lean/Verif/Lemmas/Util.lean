import Verif.Lemmas.Basic
import Mathlib.Data.List.Destutter

/-! # Lemmas for the conversions of `util.py` -/

namespace Verif
open Spec

theorem routes2sol_step_last (sol r : List ℕ) (h : sol.getLast? = some 0) :
    (routes2sol_step sol r).getLast? = some 0 := by
  cases r with
  | nil => simpa [routes2sol_step] using h
  | cons a t =>
    simp only [routes2sol_step]
    generalize (if a = 0 then sol ++ t else sol ++ a :: t) = s
    by_cases hs : s.getLast? = some 0
    · simp [hs]
    · simp [hs, List.getLast?_append]

theorem getLast_zero_split {s : List ℕ} (h : s.getLast? = some 0) : ∃ t, s = t ++ [0] := by
  rcases List.eq_nil_or_concat s with rfl | ⟨m, b, rfl⟩
  · simp at h
  · have : b = 0 := by simpa using h
    subst this; exact ⟨m, by simp⟩

theorem blocks_concat_zero (l : List ℕ) : blocks (l ++ [0]) = blocks l := by
  rw [blocks_append_zero]; simp

/-- Adding a route to a tour adds the customers' runs of that route. -/
theorem blocks_routes2sol_step (sol r : List ℕ) (h : sol.getLast? = some 0) :
    blocks (routes2sol_step sol r) = blocks sol ++ blocks r := by
  obtain ⟨s, rfl⟩ := getLast_zero_split h
  cases r with
  | nil => simp [routes2sol_step]
  | cons a t =>
    simp only [routes2sol_step]
    have hb : blocks (if a = 0 then (s ++ [0]) ++ t else (s ++ [0]) ++ a :: t)
        = blocks (s ++ [0]) ++ blocks (a :: t) := by
      split
      · subst_vars; simp [blocks_append_zero]
      · simp [blocks_append_zero]
    generalize (if a = 0 then (s ++ [0]) ++ t else (s ++ [0]) ++ a :: t) = x at *
    split
    · rw [blocks_concat_zero, hb]
    · exact hb

theorem routes2sol_fold (routes : List (List ℕ)) (sol : List ℕ) (h : DepotEnds sol) :
    blocks (routes.foldl routes2sol_step sol) = blocks sol ++ routes.flatMap blocks ∧
    DepotEnds (routes.foldl routes2sol_step sol) := by
  induction routes generalizing sol with
  | nil => simp [h]
  | cons r t ih =>
    have h' : DepotEnds (routes2sol_step sol r) := by
      refine ⟨?_, routes2sol_step_last sol r h.2⟩
      obtain ⟨h1, _⟩ := h
      cases sol with
      | nil => simp at h1
      | cons b sol =>
        simp at h1; subst h1
        cases r with
        | nil => rfl
        | cons a t =>
          simp only [routes2sol_step]
          split <;> split <;> simp
    obtain ⟨i1, i2⟩ := ih _ h'
    refine ⟨?_, i2⟩
    rw [List.foldl_cons, i1, blocks_routes2sol_step sol r h.2]
    simp

theorem routes2sol_step_wrap (sol b : List ℕ) :
    routes2sol_step sol (wrap b) = sol ++ b ++ [0] := by
  simp [routes2sol_step, wrap, List.getLast?_append]

theorem tour_concat (as : List (List ℕ)) (b : List ℕ) : tour (as ++ [b]) = tour as ++ b ++ [0] := by
  rw [tour_append]; simp [tour]

theorem routes2sol_fold_wrap (bs as : List (List ℕ)) :
    (bs.map wrap).foldl routes2sol_step (tour as) = tour (as ++ bs) := by
  induction bs generalizing as with
  | nil => simp
  | cons b t ih =>
    rw [List.map_cons, List.foldl_cons, routes2sol_step_wrap, ← tour_concat, ih]; simp

/-! ## squeeze -/

theorem squeeze_zero_zero (t : List ℕ) : squeeze (0 :: 0 :: t) = squeeze (0 :: t) := by
  simp [squeeze]

theorem squeeze_cons_ne {a : ℕ} (h : a ≠ 0) (t : List ℕ) : squeeze (a :: t) = a :: squeeze t := by
  cases t <;> simp [squeeze, h]

theorem squeeze_zerofree_append (g : List ℕ) (hg : ∀ x ∈ g, x ≠ 0) (t : List ℕ) :
    squeeze (g ++ t) = g ++ squeeze t := by
  induction g with
  | nil => rfl
  | cons a g ih =>
    rw [List.cons_append, squeeze_cons_ne (hg a (by simp)),
      ih (fun x hx => hg x (List.mem_cons_of_mem _ hx))]; rfl

theorem squeeze_zero_ne {a : ℕ} (h : a ≠ 0) (t : List ℕ) :
    squeeze (0 :: a :: t) = 0 :: squeeze (a :: t) := by simp [squeeze, h]

/-- Squeezing a tour with depot ends gives the tour of its routes. -/
theorem squeeze_wrap (l : List ℕ) : squeeze (wrap l) = tour (blocks l) := by
  induction l using zero_split_ind with
  | h0 g hg =>
    rw [blocks_zerofree g hg]
    cases g with
    | nil => rfl
    | cons a t =>
      have ha := hg a (by simp)
      have : wrap (a :: t) = 0 :: a :: (t ++ [0]) := by simp [wrap]
      rw [this, squeeze_zero_ne ha, ← List.cons_append, squeeze_zerofree_append _ hg]
      simp [squeeze, tour]
  | h1 g r hg ih =>
    rw [blocks_block_zero g r hg]
    cases g with
    | nil =>
      have : wrap ([] ++ 0 :: r) = 0 :: 0 :: (r ++ [0]) := by simp [wrap]
      rw [this, squeeze_zero_zero]; simpa [wrap] using ih
    | cons a t =>
      have ha := hg a (by simp)
      have : wrap (a :: t ++ 0 :: r) = 0 :: a :: (t ++ wrap r) := by simp [wrap]
      rw [this, squeeze_zero_ne ha, ← List.cons_append, squeeze_zerofree_append _ hg, ih]
      simp [tour]

theorem squeeze_depotEnds {sol : List ℕ} (h : DepotEnds sol) :
    squeeze sol = tour (blocks sol) := by
  rcases depotEnds_cases h with rfl | ⟨m, rfl⟩
  · rfl
  · rw [squeeze_wrap]; simp

theorem squeeze_of_no_adjacent {sol : List ℕ} (h : sol.IsChain (fun a b => ¬(a = 0 ∧ b = 0))) :
    squeeze sol = sol := by
  induction sol with
  | nil => rfl
  | cons a t ih =>
    cases t with
    | nil => rfl
    | cons b t =>
      rw [List.isChain_cons_cons] at h
      rw [squeeze, if_neg h.1, ih h.2]

/-! ## without_empty_routes -/

theorem pyGroupby_id_ne (a : ℕ) (t : List ℕ) :
    ∃ g rest, pyGroupby id (a :: t) = (a, g) :: rest := by
  induction t generalizing a with
  | nil => exact ⟨[a], [], rfl⟩
  | cons b t ih =>
    obtain ⟨g, rest, h⟩ := ih b
    rw [pyGroupby, h]
    by_cases hab : a = b
    · subst hab; simp
    · exact ⟨[a], (b, g) :: rest, by simp [hab]⟩

theorem without_empty_routes_cons_cons (a b : ℕ) (t : List ℕ) :
    without_empty_routes (a :: b :: t) =
      if a = b then without_empty_routes (b :: t) else a :: without_empty_routes (b :: t) := by
  obtain ⟨g, rest, h⟩ := pyGroupby_id_ne b t
  unfold without_empty_routes
  rw [pyGroupby, h]
  by_cases hab : a = b <;> simp [hab]

/-- `without_empty_routes` removes exactly consecutive repetitions. -/
theorem without_empty_routes_destutter (sol : List ℕ) :
    without_empty_routes sol = sol.destutter (· ≠ ·) := by
  have key : ∀ (t : List ℕ) a, without_empty_routes (a :: t) = t.destutter' (· ≠ ·) a := by
    intro t
    induction t with
    | nil => intro a; rfl
    | cons b t ih =>
      intro a
      rw [without_empty_routes_cons_cons, List.destutter', ih b]
      by_cases hab : a = b
      · subst hab; simp
      · simp [hab]
  cases sol with
  | nil => rfl
  | cons a t => exact key t a

theorem without_empty_routes_eq_squeeze {sol : List ℕ}
    (h : sol.IsChain (fun a b => a = b → a = 0)) :
    without_empty_routes sol = squeeze sol := by
  induction sol with
  | nil => rfl
  | cons a t ih =>
    cases t with
    | nil => rfl
    | cons b t =>
      rw [List.isChain_cons_cons] at h
      rw [without_empty_routes_cons_cons, squeeze, ih h.2]
      by_cases hab : a = b
      · have h0 := h.1 hab
        subst hab; simp [h0]
      · have : ¬ (a = 0 ∧ b = 0) := by rintro ⟨rfl, rfl⟩; exact hab rfl
        rw [if_neg hab, if_neg this]

theorem customers_squeeze (sol : List ℕ) : customers (squeeze sol) = customers sol := by
  induction sol with
  | nil => rfl
  | cons a t ih =>
    cases t with
    | nil => rfl
    | cons b t =>
      rw [squeeze]
      split
      · rename_i h; rw [ih]; simp [h.1, h.2]
      · by_cases ha : a = 0
        · subst ha; simp [ih]
        · rw [customers_of_ne ha, customers_of_ne ha, ih]

theorem blocks_squeeze (sol : List ℕ) : blocks (squeeze sol) = blocks sol := by
  induction sol with
  | nil => rfl
  | cons a t ih =>
    cases t with
    | nil => rfl
    | cons b t =>
      rw [squeeze]
      split
      · rename_i h; obtain ⟨rfl, rfl⟩ := h; rw [ih]; simp
      · by_cases ha : a = 0
        · subst ha; simp [ih]
        · rw [blocks, if_neg ha, blocks, if_neg ha, ih]
          have hh : ∀ l : List ℕ, (squeeze l).head? = l.head? := by
            intro l
            induction l with
            | nil => rfl
            | cons c l ih =>
              cases l with
              | nil => rfl
              | cons e l =>
                rw [squeeze]; split
                · rename_i h; obtain ⟨rfl, rfl⟩ := h; rw [ih]; rfl
                · rfl
          rw [hh]

theorem cost_squeeze {D : ℕ → ℕ → ℚ} (h00 : D 0 0 = 0) (sol : List ℕ) :
    cost D (squeeze sol) = cost D sol := by
  induction sol with
  | nil => rfl
  | cons a t ih =>
    cases t with
    | nil => rfl
    | cons b t =>
      rw [squeeze]
      split
      · rename_i h; obtain ⟨rfl, rfl⟩ := h; rw [ih]; simp [h00]
      · rename_i h
        have hh : ∃ u, squeeze (b :: t) = b :: u := by
          clear ih h
          induction t generalizing b with
          | nil => exact ⟨[], rfl⟩
          | cons c t ih2 =>
            rw [squeeze]; split
            · rename_i h; obtain ⟨rfl, rfl⟩ := h; exact ih2 0
            · exact ⟨_, rfl⟩
        obtain ⟨u, hu⟩ := hh
        rw [hu, cost_cons_cons, ← hu, ih, cost_cons_cons]

end Verif
