import Verif.Lemmas.StarCheck
import Verif.Lemmas.Sweep
import Verif.Spec.Star

/-! # Lemmas for the 3-opt* move: the routes of the new solution -/

namespace Verif
open Spec

section
variable {D : ℕ → ℕ → ℚ} {d : ℕ → ℚ} {C L : Option ℚ}

theorem feas_zero (l r : List ℕ) : Feasible D d C L (l ++ 0 :: r) ↔ Feasible D d C L l ∧ Feasible D d C L r := by
  simp only [Feasible, blocks_append_zero, List.mem_append, or_imp, forall_and]

theorem feas_nil : Feasible D d C L [] := by simp [Feasible]

theorem feas_free {p : List ℕ} (h : 0 ∉ p) : Feasible D d C L p ↔ p = [] ∨ RouteOk D d C L p := by
  rw [Feasible, blocks_zerofree p fun x hx e => h (e ▸ hx)]
  by_cases hp : p = []
  · simp [hp]
  · simp [hp]

theorem routeOk_reverse (hs : Symm D) {b : List ℕ} (h : RouteOk D d C L b) : RouteOk D d C L b.reverse := by
  unfold RouteOk
  rw [demand_reverse, wrap_reverse, cost_reverse hs]
  exact h

theorem feas_reverse (hs : Symm D) {l : List ℕ} (h : Feasible D d C L l) : Feasible D d C L l.reverse := by
  obtain ⟨n, hn⟩ : ∃ n, l.length = n := ⟨_, rfl⟩
  induction n using Nat.strong_induction_on generalizing l with
  | _ n ih =>
    by_cases h0 : 0 ∈ l
    · obtain ⟨a, r, rfl, ha⟩ := List.eq_append_cons_of_mem h0
      obtain ⟨h1, h2⟩ := (feas_zero _ _).1 h
      have e : (a ++ 0 :: r).reverse = r.reverse ++ 0 :: a.reverse := by simp
      rw [e, feas_zero]
      simp only [List.length_append, List.length_cons] at hn
      exact ⟨ih r.length (by omega) h2 rfl, ih a.length (by omega) h1 rfl⟩
    · rw [feas_free (by simpa using h0)]
      rcases (feas_free h0).1 h with rfl | h
      · exact .inl rfl
      · exact .inr (routeOk_reverse hs h)

/-- The routes inside a segment are within the limits. -/
def Inner (D : ℕ → ℕ → ℚ) (d : ℕ → ℚ) (C L : Option ℚ) (T : List ℕ) : Prop :=
  ∀ a x b, T = a ++ 0 :: (x ++ 0 :: b) → Feasible D d C L x

theorem inner_of_feas {X T Y : List ℕ} (h : Feasible D d C L (X ++ (T ++ Y))) : Inner D d C L T := by
  rintro a x b rfl
  have e : X ++ (a ++ 0 :: (x ++ 0 :: b) ++ Y) = (X ++ a) ++ 0 :: (x ++ 0 :: (b ++ Y)) := by simp
  rw [e, feas_zero, feas_zero] at h
  exact h.2.1

theorem inner_reverse (hs : Symm D) {T : List ℕ} (h : Inner D d C L T) : Inner D d C L T.reverse := by
  intro a x b e
  have := congrArg List.reverse e
  rw [List.reverse_reverse] at this
  have h2 := h b.reverse x.reverse a.reverse (by rw [this]; simp)
  simpa using feas_reverse hs h2

theorem inner_depots {h M t : List ℕ} (hi : Inner D d C L (h ++ (M ++ t))) (hM : DepotEnds M) : Feasible D d C L M := by
  rcases depotEnds_cases hM with rfl | ⟨m, rfl⟩
  · intro b hb; simp [blocks] at hb
  · have := hi h m t (by simp [wrap])
    intro b hb
    rw [blocks_wrap] at hb
    exact this b hb

theorem feas_depots {l M r : List ℕ} (hM : DepotEnds M) :
    Feasible D d C L (l ++ (M ++ r)) ↔ Feasible D d C L l ∧ Feasible D d C L M ∧ Feasible D d C L r := by
  rcases depotEnds_cases hM with rfl | ⟨m, rfl⟩
  · have : Feasible D d C L [0] := by intro b hb; simp [blocks] at hb
    rw [List.singleton_append, feas_zero]; simp [this]
  · have e : l ++ (wrap m ++ r) = l ++ 0 :: (m ++ 0 :: r) := by simp [wrap]
    have e2 : Feasible D d C L (wrap m) ↔ Feasible D d C L m := by unfold Feasible; rw [blocks_wrap]
    rw [e, feas_zero, feas_zero, e2]

/-- A segment with a depot in parts. -/
theorem split_seg {T : List ℕ} (h : 0 ∈ T) : ∃ a M b, T = a ++ (M ++ b) ∧ 0 ∉ a ∧ DepotEnds M ∧ 0 ∉ b ∧ headRun T = a ∧
    ∀ p, runFrom p T = b := by
  obtain ⟨a, M, b, rfl, ha, hM, hb⟩ := split_depots h
  refine ⟨a, M, b, rfl, ha, hM, hb, ?_, fun p => ?_⟩
  · rcases depotEnds_cases hM with rfl | ⟨m, rfl⟩
    · exact headRun_split ha
    · have e : a ++ (wrap m ++ b) = a ++ 0 :: (m ++ [0] ++ b) := by simp [wrap]
      rw [e]; exact headRun_split ha
  · rcases depotEnds_cases hM with rfl | ⟨m, rfl⟩
    · exact runFrom_split p hb
    · have e : a ++ (wrap m ++ b) = (a ++ 0 :: m) ++ 0 :: b := by simp [wrap]
      rw [e]; exact runFrom_split p hb

/-- The run goes on over a segment. -/
theorem feas_step {p T l : List ℕ} (hp : 0 ∉ p) (hc : ChkOk D d C L p T) (hi : Inner D d C L T)
    (h : Feasible D d C L (runFrom p T ++ l)) : Feasible D d C L (p ++ (T ++ l)) := by
  by_cases h0 : 0 ∈ T
  · rw [ChkOk, if_pos h0] at hc
    obtain ⟨a, M, b, rfl, ha, hM, hb, e1, e2⟩ := split_seg h0
    rw [e1] at hc
    rw [e2] at h
    have e : p ++ (a ++ (M ++ b) ++ l) = (p ++ a) ++ (M ++ (b ++ l)) := by simp
    rw [e, feas_depots hM]
    exact ⟨(feas_free (by simp [hp, ha])).2 (.inr hc), inner_depots hi hM, h⟩
  · rw [runFrom_zerofree _ h0] at h
    simpa using h

theorem run_free {p T : List ℕ} (hp : 0 ∉ p) : 0 ∉ runFrom p T := by
  by_cases h0 : 0 ∈ T
  · obtain ⟨a, M, b, rfl, ha, hM, hb, e1, e2⟩ := split_seg h0
    rw [e2]; exact hb
  · rw [runFrom_zerofree _ h0]; simp [hp, h0]

theorem run_last_zero {p E : List ℕ} (h : E.getLast? = some 0) : runFrom p E = [] := by
  obtain ⟨E', x, rfl⟩ := exists_snoc (X := E) (by rintro rfl; cases h)
  simp only [List.getLast?_append, List.getLast?_singleton, Option.some_or, Option.some.injEq] at h
  subst h
  rw [runFrom_append]; simp [runFrom]

theorem feas_start {A l : List ℕ} (hA : A.head? = some 0) (hi : Inner D d C L A)
    (h : Feasible D d C L (runFrom [] A ++ l)) : Feasible D d C L (A ++ l) := by
  obtain ⟨a, M, b, rfl, ha, hM, hb, e1, e2⟩ := split_seg (List.mem_of_mem_head? hA)
  have : a = [] := by
    cases a with
    | nil => rfl
    | cons x a => simp at hA ha; exact absurd hA.symm ha.1
  subst this
  rw [e2] at h
  have e : [] ++ (M ++ b) ++ l = [] ++ (M ++ (b ++ l)) := by simp
  rw [e, feas_depots hM]
  exact ⟨feas_nil, inner_depots hi hM, h⟩

theorem feas_start_conv {A l : List ℕ} (hA : 0 ∈ A) (h : Feasible D d C L (A ++ l)) :
    Feasible D d C L (runFrom [] A ++ l) := by
  obtain ⟨a, M, b, rfl, ha, hM, hb, e1, e2⟩ := split_seg hA
  rw [e2]
  have e : a ++ (M ++ b) ++ l = a ++ (M ++ (b ++ l)) := by simp
  rw [e, feas_depots hM] at h
  exact h.2.2

theorem feas_close {P E Q : List ℕ} (hE : E.getLast? = some 0) :
    Feasible D d C L (P ++ (E ++ Q)) ↔ Feasible D d C L (P ++ E) ∧ Feasible D d C L Q := by
  obtain ⟨E', x, rfl⟩ := exists_snoc (X := E) (by rintro rfl; cases hE)
  simp only [List.getLast?_append, List.getLast?_singleton, Option.some_or, Option.some.injEq] at hE
  subst hE
  have e1 : P ++ (E' ++ [0] ++ Q) = (P ++ E') ++ 0 :: Q := by simp
  have e2 : P ++ (E' ++ [0]) = (P ++ E') ++ 0 :: [] := by simp
  rw [e1, e2, feas_zero, feas_zero]
  have := feas_nil (D := D) (d := d) (C := C) (L := L)
  tauto

theorem cost_nn (h : ∀ i j, 0 ≤ D i j) : ∀ l : List ℕ, 0 ≤ cost D l
  | [] => le_refl _
  | [_] => le_refl _
  | a :: b :: t => by rw [cost]; exact add_nonneg (h a b) (cost_nn h (b :: t))

theorem demand_nn (h : ∀ i, 0 ≤ d i) : ∀ l : List ℕ, 0 ≤ demand d l
  | [] => le_refl _
  | a :: t => by rw [demand]; exact add_nonneg (h a) (demand_nn h t)

theorem routeOk_nil (h : NonNegative D d C L) : RouteOk D d C L [] := by
  constructor
  · intro c hc _
    have := h.cap c hc
    simp only [demand, C_EPS]
    have : (0 : ℚ) < 1 / 10 ^ 10 := by norm_num
    linarith
  · intro c hc _
    have := h.len c hc
    have h2 := S_EPS_pos
    simp only [wrap, List.nil_append, cost, h.depot]
    linarith

/-- The other way around: what the checker asks for holds for a solution within the limits. -/
theorem feas_step_conv (hn : NonNegative D d C L) {p T l : List ℕ} (hp : 0 ∉ p) (h0 : 0 ∈ T ++ l)
    (h : Feasible D d C L (p ++ (T ++ l))) : ChkOk D d C L p T ∧ Feasible D d C L (runFrom p T ++ l) := by
  by_cases hT : 0 ∈ T
  · rw [ChkOk, if_pos hT]
    obtain ⟨a, M, b, rfl, ha, hM, hb, e1, e2⟩ := split_seg hT
    rw [e1, e2]
    have e : p ++ (a ++ (M ++ b) ++ l) = (p ++ a) ++ (M ++ (b ++ l)) := by simp
    rw [e, feas_depots hM] at h
    refine ⟨?_, h.2.2⟩
    rcases (feas_free (by simp [hp, ha])).1 h.1 with e | h
    · rw [e]; exact routeOk_nil hn
    · exact h
  · rw [ChkOk, if_neg hT, runFrom_zerofree _ hT]
    refine ⟨?_, by simpa using h⟩
    obtain ⟨a, r, rfl, ha⟩ := List.eq_append_cons_of_mem (by simpa [hT] using h0 : 0 ∈ l)
    have e : p ++ (T ++ (a ++ 0 :: r)) = (p ++ T ++ a) ++ 0 :: r := by simp
    rw [e, feas_zero] at h
    have hok : RouteOk D d C L (p ++ T ++ a) := by
      rcases (feas_free (by simp [hp, ha, hT])).1 h.1 with e | h
      · rw [e]; exact routeOk_nil hn
      · exact h
    constructor
    · refine within_mono hok.1 ?_
      rw [demand_append _ (p ++ T)]
      have := demand_nn hn.dem a
      linarith
    · refine within_mono hok.2 ?_
      have e : wrap (p ++ T ++ a) = (0 :: (p ++ T)) ++ (a ++ [0]) := by simp [wrap]
      rw [e, cost_app D (by simp) (by simp)]
      have h1 := cost_nn hn.dist (a ++ [0])
      have h2 := hn.dist ((0 :: (p ++ T)).getLastD 0) ((a ++ [0]).headD 0)
      linarith

end

end Verif
