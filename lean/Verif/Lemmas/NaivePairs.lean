import Verif.Spec.NaivePairs
import Verif.Lemmas.NaiveRoutes

/-! # Moves between two routes of a solution -/

namespace Verif

open Spec

/-- A list without depots, or two such lists with depots between them. -/
theorem split_mid (M : List ℕ) : (∀ x ∈ M, x ≠ 0) ∨ ∃ X R Y, M = X ++ R ++ Y ∧ (∀ x ∈ X, x ≠ 0) ∧ (∀ x ∈ Y, x ≠ 0) ∧ DepotEnds R := by
  by_cases h : ∀ x ∈ M, x ≠ 0
  · exact .inl h
  · right
    have h0 : 0 ∈ M := by
      by_contra hn
      exact h fun x hx e => hn (e ▸ hx)
    -- the first depot
    have first : ∀ l : List ℕ, 0 ∈ l → ∃ X Z, l = X ++ 0 :: Z ∧ ∀ x ∈ X, x ≠ 0 := by
      intro l
      induction l with
      | nil => intro h; simp at h
      | cons a l ih =>
        intro h
        by_cases ha : a = 0
        · exact ⟨[], l, by simp [ha], by simp⟩
        · obtain ⟨X, Z, rfl, hX⟩ := ih (by simpa [Ne.symm ha] using h)
          refine ⟨a :: X, Z, rfl, fun x hx => ?_⟩
          rcases List.mem_cons.1 hx with rfl | hx
          · exact ha
          · exact hX x hx
    obtain ⟨X, Z, rfl, hX⟩ := first M h0
    obtain ⟨R0, Y, e, hY⟩ := split_left (A := 0 :: Z) rfl
    refine ⟨X, R0 ++ [0], Y, by rw [e]; simp, hX, hY, ?_, by simp⟩
    cases R0 with
    | nil => rfl
    | cons r R0 =>
      simp only [List.cons_append, List.cons.injEq] at e
      simp [e.1]

theorem cost_two (D : ℕ → ℕ → ℚ) {R : List ℕ} (hR : DepotEnds R) (p b c q : List ℕ) :
    cost D (p ++ 0 :: (b ++ R ++ (c ++ 0 :: q))) = cost D (p ++ [0]) + cost D (wrap b) + cost D R + cost D (wrap c) + cost D (0 :: q) := by
  rcases depotEnds_cases hR with rfl | ⟨m, rfl⟩
  · have e1 : p ++ 0 :: (b ++ [0] ++ (c ++ 0 :: q)) = p ++ 0 :: (b ++ 0 :: (c ++ 0 :: q)) := by simp
    have e : 0 :: (b ++ 0 :: (c ++ 0 :: q)) = (0 :: b) ++ 0 :: (c ++ 0 :: q) := rfl
    have e' : 0 :: (c ++ 0 :: q) = (0 :: c) ++ 0 :: q := rfl
    rw [e1, cost_append_cons, e, cost_append_cons D (0 :: b), e', cost_append_cons D (0 :: c)]
    simp only [wrap, List.cons_append, cost]
    ring
  · have e1 : p ++ 0 :: (b ++ wrap m ++ (c ++ 0 :: q)) = p ++ 0 :: (b ++ 0 :: (m ++ 0 :: (c ++ 0 :: q))) := by simp [wrap]
    have e : 0 :: (b ++ 0 :: (m ++ 0 :: (c ++ 0 :: q))) = (0 :: b) ++ 0 :: (m ++ 0 :: (c ++ 0 :: q)) := rfl
    have e2 : 0 :: (m ++ 0 :: (c ++ 0 :: q)) = (0 :: m) ++ 0 :: (c ++ 0 :: q) := rfl
    have e' : 0 :: (c ++ 0 :: q) = (0 :: c) ++ 0 :: q := rfl
    rw [e1, cost_append_cons, e, cost_append_cons D (0 :: b), e2, cost_append_cons D (0 :: m), e', cost_append_cons D (0 :: c)]
    simp only [wrap, List.cons_append]
    ring

theorem feasible_two {D : ℕ → ℕ → ℚ} {d : ℕ → ℚ} {C L : Option ℚ} {R : List ℕ} (hR : DepotEnds R) (p b c q : List ℕ) :
    Feasible D d C L (p ++ 0 :: (b ++ R ++ (c ++ 0 :: q))) ↔
      Feasible D d C L p ∧ Feasible D d C L b ∧ Feasible D d C L R ∧ Feasible D d C L c ∧ Feasible D d C L q := by
  have h0 : Feasible D d C L [] := by intro c hc; simp [blocks] at hc
  have h1 : Feasible D d C L [0] := by
    have := feasible_append (D := D) (d := d) (C := C) (L := L) (l := []) (r := [])
    exact this.2 ⟨h0, h0⟩
  rcases depotEnds_cases hR with rfl | ⟨m, rfl⟩
  · have e1 : p ++ 0 :: (b ++ [0] ++ (c ++ 0 :: q)) = p ++ 0 :: (b ++ 0 :: (c ++ 0 :: q)) := by simp
    rw [e1, feasible_append, feasible_append, feasible_append]
    tauto
  · have e1 : p ++ 0 :: (b ++ wrap m ++ (c ++ 0 :: q)) = p ++ 0 :: (b ++ 0 :: (m ++ 0 :: (c ++ 0 :: q))) := by simp [wrap]
    rw [e1, feasible_append, feasible_append, feasible_append, feasible_append, feasible_wrap]

/-- A customer moves within a route or from one route to another one. -/
theorem nbMove_cases {sol t : List ℕ} (hs : DepotEnds sol) (h : NbMove sol t) :
    (∃ p b b' q, (∀ x ∈ b, x ≠ 0) ∧ sol = p ++ 0 :: (b ++ 0 :: q) ∧ t = p ++ 0 :: (b' ++ 0 :: q) ∧ b'.Perm b ∧ NbMove (wrap b) (wrap b')) ∨
    (∃ p R q X Y Z W n, DepotEnds R ∧ n ≠ 0 ∧ (∀ x ∈ X ++ Y ++ (Z ++ W), x ≠ 0) ∧
      ((sol = p ++ 0 :: ((X ++ n :: Y) ++ R ++ ((Z ++ W) ++ 0 :: q)) ∧ t = p ++ 0 :: ((X ++ Y) ++ R ++ ((Z ++ n :: W) ++ 0 :: q))) ∨
       (sol = p ++ 0 :: ((X ++ Y) ++ R ++ ((Z ++ n :: W) ++ 0 :: q)) ∧ t = p ++ 0 :: ((X ++ n :: Y) ++ R ++ ((Z ++ W) ++ 0 :: q))))) := by
  obtain ⟨A, E, A', E', n, hn, hA, hE, hA', hE', rfl, e, rfl⟩ := h
  have hA0 : A.head? = some 0 := by
    have := hs.1
    cases A with
    | nil => exact absurd rfl hA
    | cons a A => simpa using this
  have hE0 : E.getLast? = some 0 := by
    have := hs.2
    have h2 : A ++ n :: E = (A ++ [n]) ++ E := by simp
    rwa [h2, getLast_append_ne hE] at this
  rcases List.append_eq_append_iff.1 e with ⟨M, rfl, rfl⟩ | ⟨M, rfl, rfl⟩
  · rw [getLast_append_ne hE'] at hE0
    obtain ⟨p, P, rfl, hP⟩ := split_left hA0
    obtain ⟨Q, q, rfl, hQ⟩ := split_right hE0
    rcases split_mid M with hM | ⟨X, R, Y, rfl, hX, hY, hR⟩
    · left
      refine ⟨p, P ++ n :: M ++ Q, P ++ M ++ n :: Q, q, ?_, by simp, by simp, ?_, ?_⟩
      · intro x hx
        simp only [List.mem_append, List.mem_cons] at hx
        rcases hx with (hx | rfl | hx) | hx
        · exact hP x hx
        · exact hn
        · exact hM x hx
        · exact hQ x hx
      · rw [List.perm_iff_count]
        intro a
        simp only [List.count_append, List.count_cons]
        omega
      · exact ⟨0 :: P, M ++ Q ++ [0], 0 :: P ++ M, Q ++ [0], n, hn, by simp, by simp, by simp, by simp, by simp [wrap], by simp, by simp [wrap]⟩
    · right
      refine ⟨p, R, q, P, X, Y, Q, n, hR, hn, ?_, .inl ⟨by simp, by simp⟩⟩
      intro x hx
      simp only [List.mem_append] at hx
      rcases hx with (hx | hx) | hx | hx
      · exact hP x hx
      · exact hX x hx
      · exact hY x hx
      · exact hQ x hx
  · have hA0' : A'.head? = some 0 := by
      cases A' with
      | nil => exact absurd rfl hA'
      | cons a A' => simpa using hA0
    obtain ⟨p, P, rfl, hP⟩ := split_left hA0'
    obtain ⟨Q, q, rfl, hQ⟩ := split_right hE0
    rcases split_mid M with hM | ⟨X, R, Y, rfl, hX, hY, hR⟩
    · left
      refine ⟨p, P ++ M ++ n :: Q, P ++ n :: M ++ Q, q, ?_, by simp, by simp, ?_, ?_⟩
      · intro x hx
        simp only [List.mem_append, List.mem_cons] at hx
        rcases hx with (hx | hx) | rfl | hx
        · exact hP x hx
        · exact hM x hx
        · exact hn
        · exact hQ x hx
      · rw [List.perm_iff_count]
        intro a
        simp only [List.count_append, List.count_cons]
        omega
      · exact ⟨0 :: P ++ M, Q ++ [0], 0 :: P, M ++ Q ++ [0], n, hn, by simp, by simp, by simp, by simp, by simp [wrap], by simp, by simp [wrap]⟩
    · right
      refine ⟨p, R, q, P, X, Y, Q, n, hR, hn, ?_, .inr ⟨by simp, by simp⟩⟩
      intro x hx
      simp only [List.mem_append] at hx
      rcases hx with (hx | hx) | hx | hx
      · exact hP x hx
      · exact hX x hx
      · exact hY x hx
      · exact hQ x hx

/-- Two customers of a route swap, or two customers of two routes. -/
theorem nbSwap_cases {sol t : List ℕ} (hs : DepotEnds sol) (h : NbSwap sol t) :
    (∃ p b b' q, (∀ x ∈ b, x ≠ 0) ∧ sol = p ++ 0 :: (b ++ 0 :: q) ∧ t = p ++ 0 :: (b' ++ 0 :: q) ∧ b'.Perm b ∧ NbSwap (wrap b) (wrap b')) ∨
    (∃ p R q X Y Z W n m, DepotEnds R ∧ n ≠ 0 ∧ m ≠ 0 ∧ (∀ x ∈ X ++ Y ++ (Z ++ W), x ≠ 0) ∧
      sol = p ++ 0 :: ((X ++ n :: Y) ++ R ++ ((Z ++ m :: W) ++ 0 :: q)) ∧ t = p ++ 0 :: ((X ++ m :: Y) ++ R ++ ((Z ++ n :: W) ++ 0 :: q))) := by
  obtain ⟨A, M, E, n, m, hn, hm, rfl, rfl⟩ := h
  have hA0 : A.head? = some 0 := by
    have := hs.1
    cases A with
    | nil => simp at this; exact absurd this hn
    | cons a A => simpa using this
  have hE0 : E.getLast? = some 0 := by
    have := hs.2
    have h2 : A ++ n :: (M ++ m :: E) = (A ++ n :: (M ++ [m])) ++ E := by simp
    rcases List.eq_nil_or_concat E with rfl | ⟨E0, x, rfl⟩
    · have h3 : A ++ n :: (M ++ [m]) = (A ++ n :: M) ++ [m] := by simp
      rw [h3, List.getLast?_concat] at this
      injection this with this
      exact absurd this hm
    · rwa [h2, getLast_append_ne (by simp)] at this
  obtain ⟨p, P, rfl, hP⟩ := split_left hA0
  obtain ⟨Q, q, rfl, hQ⟩ := split_right hE0
  rcases split_mid M with hM | ⟨X, R, Y, rfl, hX, hY, hR⟩
  · left
    refine ⟨p, P ++ n :: (M ++ m :: Q), P ++ m :: (M ++ n :: Q), q, ?_, by simp, by simp, ?_, ?_⟩
    · intro x hx
      simp only [List.mem_append, List.mem_cons] at hx
      rcases hx with hx | rfl | hx | rfl | hx
      · exact hP x hx
      · exact hn
      · exact hM x hx
      · exact hm
      · exact hQ x hx
    · rw [List.perm_iff_count]
      intro a
      simp only [List.count_append, List.count_cons]
      omega
    · exact ⟨0 :: P, M, Q ++ [0], n, m, hn, hm, by simp [wrap], by simp [wrap]⟩
  · right
    refine ⟨p, R, q, P, X, Y, Q, n, m, hR, hn, hm, ?_, by simp, by simp⟩
    intro x hx
    simp only [List.mem_append] at hx
    rcases hx with (hx | hx) | hx | hx
    · exact hP x hx
    · exact hX x hx
    · exact hY x hx
    · exact hQ x hx

end Verif
