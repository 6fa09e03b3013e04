import Verif.Model.Ropt
import Verif.Lemmas.Basic
import Verif.Lemmas.CvrpOps
import Mathlib.Tactic.Linarith
import Mathlib.Tactic.FieldSimp
import Mathlib.Algebra.Order.Archimedean.Basic

/-! # Lemmas about descents -/

namespace Verif

open Verif.Spec

theorem S_EPS_pos : (0 : ℚ) < S_EPS := by norm_num [S_EPS]

/-- The distances between the elements of a finite list have a non-positive lower bound. -/
theorem dist_bdd (D : ℕ → ℕ → ℚ) (l : List ℕ) : ∃ m : ℚ, m ≤ 0 ∧ ∀ a ∈ l, ∀ b ∈ l, m ≤ D a b := by
  have key : ∀ xs : List ℚ, ∃ m : ℚ, m ≤ 0 ∧ ∀ x ∈ xs, m ≤ x := by
    intro xs
    induction xs with
    | nil => exact ⟨0, le_refl _, by simp⟩
    | cons x t ih =>
      obtain ⟨m, h0, hm⟩ := ih
      refine ⟨min m x, (min_le_left _ _).trans h0, ?_⟩
      intro y hy
      rcases List.mem_cons.1 hy with rfl | hy
      · exact min_le_right _ _
      · exact (min_le_left _ _).trans (hm y hy)
  obtain ⟨m, h0, hm⟩ := key (l.flatMap fun a => l.map (D a))
  refine ⟨m, h0, fun a ha b hb => hm _ ?_⟩
  rw [List.mem_flatMap]
  exact ⟨a, ha, List.mem_map.2 ⟨b, hb, rfl⟩⟩

theorem cost_ge {D : ℕ → ℕ → ℚ} {m : ℚ} (h0 : m ≤ 0) :
    ∀ {l : List ℕ}, (∀ a ∈ l, ∀ b ∈ l, m ≤ D a b) → m * l.length ≤ cost D l
  | [], _ => by simp [cost]
  | [_], _ => by simpa [cost] using h0
  | a :: b :: t, h => by
    have ih := cost_ge h0 (l := b :: t) (fun x hx y hy => h x (by simp [hx]) y (by simp [hy]))
    have h1 := h a (by simp) b (by simp)
    simp only [cost, List.length_cons, Nat.cast_add, Nat.cast_one] at ih ⊢
    linarith

/-- The orders of a list have a common lower bound of the cost. -/
theorem cost_perm_bdd (D : ℕ → ℕ → ℚ) (l : List ℕ) : ∃ m : ℚ, ∀ r, r.Perm l → m ≤ cost D r := by
  obtain ⟨m, h0, hm⟩ := dist_bdd D l
  refine ⟨m * l.length, fun r hr => ?_⟩
  rw [← hr.length_eq]
  exact cost_ge h0 fun a ha b hb => hm a (hr.mem_iff.1 ha) b (hr.mem_iff.1 hb)

theorem descend_spec {D : ℕ → ℕ → ℚ} {step : List ℕ → Py (Option (List ℕ × ℚ))}
    {Inv : List ℕ → Prop} {m : ℚ} (hm : ∀ r, Inv r → m ≤ cost D r)
    (hs : ∀ r, Inv r → ∃ o, step r = .ok o ∧ ∀ r' δ, o = some (r', δ) →
      Inv r' ∧ cost D r' = cost D r + δ ∧ δ + S_EPS < 0) :
    ∀ (n : ℕ) (r : List ℕ), Inv r → cost D r - m ≤ n * S_EPS → ∀ fuel, n < fuel →
      ∃ r', descend step fuel (r, cost D r) = .ok (some (r', cost D r')) ∧ Inv r' ∧
        cost D r' ≤ cost D r ∧ step r' = .ok none := by
  intro n
  induction n with
  | zero =>
    intro r hr hc fuel hf
    obtain ⟨f, rfl⟩ : ∃ f, fuel = f + 1 := ⟨fuel - 1, by omega⟩
    obtain ⟨o, ho, h⟩ := hs r hr
    rcases o with _ | ⟨r', δ⟩
    · exact ⟨r, by simp [descend, ho], hr, le_refl _, ho⟩
    · obtain ⟨h1, h2, h3⟩ := h r' δ rfl
      have := hm r' h1
      have := S_EPS_pos
      exfalso
      simp only [Nat.cast_zero, zero_mul] at hc
      linarith
  | succ n ih =>
    intro r hr hc fuel hf
    obtain ⟨f, rfl⟩ : ∃ f, fuel = f + 1 := ⟨fuel - 1, by omega⟩
    obtain ⟨o, ho, h⟩ := hs r hr
    rcases o with _ | ⟨r', δ⟩
    · exact ⟨r, by simp [descend, ho], hr, le_refl _, ho⟩
    · obtain ⟨h1, h2, h3⟩ := h r' δ rfl
      have he := S_EPS_pos
      have hc' : cost D r' - m ≤ n * S_EPS := by
        push_cast at hc
        linarith
      obtain ⟨r'', g1, g2, g3, g4⟩ := ih r' h1 hc' f (by omega)
      refine ⟨r'', ?_, g2, by linarith, g4⟩
      simp only [descend, ho]
      rw [← h2]
      exact g1

/-- Enough steps for any cost difference. -/
theorem exists_steps (x : ℚ) : ∃ n : ℕ, x ≤ n * S_EPS := by
  have h : (0 : ℚ) < S_EPS := S_EPS_pos
  obtain ⟨n, hn⟩ := exists_nat_ge (x / S_EPS)
  exact ⟨n, (div_le_iff₀ h).1 hn⟩

end Verif
