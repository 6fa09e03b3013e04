import Verif.Spec.CallInit
import Verif.Spec.MoleJameson

/-! # Specification vocabulary of rounded distances -/

namespace Verif.Spec

/-- Distances as they are after rounding: symmetric whole numbers, none negative, zeros in the diagonal, and a detour is at most
1 shorter than the direct way. -/
structure RoundedDist (D : ℕ → ℕ → ℚ) : Prop where
  symm : ∀ i j, D i j = D j i
  nonneg : ∀ i j, 0 ≤ D i j
  self : ∀ i, D i i = 0
  whole : ∃ E : ℕ → ℕ → ℤ, ∀ i j, D i j = E i j
  detour : ∀ i j k, D i k ≤ D i j + D j k + 1

theorem RoundedDist.mj {D : ℕ → ℕ → ℚ} (h : RoundedDist D) : MjDist D := by
  obtain ⟨E, hE⟩ := h.whole
  refine ⟨h.symm, h.nonneg, h.self, fun a n b x y hlt => ?_, .inr ⟨E, hE⟩⟩
  by_contra hc
  have h1 := h.detour x n y
  simp only [hE] at hlt hc h1
  have h2 : E a b - E a n - E n b + (E x n + E n y - E x y) < 0 := by exact_mod_cast hlt
  have h3 : E a n + E n b < E a b := by exact_mod_cast not_le.1 hc
  have h4 : E x y ≤ E x n + E n y + 1 := by exact_mod_cast h1
  omega

/-- What some of the heuristics need besides: those that follow nearest neighbours that no two customers have the distance zero, the insertion of
Mole and Jameson that the distances are rounded ones, the sweep of Gillett and Miller and the partition of a tour that tours of fewer customers are not longer, the relaxation
a capacity, a demand and a distance. -/
structure RoundedNeeds (e : CallEnv) (a : Algo) : Prop where
  distinct : a = .sn ∨ a = .pn ∨ a = .ty → ∀ i j, 1 ≤ i → i < e.N → 1 ≤ j → j < e.N → i ≠ j → 0 < e.D i j
  mole : a = .mj → RoundedDist e.D
  part : a = .gm → CheaperForPart (e.tsp e.D)
  grows : a = .rfcs → GrowsLonger e.popt
  relaxed : a = .lr3o → InUse e.C ∧ (∃ i, i < e.N ∧ 0 < e.d i) ∧ ∃ i j, 1 ≤ i ∧ i < e.N ∧ 1 ≤ j ∧ j < e.N ∧ 0 < e.D i j

end Verif.Spec
