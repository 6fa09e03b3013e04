import Verif.Model.Distances
import Verif.Spec.Distances
import Mathlib.Geometry.Euclidean.Angle.Unoriented.TriangleInequality
import Mathlib.Analysis.InnerProductSpace.PiL2
import Mathlib.Tactic.Linarith
import Mathlib.Tactic.Ring
import Mathlib.Tactic.NormNum

/-! # Lemmas on the distances from coordinates (C69) -/

namespace Verif
open Spec

/-! ## The metrics -/

theorem euclidean_nonneg (v w : ℝ × ℝ) : 0 ≤ euclidean v w := Real.sqrt_nonneg _

theorem euclidean_sq (v w : ℝ × ℝ) : euclidean v w ^ 2 = (v.1 - w.1) ^ 2 + (v.2 - w.2) ^ 2 := Real.sq_sqrt (by positivity)

theorem euclidean_symm (v w : ℝ × ℝ) : euclidean v w = euclidean w v := by
  unfold euclidean; congr 1; ring

theorem euclidean_triangle (u v w : ℝ × ℝ) : euclidean u w ≤ euclidean u v + euclidean v w := by
  have h1 := euclidean_nonneg u v
  have h2 := euclidean_nonneg v w
  refine Real.sqrt_le_iff.2 ⟨by linarith, ?_⟩
  have e1 := euclidean_sq u v
  have e2 := euclidean_sq v w
  have h3 : (u.1 - v.1) * (v.1 - w.1) + (u.2 - v.2) * (v.2 - w.2) ≤ euclidean u v * euclidean v w := by
    refine abs_le_of_sq_le_sq' ?_ (mul_nonneg h1 h2) |>.2
    rw [mul_pow, e1, e2]
    nlinarith [sq_nonneg ((u.1 - v.1) * (v.2 - w.2) - (u.2 - v.2) * (v.1 - w.1))]
  nlinarith

theorem euclidean_pos {v w : ℝ × ℝ} (h : v ≠ w) : 0 < euclidean v w := by
  refine lt_of_le_of_ne (euclidean_nonneg v w) fun e => h ?_
  have h1 := euclidean_sq v w
  rw [← e] at h1
  have h2 : v.1 - w.1 = 0 := by nlinarith [sq_nonneg (v.1 - w.1), sq_nonneg (v.2 - w.2)]
  have h3 : v.2 - w.2 = 0 := by nlinarith [sq_nonneg (v.1 - w.1), sq_nonneg (v.2 - w.2)]
  exact Prod.ext (by linarith) (by linarith)

theorem chebyshev_symm (v w : ℝ × ℝ) : chebyshev v w = chebyshev w v := by
  unfold chebyshev; rw [abs_sub_comm v.1, abs_sub_comm v.2]

theorem chebyshev_triangle (u v w : ℝ × ℝ) : chebyshev u w ≤ chebyshev u v + chebyshev v w := by
  unfold chebyshev
  refine max_le ?_ ?_
  · exact (abs_sub_le u.1 v.1 w.1).trans (add_le_add (le_max_left _ _) (le_max_left _ _))
  · exact (abs_sub_le u.2 v.2 w.2).trans (add_le_add (le_max_right _ _) (le_max_right _ _))

theorem chebyshev_nonneg (v w : ℝ × ℝ) : 0 ≤ chebyshev v w := le_max_of_le_left (abs_nonneg _)

theorem chebyshev_pos {v w : ℝ × ℝ} (h : v ≠ w) : 0 < chebyshev v w := by
  unfold chebyshev
  by_cases h1 : v.1 = w.1
  · refine lt_max_of_lt_right (abs_pos.2 fun h2 => h (Prod.ext h1 (by linarith)))
  · exact lt_max_of_lt_left (abs_pos.2 (sub_ne_zero.2 h1))

theorem cityblock_symm (v w : ℝ × ℝ) : cityblock v w = cityblock w v := by
  unfold cityblock; rw [abs_sub_comm v.1, abs_sub_comm v.2]

theorem cityblock_triangle (u v w : ℝ × ℝ) : cityblock u w ≤ cityblock u v + cityblock v w := by
  have h1 := abs_sub_le u.1 v.1 w.1
  have h2 := abs_sub_le u.2 v.2 w.2
  unfold cityblock
  linarith

theorem cityblock_nonneg (v w : ℝ × ℝ) : 0 ≤ cityblock v w := add_nonneg (abs_nonneg _) (abs_nonneg _)

theorem cityblock_pos {v w : ℝ × ℝ} (h : v ≠ w) : 0 < cityblock v w := by
  unfold cityblock
  by_cases h1 : v.1 = w.1
  · exact add_pos_of_nonneg_of_pos (abs_nonneg _) (abs_pos.2 fun h2 => h (Prod.ext h1 (by linarith)))
  · exact add_pos_of_pos_of_nonneg (abs_pos.2 (sub_ne_zero.2 h1)) (abs_nonneg _)

theorem attDist_eq (v w : ℝ × ℝ) : attDist v w = (⌈euclidean v w / 10⌉ : ℤ) := by
  have h0 : 0 ≤ euclidean v w / 10 := div_nonneg (euclidean_nonneg v w) (by norm_num)
  show (if ((intOf (euclidean v w / 10) : ℤ) : ℝ) < euclidean v w / 10 then ((intOf (euclidean v w / 10) : ℤ) : ℝ) + 1
    else ((intOf (euclidean v w / 10) : ℤ) : ℝ)) = _
  have hi : intOf (euclidean v w / 10) = ⌊euclidean v w / 10⌋ := if_pos h0
  rw [hi]
  by_cases h : ((⌊euclidean v w / 10⌋ : ℤ) : ℝ) < euclidean v w / 10
  · rw [if_pos h]
    have : ⌈euclidean v w / 10⌉ = ⌊euclidean v w / 10⌋ + 1 := by
      rw [Int.ceil_eq_iff]
      push_cast
      exact ⟨by linarith, (Int.lt_floor_add_one _).le⟩
    rw [this]
    push_cast
    ring
  · rw [if_neg h]
    have he : ((⌊euclidean v w / 10⌋ : ℤ) : ℝ) = euclidean v w / 10 := le_antisymm (Int.floor_le _) (not_lt.1 h)
    have : ⌈euclidean v w / 10⌉ = ⌊euclidean v w / 10⌋ := by
      rw [Int.ceil_eq_iff]
      exact ⟨by linarith, he.ge⟩
    rw [this]

theorem ceil_triangle {a b c : ℝ} (h : a ≤ b + c) : ((⌈a⌉ : ℤ) : ℝ) ≤ (⌈b⌉ : ℤ) + (⌈c⌉ : ℤ) := by
  have := (Int.ceil_mono h).trans (Int.ceil_add_le b c)
  exact_mod_cast this

/-! ## On the globe -/

/-- The point of the sphere with a latitude and a longitude. -/
noncomputable def onSphere (v : ℝ × ℝ) : EuclideanSpace ℝ (Fin 3) :=
  !₂[Real.cos v.1 * Real.cos v.2, Real.cos v.1 * Real.sin v.2, Real.sin v.1]

theorem inner_onSphere (v w : ℝ × ℝ) : inner ℝ (onSphere v) (onSphere w) = geoArg v w := by
  simp only [onSphere, geoArg, EuclideanSpace.inner_eq_star_dotProduct, dotProduct, Fin.sum_univ_three]
  simp
  rw [Real.cos_sub, Real.cos_sub, Real.cos_add]
  ring

theorem norm_onSphere (v : ℝ × ℝ) : ‖onSphere v‖ = 1 := by
  have h : inner ℝ (onSphere v) (onSphere v) = (1 : ℝ) := by
    rw [inner_onSphere]
    unfold geoArg
    rw [sub_self, sub_self, Real.cos_zero]
    ring
  rw [real_inner_self_eq_norm_sq] at h
  have := norm_nonneg (onSphere v)
  nlinarith

theorem arccos_geoArg (v w : ℝ × ℝ) : Real.arccos (geoArg v w) = InnerProductGeometry.angle (onSphere v) (onSphere w) := by
  unfold InnerProductGeometry.angle
  rw [inner_onSphere, norm_onSphere, norm_onSphere]
  norm_num

theorem geoArg_mem (v w : ℝ × ℝ) : -1 ≤ geoArg v w ∧ geoArg v w ≤ 1 := by
  have h := abs_real_inner_le_norm (onSphere v) (onSphere w)
  rw [norm_onSphere, norm_onSphere, inner_onSphere, one_mul] at h
  exact abs_le.1 h

theorem geoDist_eq (v w : ℝ × ℝ) : geoDist v w = (⌊6378388 / 1000 * Real.arccos (geoArg v w)⌋ : ℤ) + 1 := by
  have h : 0 ≤ 6378388 / 1000 * Real.arccos (geoArg v w) + 1 := by
    have := Real.arccos_nonneg (geoArg v w)
    positivity
  unfold geoDist intOf
  rw [if_pos h, Int.floor_add_one]
  push_cast
  rfl

theorem geoDist_symm (v w : ℝ × ℝ) : geoDist v w = geoDist w v := by
  have : geoArg v w = geoArg w v := by rw [← inner_onSphere, ← inner_onSphere, real_inner_comm]
  rw [geoDist_eq, geoDist_eq, this]

theorem geoDist_pos (v w : ℝ × ℝ) : 1 ≤ geoDist v w := by
  rw [geoDist_eq]
  have : (0 : ℤ) ≤ ⌊6378388 / 1000 * Real.arccos (geoArg v w)⌋ :=
    Int.floor_nonneg.2 (mul_nonneg (by norm_num) (Real.arccos_nonneg _))
  have : (0 : ℝ) ≤ (⌊6378388 / 1000 * Real.arccos (geoArg v w)⌋ : ℤ) := by exact_mod_cast this
  linarith

theorem geoDist_triangle (u v w : ℝ × ℝ) : geoDist u w ≤ geoDist u v + geoDist v w := by
  rw [geoDist_eq, geoDist_eq, geoDist_eq, arccos_geoArg, arccos_geoArg, arccos_geoArg]
  have h := InnerProductGeometry.angle_le_angle_add_angle (onSphere u) (onSphere v) (onSphere w)
  generalize InnerProductGeometry.angle (onSphere u) (onSphere w) = a at *
  generalize InnerProductGeometry.angle (onSphere u) (onSphere v) = b at *
  generalize InnerProductGeometry.angle (onSphere v) (onSphere w) = c at *
  have h1 : 6378388 / 1000 * a ≤ 6378388 / 1000 * b + 6378388 / 1000 * c := by linarith
  have h2 := Int.floor_mono h1
  have h3 := Int.le_floor_add_floor (6378388 / 1000 * b) (6378388 / 1000 * c)
  have h4 : ⌊6378388 / 1000 * a⌋ ≤ ⌊6378388 / 1000 * b⌋ + ⌊6378388 / 1000 * c⌋ + 1 := by omega
  have h5 : ((⌊6378388 / 1000 * a⌋ : ℤ) : ℝ) ≤ (⌊6378388 / 1000 * b⌋ : ℤ) + (⌊6378388 / 1000 * c⌋ : ℤ) + 1 := by exact_mod_cast h4
  linarith

/-! ## Rounding -/

theorem npRound_near (x : ℝ) : |(npRound x : ℝ) - x| ≤ 1 / 2 := by
  have h1 := Int.floor_le x
  have h2 := Int.lt_floor_add_one x
  unfold npRound
  split_ifs with a b c <;> rw [abs_le] <;> push_cast <;> constructor <;> linarith

theorem npRound_half {x : ℝ} (h : |(npRound x : ℝ) - x| = 1 / 2) : npRound x % 2 = 0 := by
  have h1 := Int.floor_le x
  have h2 := Int.lt_floor_add_one x
  unfold npRound at h ⊢
  split_ifs at h ⊢ with a b c
  · rcases abs_cases ((⌊x⌋ : ℝ) - x) with ⟨e, -⟩ | ⟨e, -⟩ <;> rw [e] at h <;> linarith
  · push_cast at h
    rcases abs_cases ((⌊x⌋ : ℝ) + 1 - x) with ⟨e, -⟩ | ⟨e, -⟩ <;> rw [e] at h <;> linarith
  · exact c
  · omega

theorem npRound_zero : npRound 0 = 0 := by unfold npRound; norm_num

theorem npRound_nonneg {x : ℝ} (h : 0 ≤ x) : 0 ≤ npRound x := by
  have : 0 ≤ ⌊x⌋ := Int.floor_nonneg.2 h
  unfold npRound
  split_ifs <;> omega

/-! ## The matrix -/

theorem squareform_dist {f : ℝ × ℝ → ℝ × ℝ → ℝ} (h0 : ∀ v w, 0 ≤ f v w) (pts : ℕ → ℝ × ℝ) : DistMatrix (squareform f pts) := by
  refine ⟨fun i j => ?_, fun i => ?_, fun i j => ?_⟩
  · unfold squareform
    rcases lt_trichotomy i j with h | h | h
    · rw [if_pos h, if_neg (by omega), if_pos h]
    · subst h; rfl
    · rw [if_neg (by omega), if_pos h, if_pos h]
  · simp [squareform]
  · unfold squareform
    split_ifs
    · exact h0 _ _
    · exact h0 _ _
    · exact le_refl _

theorem squareform_of_ne {f : ℝ × ℝ → ℝ × ℝ → ℝ} (hs : ∀ v w, f v w = f w v) (pts : ℕ → ℝ × ℝ) {i j : ℕ} (h : i ≠ j) :
    squareform f pts i j = f (pts i) (pts j) := by
  unfold squareform
  rcases lt_or_gt_of_ne h with h | h
  · rw [if_pos h]
  · rw [if_neg (by omega), if_pos h, hs]

theorem squareform_triangle {f : ℝ × ℝ → ℝ × ℝ → ℝ} (h0 : ∀ v w, 0 ≤ f v w) (hs : ∀ v w, f v w = f w v)
    (ht : ∀ u v w, f u w ≤ f u v + f v w) (pts : ℕ → ℝ × ℝ) (i j k : ℕ) :
    squareform f pts i k ≤ squareform f pts i j + squareform f pts j k := by
  have hd := squareform_dist h0 pts
  by_cases h1 : i = j
  · subst h1; rw [hd.diag]; linarith
  by_cases h2 : j = k
  · subst h2; rw [hd.diag]; linarith
  by_cases h3 : i = k
  · subst h3; rw [hd.diag]; exact add_nonneg (hd.nonneg _ _) (hd.nonneg _ _)
  rw [squareform_of_ne hs pts h1, squareform_of_ne hs pts h2, squareform_of_ne hs pts h3]
  exact ht _ _ _

end Verif
