import Verif.Model.Generate
import Verif.Spec.Generate
import Verif.Lemmas.Distances

/-! # Lemmas about the random problems -/

namespace Verif
open Spec

/-- The angle of the customer with the index `k` (from zero). -/
noncomputable def genAngle (N : ℕ) (regular : Bool) (draw : ℕ → GenDraw) (a : ℝ) (k m : ℕ) : ℝ :=
  if regular then a + (m + 1 - k) * (2 * Real.pi / N) else (draw m).unit * 2 * Real.pi

/-- The radius of the customer. -/
noncomputable def genRadius (R : ℝ) (regular : Bool) (draw : ℕ → GenDraw) (m : ℕ) : ℝ :=
  if regular then R else R * (draw m).radius

theorem genLoop_eq {N : ℕ} {C R : ℝ} {regular : Bool} {draw : ℕ → GenDraw} :
    ∀ (n k : ℕ) (a : ℝ) (ps : List (ℝ × ℝ)) (ds : List ℝ), genLoop N C R regular draw n k a ps ds =
      (ps ++ (List.range' k n).map (fun m => (genRadius R regular draw m * Real.cos (genAngle N regular draw a k m),
          genRadius R regular draw m * Real.sin (genAngle N regular draw a k m))),
       ds ++ (List.range' k n).map fun m => min C (max 1 (draw m).demand))
  | 0, k, a, ps, ds => by simp [genLoop]
  | n + 1, k, a, ps, ds => by
    unfold genLoop
    dsimp only
    rw [genLoop_eq n (k + 1)]
    have h0 : (if regular = true then a + 2 * Real.pi / N else (draw k).unit * 2 * Real.pi) = genAngle N regular draw a k k := by
      unfold genAngle
      split_ifs
      · ring
      · rfl
    have h1 : ∀ m, genAngle N regular draw (genAngle N regular draw a k k) (k + 1) m = genAngle N regular draw a k m := by
      intro m
      unfold genAngle
      split_ifs
      · push_cast; ring
      · rfl
    rw [h0]
    simp only [h1, List.range'_succ, List.map_cons, List.append_assoc, List.singleton_append]
    rfl

/-- What is returned. -/
theorem generate_eq (N : ℕ) (C R : ℝ) (regular : Bool) (draw : ℕ → GenDraw) : ∃ p, generate_CVRP N C R regular draw = .ok p ∧
    p.size = N ∧ p.C = C ∧
    p.points = (0, 0) :: (List.range N).map (fun m => (genRadius R regular draw m * Real.cos (genAngle N regular draw (Real.pi / 4) 0 m),
          genRadius R regular draw m * Real.sin (genAngle N regular draw (Real.pi / 4) 0 m))) ∧
    p.demands = 0 :: (List.range N).map (fun m => min C (max 1 (draw m).demand)) ∧
    calculate_D (fun i => p.points.getD i (0, 0)) none "EUC_2D" = .ok p.D := by
  unfold generate_CVRP
  dsimp only
  rw [genLoop_eq, ← List.range_eq_range']
  dsimp only
  generalize hps : [((0 : ℝ), (0 : ℝ))] ++ (List.range N).map _ = ps
  generalize hds : [(0 : ℝ)] ++ (List.range N).map _ = ds
  have hD : ∃ D, calculate_D (fun i => ps.getD i (0, 0)) none "EUC_2D" = .ok D := ⟨_, rfl⟩
  obtain ⟨D, hD⟩ := hD
  rw [hD]
  exact ⟨⟨N, ps, ds, D, C⟩, rfl, rfl, rfl, hps.symm, hds.symm, hD⟩

/-- The distance of two points of a circle. -/
theorem euclidean_circle (r a b : ℝ) : euclidean (r * Real.cos a, r * Real.sin a) (r * Real.cos b, r * Real.sin b)
    = √(2 * r ^ 2 * (1 - Real.cos (a - b))) := by
  unfold euclidean
  congr 1
  rw [Real.cos_sub]
  have h1 := Real.sin_sq_add_cos_sq a
  have h2 := Real.sin_sq_add_cos_sq b
  dsimp only
  linear_combination r ^ 2 * h1 + r ^ 2 * h2

/-- The distance from the centre. -/
theorem euclidean_centre (r a : ℝ) : euclidean (0, 0) (r * Real.cos a, r * Real.sin a) = |r| := by
  unfold euclidean
  rw [← Real.sqrt_sq_eq_abs]
  congr 1
  have h1 := Real.sin_sq_add_cos_sq a
  dsimp only
  linear_combination r ^ 2 * h1

end Verif
