import Verif.Lemmas.Generate
import Verif.Props.Distances

/-! # The random problems (C80)

The specification is in `Verif/Spec/Generate.lean`. -/

namespace Verif
open Spec

/-- A point of the list that is there. -/
theorem getD_of_some {α : Type*} {l : List α} {i : ℕ} {v a : α} (h : l[i]? = some v) : l.getD i a = v := by
  rw [List.getD_eq_getElem?_getD, h]
  rfl

/-- **C80**: whatever is drawn, a problem is returned; it has a depot and `N` customers of whom each fits into a vehicle. -/
theorem C80_places (N : ℕ) (C R : ℝ) (regular : Bool) (draw : ℕ → GenDraw) :
    ∃ p, generate_CVRP N C R regular draw = .ok p ∧ p.C = C ∧ RandomPlaces N C p.points p.demands := by
  obtain ⟨p, hp, -, hC, hps, hds, -⟩ := generate_eq N C R regular draw
  refine ⟨p, hp, hC, by rw [hps]; simp, by rw [hds]; simp, by rw [hps]; rfl, by rw [hds]; rfl, ?_, ?_⟩ <;> intro n x hn hx <;>
    rw [hds] at hx <;> obtain ⟨m, rfl⟩ : ∃ m, n = m + 1 := ⟨n - 1, by omega⟩ <;>
    rw [List.getElem?_cons_succ, List.getElem?_map] at hx <;>
    obtain ⟨k, -, rfl⟩ := Option.map_eq_some_iff.1 hx
  · exact min_le_left _ _
  · exact le_min (min_le_right _ _) ((min_le_left _ _).trans (le_max_left _ _))

/-- **C80**, the demands: a demand that was drawn between one and the capacity is kept. -/
theorem C80_demand {N : ℕ} {C R : ℝ} {regular : Bool} {draw : ℕ → GenDraw} {p : GenProblem}
    (h : generate_CVRP N C R regular draw = .ok p) {m : ℕ} (hm : m < N) (h1 : 1 ≤ (draw m).demand) (h2 : (draw m).demand ≤ C) :
    p.demands[m + 1]? = some (draw m).demand := by
  obtain ⟨q, hq, -, -, -, hds, -⟩ := generate_eq N C R regular draw
  rw [h] at hq
  obtain rfl := Except.ok.inj hq
  rw [hds, List.getElem?_cons_succ, List.getElem?_map, List.getElem?_range hm]
  simp [h1, h2]

/-- **C80**, the total: a vehicle for each customer is enough, and with a capacity of at least one the total is at least the number
of customers. -/
theorem C80_total {N : ℕ} {C R : ℝ} {regular : Bool} {draw : ℕ → GenDraw} {p : GenProblem}
    (h : generate_CVRP N C R regular draw = .ok p) : N * min 1 C ≤ p.demands.sum ∧ p.demands.sum ≤ N * C := by
  obtain ⟨q, hq, -, -, -, hds, -⟩ := generate_eq N C R regular draw
  rw [h] at hq
  obtain rfl := Except.ok.inj hq
  rw [hds, List.sum_cons, zero_add]
  clear h hds
  induction N with
  | zero => simp
  | succ N ih =>
    rw [List.range_succ, List.map_append, List.sum_append]
    simp only [List.map_cons, List.map_nil, List.sum_cons, List.sum_nil, add_zero]
    push_cast
    have h1 : min C (max 1 (draw N).demand) ≤ C := min_le_left _ _
    have h2 : min 1 C ≤ min C (max 1 (draw N).demand) := le_min (min_le_right _ _) ((min_le_left _ _).trans (le_max_left _ _))
    constructor <;> linarith [ih.1, ih.2]

/-- **C80**, the distances: a symmetric matrix of whole numbers that are nearest to the distances in the plane, with the triangle
inequality but for an excess of at most one. -/
theorem C80_distances {N : ℕ} {C R : ℝ} {regular : Bool} {draw : ℕ → GenDraw} {p : GenProblem}
    (h : generate_CVRP N C R regular draw = .ok p) :
    DistMatrix p.D ∧ WholeNumbers p.D ∧ TriangleBut 1 p.D ∧ NearestWhole p.points p.D := by
  obtain ⟨q, hq, -, -, -, -, hD⟩ := generate_eq N C R regular draw
  rw [h] at hq
  obtain rfl := Except.ok.inj hq
  have hM := C69_matrix hD
  obtain ⟨E, hE⟩ := C69_whole hD (by decide)
  refine ⟨hM, ⟨E, hE⟩, C69_detour hD, fun i j v w x hv hw hx => ?_⟩
  refine ⟨E i j, hE i j, ?_⟩
  rw [← hE i j]
  by_cases hij : i = j
  · subst hij
    rw [hv] at hw
    obtain rfl := Option.some.inj hw
    have : x = 0 := by
      have := hx.2
      rw [sub_self, sub_self] at this
      exact pow_eq_zero_iff (two_ne_zero) |>.1 (by simpa using this)
    rw [hM.diag, this]
    norm_num
  · refine ((C69_plane hD hij (x := x) ?_).2.2.2.1 rfl).1
    rw [getD_of_some hv, getD_of_some hw]
    exact hx

/-- **C80**, the regular problems: the customers stand evenly on a circle around the depot. -/
theorem C80_regular {N : ℕ} {C R : ℝ} {draw : ℕ → GenDraw} {p : GenProblem}
    (h : generate_CVRP N C R true draw = .ok p) : RingOf N p.D ∧
    ∀ i v, 1 ≤ i → p.points[i]? = some v → v.1 ^ 2 + v.2 ^ 2 = R ^ 2 := by
  obtain ⟨q, hq, -, -, hps, -, hD⟩ := generate_eq N C R true draw
  rw [h] at hq
  obtain rfl := Except.ok.inj hq
  have hang : ∀ m, genAngle N true draw (Real.pi / 4) 0 m = Real.pi / 4 + (m + 1) * (2 * Real.pi / N) := by
    intro m; unfold genAngle; rw [if_pos rfl]; push_cast; ring
  have hrad : ∀ m, genRadius R true draw m = R := fun m => if_pos rfl
  simp only [hang, hrad] at hps
  obtain ⟨f, post, h1, hD'⟩ := calculate_cases hD
  have e : (euclidean, fun x : ℝ => ((npRound x : ℤ) : ℝ)) = (f, post) := by
    unfold distanceOf at h1; simp at h1; exact Prod.ext h1.1 h1.2
  obtain ⟨rfl, rfl⟩ := Prod.mk.inj e
  have hget : ∀ i, 1 ≤ i → i ≤ N → p.points.getD i (0, 0) =
      (R * Real.cos (Real.pi / 4 + i * (2 * Real.pi / N)), R * Real.sin (Real.pi / 4 + i * (2 * Real.pi / N))) := by
    intro i hi hi'
    obtain ⟨m, rfl⟩ : ∃ m, i = m + 1 := ⟨i - 1, by omega⟩
    rw [hps, List.getD_cons_succ]
    refine getD_of_some ?_
    rw [List.getElem?_map, List.getElem?_range (by omega)]
    simp
  have hnext : ∀ i, 1 ≤ i → i ≤ N → 1 ≤ i % N + 1 ∧ i % N + 1 ≤ N := fun i hi hi' =>
    ⟨by omega, Nat.mod_lt _ (by omega)⟩
  -- the angle of the next customer
  have hturn : ∀ i, 1 ≤ i → i ≤ N → ∃ z : ℤ, ((i % N + 1 : ℕ) : ℝ) * (2 * Real.pi / N) =
      i * (2 * Real.pi / N) + 2 * Real.pi / N + z * (2 * Real.pi) := by
    intro i hi hi'
    have hN : (N : ℝ) ≠ 0 := Nat.cast_ne_zero.2 (by omega)
    rcases Nat.lt_or_ge i N with hlt | hge
    · refine ⟨0, ?_⟩
      rw [Nat.mod_eq_of_lt hlt]; push_cast; ring
    · obtain rfl : i = N := by omega
      refine ⟨-1, ?_⟩
      rw [Nat.mod_self]; push_cast; field_simp; ring
  refine ⟨⟨fun i hi hi' => ?_, fun i j hi hi' hj hj' => ?_⟩, fun i v hi hv => ?_⟩
  · obtain ⟨g1, g2⟩ := hnext i hi hi'
    rw [hD']
    dsimp only
    rw [squareform_of_ne euclidean_symm _ (by omega), squareform_of_ne euclidean_symm _ (by omega), hget i hi hi', hget _ g1 g2,
      show p.points.getD 0 (0, 0) = (0, 0) by rw [hps]; rfl, euclidean_centre, euclidean_centre]
  · obtain ⟨g1, g2⟩ := hnext i hi hi'
    obtain ⟨g3, g4⟩ := hnext j hj hj'
    by_cases hij : i = j
    · rw [hij, (C69_matrix hD).diag, (C69_matrix hD).diag]
    · have hij' : i % N + 1 ≠ j % N + 1 := by
        intro e
        apply hij
        rcases Nat.lt_or_ge i N with a | a <;> rcases Nat.lt_or_ge j N with b | b
        · rw [Nat.mod_eq_of_lt a, Nat.mod_eq_of_lt b] at e; omega
        · rw [Nat.mod_eq_of_lt a, show j = N by omega, Nat.mod_self] at e; omega
        · rw [Nat.mod_eq_of_lt b, show i = N by omega, Nat.mod_self] at e; omega
        · omega
      rw [hD']
      dsimp only
      rw [squareform_of_ne euclidean_symm _ hij, squareform_of_ne euclidean_symm _ hij', hget i hi hi', hget j hj hj', hget _ g1 g2,
        hget _ g3 g4, euclidean_circle, euclidean_circle]
      obtain ⟨z, hz⟩ := hturn i hi hi'
      obtain ⟨y, hy⟩ := hturn j hj hj'
      rw [hz, hy, show Real.pi / 4 + (i * (2 * Real.pi / N) + 2 * Real.pi / N + z * (2 * Real.pi)) -
        (Real.pi / 4 + (j * (2 * Real.pi / N) + 2 * Real.pi / N + y * (2 * Real.pi))) =
        Real.pi / 4 + i * (2 * Real.pi / N) - (Real.pi / 4 + j * (2 * Real.pi / N)) + ((z - y : ℤ) : ℝ) * (2 * Real.pi) by push_cast; ring,
        Real.cos_add_int_mul_two_pi]
  · have hlen : i < p.points.length := by
      by_contra hc
      rw [List.getElem?_eq_none (by omega)] at hv
      cases hv
    rw [hps] at hlen
    simp at hlen
    have := hget i hi (by omega)
    rw [getD_of_some hv] at this
    rw [this]
    dsimp only
    linear_combination R ^ 2 * Real.sin_sq_add_cos_sq (Real.pi / 4 + i * (2 * Real.pi / N))

/-- **C80**, the command line: the demands of its random problem are whole numbers, for the customers from 1 to 100, which is the
capacity. -/
theorem C80_cli (N : ℕ) (draw : ℕ → GenDraw) : ∃ p, cli_random N draw = .ok p ∧ p.C = 100 ∧
    RandomPlaces N 100 p.points p.demands ∧ ∀ (n : ℕ) x, p.demands[n]? = some x → ∃ m : ℤ, x = m := by
  obtain ⟨p, hp, hC, hP⟩ := C80_places N 100 200 false draw
  have hx : ∀ (n : ℕ) x, 1 ≤ n → p.demands[n]? = some x → 1 ≤ intOf x ∧ intOf x ≤ 100 := by
    intro n x hn hx
    have h1 := hP.fits n x hn hx
    have h2 := hP.least n x hn hx
    rw [min_eq_left (by norm_num)] at h2
    unfold intOf
    rw [if_pos (by linarith)]
    exact ⟨Int.le_floor.2 (by exact_mod_cast h2), by
      have h3 := Int.floor_le x
      exact_mod_cast h3.trans h1⟩
  refine ⟨{ p with demands := p.demands.map fun x => ((intOf x : ℤ) : ℝ) }, by unfold cli_random; rw [hp], hC, ⟨hP.places, by simpa using hP.loads, hP.depot, ?_, ?_, ?_⟩, ?_⟩
  · dsimp only
    rw [List.getElem?_map, hP.empty]
    simp [intOf]
  · intro n x hn h
    dsimp only at h
    rw [List.getElem?_map] at h
    obtain ⟨y, hy, rfl⟩ := Option.map_eq_some_iff.1 h
    exact_mod_cast (hx n y hn hy).2
  · intro n x hn h
    dsimp only at h
    rw [List.getElem?_map] at h
    obtain ⟨y, hy, rfl⟩ := Option.map_eq_some_iff.1 h
    rw [min_eq_left (by norm_num)]
    exact_mod_cast (hx n y hn hy).1
  · intro n x h
    dsimp only at h
    rw [List.getElem?_map] at h
    obtain ⟨y, hy, rfl⟩ := Option.map_eq_some_iff.1 h
    exact ⟨_, rfl⟩

/-- **C80** does not hold for the size: that of a problem from a file is the number of places (`C65`), that of a random problem is
one less. -/
theorem C80_size_false {N : ℕ} {C R : ℝ} {regular : Bool} {draw : ℕ → GenDraw} {p : GenProblem}
    (h : generate_CVRP N C R regular draw = .ok p) : p.size ≠ p.points.length ∧ p.size + 1 = p.points.length := by
  obtain ⟨q, hq, hs, -, hps, -, -⟩ := generate_eq N C R regular draw
  rw [h] at hq
  obtain rfl := Except.ok.inj hq
  have : p.points.length = N + 1 := by rw [hps]; simp
  omega

/-- **C80** does not hold for the kind of distances that the command line names, "EXACT_2D" (shared_cli.py 283): a customer half a
unit away from the depot has the distance zero. -/
theorem C80_exact_false : ∃ draw p E, cli_random 1 draw = .ok p ∧
    calculate_D (fun i => p.points.getD i (0, 0)) none "EXACT_2D" = .ok E ∧ p.D 0 1 = 0 ∧ E 0 1 = 1 / 2 := by
  let draw : ℕ → GenDraw := fun _ => ⟨0, 1 / 400, 1⟩
  obtain ⟨p, hp, -, -, hps, -, hD⟩ := generate_eq 1 100 200 false draw
  obtain ⟨f, post, h1, hD'⟩ := calculate_cases hD
  have e : (euclidean, fun x : ℝ => ((npRound x : ℤ) : ℝ)) = (f, post) := by
    unfold distanceOf at h1; simp at h1; exact Prod.ext h1.1 h1.2
  obtain ⟨rfl, rfl⟩ := Prod.mk.inj e
  have h01 : squareform euclidean (fun i => p.points.getD i (0, 0)) 0 1 = 1 / 2 := by
    rw [squareform_of_ne euclidean_symm _ (by decide), hps]
    show euclidean (0, 0) (_ * Real.cos _, _ * Real.sin _) = _
    rw [euclidean_centre]
    show |(200 : ℝ) * (1 / 400)| = _
    norm_num
  refine ⟨draw, { p with demands := p.demands.map fun x => ((intOf x : ℤ) : ℝ) }, _, by unfold cli_random; rw [hp], rfl, ?_, ?_⟩
  · rw [hD']
    dsimp only
    rw [h01]
    unfold npRound
    norm_num
  · exact h01

/-- A regular problem with four customers: all of them are 200 away from the depot. -/
example : ∃ p, generate_CVRP 4 50 200 true (fun m => ⟨0, 0, 20 * m⟩) = .ok p ∧ p.D 0 3 = 200 ∧
    p.demands = [0, 1, 20, 40, 50] := by
  obtain ⟨p, hp, -, -, hps, hds, hD⟩ := generate_eq 4 50 200 true (fun m => ⟨0, 0, 20 * m⟩)
  refine ⟨p, hp, ?_, ?_⟩
  · obtain ⟨f, post, h1, hD'⟩ := calculate_cases hD
    have e : (euclidean, fun x : ℝ => ((npRound x : ℤ) : ℝ)) = (f, post) := by
      unfold distanceOf at h1; simp at h1; exact Prod.ext h1.1 h1.2
    obtain ⟨rfl, rfl⟩ := Prod.mk.inj e
    rw [hD']
    dsimp only
    rw [squareform_of_ne euclidean_symm _ (by decide), hps]
    have : euclidean (0, 0) (200 * Real.cos (genAngle 4 true (fun m => ⟨0, 0, 20 * m⟩) (Real.pi / 4) 0 2),
        200 * Real.sin (genAngle 4 true (fun m => ⟨0, 0, 20 * m⟩) (Real.pi / 4) 0 2)) = 200 := by
      rw [euclidean_centre]; norm_num
    show ((npRound (euclidean (0, 0) (genRadius 200 true _ 2 * _, genRadius 200 true _ 2 * _)) : ℤ) : ℝ) = 200
    have hr : ∀ d, genRadius 200 true d 2 = 200 := fun d => if_pos rfl
    rw [hr, this]
    unfold npRound
    norm_num
  · rw [hds]
    simp [List.range_succ]
    norm_num

end Verif
