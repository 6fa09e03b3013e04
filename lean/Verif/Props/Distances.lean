import Verif.Spec.MoleJameson
import Verif.Lemmas.Distances

/-! # The distances from coordinates (C69)

The specification is in `Verif/Spec/Distances.lean`. -/

namespace Verif
open Spec

/-- The kinds of distances that are known. -/
def distKinds : List String := ["MAX_2D", "MAN_2D", "CEIL_2D", "FLOOR_2D", "EUC_2D", "ATT", "GEO", "EXACT_2D"]

theorem distanceOf_cases {type : String} {r : (ℝ × ℝ → ℝ × ℝ → ℝ) × (ℝ → ℝ)} (h : distanceOf type = .ok r) :
    (type = "MAX_2D" ∧ r = (chebyshev, id)) ∨ (type = "MAN_2D" ∧ r = (cityblock, id)) ∨
    (type = "CEIL_2D" ∧ r = (euclidean, fun x => ((⌈x⌉ : ℤ) : ℝ))) ∨ (type = "FLOOR_2D" ∧ r = (euclidean, fun x => ((⌊x⌋ : ℤ) : ℝ))) ∨
    (type = "EUC_2D" ∧ r = (euclidean, fun x => ((npRound x : ℤ) : ℝ))) ∨ (type = "ATT" ∧ r = (attDist, id)) ∨
    (type = "GEO" ∧ r = (geoDist, id)) ∨ (type = "EXACT_2D" ∧ r = (euclidean, id)) := by
  unfold distanceOf at h
  split_ifs at h with h1 h2 h3 h4 h5 h6 h7 h8 <;> cases h <;> simp [*]

theorem calculate_cases {pts : ℕ → ℝ × ℝ} {type : String} {D : ℕ → ℕ → ℝ} (h : calculate_D pts none type = .ok D) :
    ∃ f post, distanceOf type = .ok (f, post) ∧ D = fun i j => post (squareform f pts i j) := by
  unfold calculate_D at h
  cases h1 : distanceOf type with
  | error e => rw [h1] at h; cases h
  | ok r =>
    obtain ⟨f, post⟩ := r
    rw [h1] at h
    cases h
    exact ⟨f, post, rfl, rfl⟩

theorem attDist_nonneg (v w : ℝ × ℝ) : 0 ≤ attDist v w := by
  rw [attDist_eq]
  have : (0 : ℤ) ≤ ⌈euclidean v w / 10⌉ := Int.ceil_nonneg (div_nonneg (euclidean_nonneg v w) (by norm_num))
  exact_mod_cast this

/-- **C69**, the kinds: the distances can be had exactly for the kinds that are known. -/
theorem C69_kinds (pts : ℕ → ℝ × ℝ) (opts : Option (ℕ → ℝ × ℝ)) (type : String) :
    (type ∈ distKinds → ∃ D, calculate_D pts opts type = .ok D) ∧
    (type ∉ distKinds → calculate_D pts opts type = .error .valueError) := by
  constructor
  · intro h
    obtain ⟨r, hr⟩ : ∃ r, distanceOf type = .ok r := by
      simp only [distKinds, List.mem_cons, List.not_mem_nil, or_false] at h
      rcases h with rfl | rfl | rfl | rfl | rfl | rfl | rfl | rfl <;> exact ⟨_, by unfold distanceOf; simp; rfl⟩
    obtain ⟨f, post⟩ := r
    unfold calculate_D
    rw [hr]
    cases opts <;> exact ⟨_, rfl⟩
  · intro h
    have : distanceOf type = .error .valueError := by
      simp only [distKinds, List.mem_cons, List.not_mem_nil, or_false, not_or] at h
      unfold distanceOf
      simp [h]
    unfold calculate_D
    rw [this]

/-- **C69**, the matrix: whatever the kind and the points, it is symmetric, has zeros in the diagonal and no negative numbers. -/
theorem C69_matrix {pts : ℕ → ℝ × ℝ} {type : String} {D : ℕ → ℕ → ℝ} (h : calculate_D pts none type = .ok D) : DistMatrix D := by
  obtain ⟨f, post, h1, rfl⟩ := calculate_cases h
  have key : ∀ (f : ℝ × ℝ → ℝ × ℝ → ℝ) (post : ℝ → ℝ), (∀ v w, 0 ≤ f v w) → post 0 = 0 → (∀ x, 0 ≤ x → 0 ≤ post x) →
      DistMatrix fun i j => post (squareform f pts i j) := by
    intro f post h0 hz hp
    have hd := squareform_dist h0 pts
    exact ⟨fun i j => congrArg post (hd.symm i j), fun i => (congrArg post (hd.diag i)).trans hz, fun i j => hp _ (hd.nonneg i j)⟩
  rcases distanceOf_cases h1 with ⟨-, e⟩ | ⟨-, e⟩ | ⟨-, e⟩ | ⟨-, e⟩ | ⟨-, e⟩ | ⟨-, e⟩ | ⟨-, e⟩ | ⟨-, e⟩ <;>
    obtain ⟨rfl, rfl⟩ := Prod.mk.inj e
  · exact key _ _ chebyshev_nonneg rfl fun _ h => h
  · exact key _ _ cityblock_nonneg rfl fun _ h => h
  · exact key _ (fun x => ((⌈x⌉ : ℤ) : ℝ)) euclidean_nonneg (by simp) fun x h => by exact_mod_cast Int.ceil_nonneg h
  · exact key _ (fun x => ((⌊x⌋ : ℤ) : ℝ)) euclidean_nonneg (by simp) fun x h => by exact_mod_cast Int.floor_nonneg.2 h
  · exact key _ (fun x => ((npRound x : ℤ) : ℝ)) euclidean_nonneg (by rw [npRound_zero]; simp) fun x h => by exact_mod_cast npRound_nonneg h
  · exact key _ _ attDist_nonneg rfl fun _ h => h
  · exact key _ _ (fun v w => zero_le_one.trans (geoDist_pos v w)) rfl fun _ h => h
  · exact key _ _ euclidean_nonneg rfl fun _ h => h

/-- **C69**, the triangle inequality: it holds for all kinds but those that round down or to the nearest. -/
theorem C69_triangle_partial {pts : ℕ → ℝ × ℝ} {type : String} {D : ℕ → ℕ → ℝ} (h : calculate_D pts none type = .ok D)
    (hf : type ≠ "FLOOR_2D") (he : type ≠ "EUC_2D") (i j k : ℕ) : D i k ≤ D i j + D j k := by
  obtain ⟨f, post, h1, rfl⟩ := calculate_cases h
  have hatt : ∀ u v w, attDist u w ≤ attDist u v + attDist v w := by
    intro u v w
    rw [attDist_eq, attDist_eq, attDist_eq]
    refine ceil_triangle ?_
    have := euclidean_triangle u v w
    linarith
  rcases distanceOf_cases h1 with ⟨-, e⟩ | ⟨-, e⟩ | ⟨-, e⟩ | ⟨e, -⟩ | ⟨e, -⟩ | ⟨-, e⟩ | ⟨-, e⟩ | ⟨-, e⟩
  · obtain ⟨rfl, rfl⟩ := Prod.mk.inj e
    exact squareform_triangle chebyshev_nonneg chebyshev_symm chebyshev_triangle pts i j k
  · obtain ⟨rfl, rfl⟩ := Prod.mk.inj e
    exact squareform_triangle cityblock_nonneg cityblock_symm cityblock_triangle pts i j k
  · obtain ⟨rfl, rfl⟩ := Prod.mk.inj e
    exact ceil_triangle (squareform_triangle euclidean_nonneg euclidean_symm euclidean_triangle pts i j k)
  · exact absurd e hf
  · exact absurd e he
  · obtain ⟨rfl, rfl⟩ := Prod.mk.inj e
    exact squareform_triangle attDist_nonneg (fun v w => by rw [attDist_eq, attDist_eq, euclidean_symm]) hatt pts i j k
  · obtain ⟨rfl, rfl⟩ := Prod.mk.inj e
    exact squareform_triangle (fun v w => zero_le_one.trans (geoDist_pos v w)) geoDist_symm geoDist_triangle pts i j k
  · obtain ⟨rfl, rfl⟩ := Prod.mk.inj e
    exact squareform_triangle euclidean_nonneg euclidean_symm euclidean_triangle pts i j k

/-- **C69**, rounded distances: for all kinds a detour is at most 1 shorter than the direct way. -/
theorem C69_detour {pts : ℕ → ℝ × ℝ} {type : String} {D : ℕ → ℕ → ℝ} (h : calculate_D pts none type = .ok D) :
    TriangleBut 1 D := by
  intro i j k
  by_cases hf : type = "FLOOR_2D"
  · obtain ⟨f, post, h1, rfl⟩ := calculate_cases h
    rw [hf] at h1
    have e : (euclidean, fun x : ℝ => ((⌊x⌋ : ℤ) : ℝ)) = (f, post) := by
      unfold distanceOf at h1; simp at h1; exact Prod.ext h1.1 h1.2
    obtain ⟨rfl, rfl⟩ := Prod.mk.inj e
    have ht := squareform_triangle euclidean_nonneg euclidean_symm euclidean_triangle pts i j k
    have h2 := Int.floor_mono ht
    have h3 := Int.le_floor_add_floor (squareform euclidean pts i j) (squareform euclidean pts j k)
    have h4 : ⌊squareform euclidean pts i k⌋ ≤ ⌊squareform euclidean pts i j⌋ + ⌊squareform euclidean pts j k⌋ + 1 := by omega
    dsimp only
    exact_mod_cast h4
  by_cases he : type = "EUC_2D"
  · obtain ⟨f, post, h1, rfl⟩ := calculate_cases h
    rw [he] at h1
    have e : (euclidean, fun x : ℝ => ((npRound x : ℤ) : ℝ)) = (f, post) := by
      unfold distanceOf at h1; simp at h1; exact Prod.ext h1.1 h1.2
    obtain ⟨rfl, rfl⟩ := Prod.mk.inj e
    have ht := squareform_triangle euclidean_nonneg euclidean_symm euclidean_triangle pts i j k
    have h1 := abs_le.1 (npRound_near (squareform euclidean pts i k))
    have h2 := abs_le.1 (npRound_near (squareform euclidean pts i j))
    have h3 := abs_le.1 (npRound_near (squareform euclidean pts j k))
    have h4 : ((npRound (squareform euclidean pts i k) : ℤ) : ℝ) <
        (npRound (squareform euclidean pts i j) + npRound (squareform euclidean pts j k) + 2 : ℤ) := by
      push_cast
      linarith
    have h5 := Int.cast_lt.1 h4
    have h6 : npRound (squareform euclidean pts i k) ≤
        npRound (squareform euclidean pts i j) + npRound (squareform euclidean pts j k) + 1 := by omega
    dsimp only
    exact_mod_cast h6
  · have := C69_triangle_partial h hf he i j k
    linarith

/-- **C69**, what the distances in the plane are: for `x` the distance of the two points in the plane, it is `x`, or `x` rounded
up, down or to the nearest (in the middle to the even one), or a tenth of `x` rounded up. -/
theorem C69_plane {pts : ℕ → ℝ × ℝ} {type : String} {D : ℕ → ℕ → ℝ} (h : calculate_D pts none type = .ok D) {i j : ℕ} {x : ℝ}
    (hij : i ≠ j) (hx : PlaneDist (pts i) (pts j) x) :
    (type = "EXACT_2D" → D i j = x) ∧ (type = "CEIL_2D" → x ≤ D i j ∧ D i j < x + 1) ∧
    (type = "FLOOR_2D" → D i j ≤ x ∧ x < D i j + 1) ∧ (type = "EUC_2D" → |D i j - x| ≤ 1 / 2 ∧ (|D i j - x| = 1 / 2 → ∃ m : ℤ, D i j = 2 * m)) ∧
    (type = "ATT" → x / 10 ≤ D i j ∧ D i j < x / 10 + 1) := by
  obtain ⟨f, post, h1, rfl⟩ := calculate_cases h
  have hxe : x = euclidean (pts i) (pts j) := by
    unfold euclidean
    rw [← hx.2, Real.sqrt_sq hx.1]
  have hsq : squareform euclidean pts i j = x := by rw [squareform_of_ne euclidean_symm pts hij, hxe]
  refine ⟨fun e => ?_, fun e => ?_, fun e => ?_, fun e => ?_, fun e => ?_⟩ <;> subst e <;> unfold distanceOf at h1 <;>
    simp at h1 <;> obtain ⟨rfl, rfl⟩ := h1
  · exact hsq
  · dsimp only; rw [hsq]; exact ⟨Int.le_ceil _, Int.ceil_lt_add_one _⟩
  · dsimp only; rw [hsq]; exact ⟨Int.floor_le _, Int.lt_floor_add_one _⟩
  · dsimp only
    rw [hsq]
    refine ⟨npRound_near x, fun h => ⟨npRound x / 2, ?_⟩⟩
    have := npRound_half h
    have e : npRound x = 2 * (npRound x / 2) := by omega
    exact_mod_cast e
  · show x / 10 ≤ squareform attDist pts i j ∧ squareform attDist pts i j < x / 10 + 1
    rw [squareform_of_ne (fun v w => by rw [attDist_eq, attDist_eq, euclidean_symm]) pts hij, attDist_eq, ← hxe]
    exact ⟨Int.le_ceil _, Int.ceil_lt_add_one _⟩

/-- **C69**, whole numbers: the kinds that round give whole numbers. -/
theorem C69_whole {pts : ℕ → ℝ × ℝ} {type : String} {D : ℕ → ℕ → ℝ} (h : calculate_D pts none type = .ok D)
    (ht : type ∈ ["CEIL_2D", "FLOOR_2D", "EUC_2D", "ATT", "GEO"]) : WholeNumbers D := by
  obtain ⟨f, post, h1, rfl⟩ := calculate_cases h
  have key : ∀ f : ℝ × ℝ → ℝ × ℝ → ℝ, (∀ v w, ∃ n : ℤ, f v w = n) → WholeNumbers (squareform f pts) := by
    intro f hf
    choose n hn using hf
    refine ⟨fun i j => if i < j then n (pts i) (pts j) else if j < i then n (pts j) (pts i) else 0, fun i j => ?_⟩
    unfold squareform
    dsimp only
    split_ifs
    · exact hn _ _
    · exact hn _ _
    · simp
  simp only [List.mem_cons, List.not_mem_nil, or_false] at ht
  rcases ht with rfl | rfl | rfl | rfl | rfl <;> unfold distanceOf at h1 <;> simp at h1 <;> obtain ⟨rfl, rfl⟩ := h1
  · exact ⟨_, fun i j => rfl⟩
  · exact ⟨_, fun i j => rfl⟩
  · exact ⟨_, fun i j => rfl⟩
  · exact key _ fun v w => ⟨_, attDist_eq v w⟩
  · exact key _ fun v w => ⟨_, rfl⟩

/-- **C69**, different places: their distance is positive for all kinds but those that round down or to the nearest. -/
theorem C69_positive_partial {pts : ℕ → ℝ × ℝ} {type : String} {D : ℕ → ℕ → ℝ} (h : calculate_D pts none type = .ok D)
    (hf : type ≠ "FLOOR_2D") (he : type ≠ "EUC_2D") {i j : ℕ} (hij : pts i ≠ pts j) : 0 < D i j := by
  obtain ⟨f, post, h1, rfl⟩ := calculate_cases h
  have hne : i ≠ j := fun e => hij (by rw [e])
  have hc : ∀ x : ℝ, 0 < x → (0 : ℝ) < (⌈x⌉ : ℤ) := fun x hx => by exact_mod_cast Int.ceil_pos.2 hx
  rcases distanceOf_cases h1 with ⟨-, e⟩ | ⟨-, e⟩ | ⟨-, e⟩ | ⟨e, -⟩ | ⟨e, -⟩ | ⟨-, e⟩ | ⟨-, e⟩ | ⟨-, e⟩
  · obtain ⟨rfl, rfl⟩ := Prod.mk.inj e
    dsimp only [id]
    rw [squareform_of_ne chebyshev_symm pts hne]; exact chebyshev_pos hij
  · obtain ⟨rfl, rfl⟩ := Prod.mk.inj e
    dsimp only [id]
    rw [squareform_of_ne cityblock_symm pts hne]; exact cityblock_pos hij
  · obtain ⟨rfl, rfl⟩ := Prod.mk.inj e
    dsimp only [id]
    rw [squareform_of_ne euclidean_symm pts hne]; exact hc _ (euclidean_pos hij)
  · exact absurd e hf
  · exact absurd e he
  · obtain ⟨rfl, rfl⟩ := Prod.mk.inj e
    dsimp only [id]
    rw [squareform_of_ne (fun v w => by rw [attDist_eq, attDist_eq, euclidean_symm]) pts hne, attDist_eq]
    exact hc _ (div_pos (euclidean_pos hij) (by norm_num))
  · obtain ⟨rfl, rfl⟩ := Prod.mk.inj e
    dsimp only [id]
    rw [squareform_of_ne geoDist_symm pts hne]; exact lt_of_lt_of_le one_pos (geoDist_pos _ _)
  · obtain ⟨rfl, rfl⟩ := Prod.mk.inj e
    dsimp only [id]
    rw [squareform_of_ne euclidean_symm pts hne]; exact euclidean_pos hij

/-- **C69**, on the globe: the arc cosine is only asked for numbers it is defined for, and the distance of two customers is at
least 1, even if they are at the same place. -/
theorem C69_geo {pts : ℕ → ℝ × ℝ} {D : ℕ → ℕ → ℝ} (h : calculate_D pts none "GEO" = .ok D) (i j : ℕ) :
    (-1 ≤ geoArg (pts i) (pts j) ∧ geoArg (pts i) (pts j) ≤ 1) ∧ (i ≠ j → 1 ≤ D i j) ∧
    (i ≠ j → pts i = pts j → D i j = 1) := by
  obtain ⟨f, post, h1, rfl⟩ := calculate_cases h
  unfold distanceOf at h1
  simp at h1
  obtain ⟨rfl, rfl⟩ := h1
  refine ⟨geoArg_mem _ _, fun hij => ?_, fun hij e => ?_⟩
  · dsimp only [id]; rw [squareform_of_ne geoDist_symm pts hij]; exact geoDist_pos _ _
  · dsimp only [id]
    rw [squareform_of_ne geoDist_symm pts hij, e, geoDist_eq]
    have : geoArg (pts j) (pts j) = 1 := by
      unfold geoArg
      rw [sub_self, sub_self, Real.cos_zero]
      ring
    rw [this, Real.arccos_one]
    simp

/-- **C69**, the distances of other points: those of the seed points to the customers agree with the matrix wherever a seed point is
another customer. -/
theorem C69_others {pts opts : ℕ → ℝ × ℝ} {type : String} {D S : ℕ → ℕ → ℝ} (h : calculate_D pts none type = .ok D)
    (hS : calculate_D opts (some pts) type = .ok S) {s i j : ℕ} (hs : opts s = pts i) (hij : i ≠ j) : S s j = D i j := by
  obtain ⟨f, post, h1, rfl⟩ := calculate_cases h
  unfold calculate_D at hS
  rw [h1] at hS
  cases hS
  have hsym : ∀ v w, f v w = f w v := by
    rcases distanceOf_cases h1 with ⟨-, e⟩ | ⟨-, e⟩ | ⟨-, e⟩ | ⟨-, e⟩ | ⟨-, e⟩ | ⟨-, e⟩ | ⟨-, e⟩ | ⟨-, e⟩ <;>
      obtain ⟨rfl, rfl⟩ := Prod.mk.inj e <;> first
      | exact chebyshev_symm
      | exact cityblock_symm
      | exact euclidean_symm
      | exact geoDist_symm
      | exact fun v w => by rw [attDist_eq, attDist_eq, euclidean_symm]
  dsimp only
  rw [squareform_of_ne hsym pts hij, hs]

/-- **C69**, instances for the heuristics: the distances of the kinds that round up and, if the coordinates are fractions, the
largest and the sum of the differences of coordinates, are fractions and as the heuristics ask for (C63). -/
theorem C69_metric {pts : ℕ → ℝ × ℝ} {type : String} {D : ℕ → ℕ → ℝ} (h : calculate_D pts none type = .ok D)
    (ht : type ∈ ["CEIL_2D", "ATT", "GEO"] ∨ (type ∈ ["MAX_2D", "MAN_2D"] ∧ ∃ q : ℕ → ℚ × ℚ, ∀ n, pts n = (((q n).1 : ℝ), ((q n).2 : ℝ)))) :
    ∃ E : ℕ → ℕ → ℚ, (∀ i j, D i j = E i j) ∧ Metric E ∧ ∀ i j, pts i ≠ pts j → 0 < E i j := by
  have hne : type ≠ "FLOOR_2D" ∧ type ≠ "EUC_2D" := by
    constructor <;> rintro rfl <;> rcases ht with ht | ht
    · exact absurd ht (by decide)
    · exact absurd ht.1 (by decide)
    · exact absurd ht (by decide)
    · exact absurd ht.1 (by decide)
  have hE : ∃ E : ℕ → ℕ → ℚ, ∀ i j, D i j = E i j := by
    rcases ht with ht | ⟨ht, q, hq⟩
    · obtain ⟨E, hE⟩ := C69_whole h (by
        simp only [List.mem_cons, List.not_mem_nil, or_false] at ht ⊢
        rcases ht with rfl | rfl | rfl <;> simp)
      exact ⟨fun i j => E i j, fun i j => by rw [hE]; push_cast; rfl⟩
    · obtain ⟨f, post, h1, rfl⟩ := calculate_cases h
      have key : ∀ (f : ℝ × ℝ → ℝ × ℝ → ℝ) (F : ℚ × ℚ → ℚ × ℚ → ℚ), (∀ v w : ℚ × ℚ, f ((v.1 : ℝ), (v.2 : ℝ)) ((w.1 : ℝ), (w.2 : ℝ)) = ((F v w : ℚ) : ℝ)) →
          ∃ E : ℕ → ℕ → ℚ, ∀ i j, squareform f pts i j = E i j := by
        intro f F hF
        refine ⟨fun i j => if i < j then F (q i) (q j) else if j < i then F (q j) (q i) else 0, fun i j => ?_⟩
        unfold squareform
        rw [hq, hq]
        dsimp only
        split_ifs
        · exact hF _ _
        · exact hF _ _
        · simp
      simp only [List.mem_cons, List.not_mem_nil, or_false] at ht
      rcases ht with rfl | rfl <;> unfold distanceOf at h1 <;> simp at h1 <;> obtain ⟨rfl, rfl⟩ := h1
      · exact key _ (fun v w => max |v.1 - w.1| |v.2 - w.2|) fun v w => by unfold chebyshev; push_cast; rfl
      · exact key _ (fun v w => |v.1 - w.1| + |v.2 - w.2|) fun v w => by unfold cityblock; push_cast; rfl
  obtain ⟨E, hE⟩ := hE
  have hd := C69_matrix h
  have htr := C69_triangle_partial h hne.1 hne.2
  refine ⟨E, hE, ?_, fun i j hij => ?_⟩
  · refine ⟨fun i j => ?_, fun i j k => ?_, fun i j => ?_, fun i => ?_⟩
    · have := hd.symm i j
      rw [hE, hE] at this
      exact_mod_cast this
    · have := htr i j k
      rw [hE, hE, hE] at this
      exact_mod_cast this
    · have := hd.nonneg i j
      rw [hE] at this
      exact_mod_cast this
    · have := hd.diag i
      rw [hE] at this
      exact_mod_cast this
  · have := C69_positive_partial h hne.1 hne.2 hij
    rw [hE] at this
    exact_mod_cast this

/-! ## Examples and limits -/

/-- Customers along the diagonal of the plane. -/
noncomputable def diagonal (n : ℕ) : ℝ × ℝ := (n, n)

theorem diagonal_sq (i j : ℕ) : euclidean (diagonal i) (diagonal j) ^ 2 = 2 * ((i : ℝ) - j) ^ 2 := by
  rw [euclidean_sq]
  show ((i : ℝ) - j) ^ 2 + ((i : ℝ) - j) ^ 2 = _
  ring

/-- **C69** is false for distances rounded to the nearest and rounded down: on the way along the diagonal a detour is shorter than
the direct way. -/
theorem C69_triangle_false : ∃ D E, calculate_D diagonal none "EUC_2D" = .ok D ∧ D 0 1 + D 1 2 < D 0 2 ∧
    calculate_D diagonal none "FLOOR_2D" = .ok E ∧ E 0 1 + E 1 3 < E 0 3 := by
  have hb : ∀ (i j : ℕ) (a b : ℝ), 0 ≤ a → 0 ≤ b → a ^ 2 ≤ 2 * ((i : ℝ) - j) ^ 2 → 2 * ((i : ℝ) - j) ^ 2 < b ^ 2 →
      a ≤ euclidean (diagonal i) (diagonal j) ∧ euclidean (diagonal i) (diagonal j) < b := by
    intro i j a b ha hb h1 h2
    rw [← diagonal_sq] at h1 h2
    exact ⟨le_of_sq_le_sq h1 (euclidean_nonneg _ _), lt_of_pow_lt_pow_left₀ 2 hb h2⟩
  have r : ∀ (x : ℝ) (n : ℤ), n ≤ x → x < n + 1 → ⌊x⌋ = n := fun x n h1 h2 => Int.floor_eq_iff.2 ⟨h1, h2⟩
  have hs : ∀ i j, i < j → squareform euclidean diagonal i j = euclidean (diagonal i) (diagonal j) := fun i j h => if_pos h
  have e01 := hb 0 1 1 (3 / 2) (by norm_num) (by norm_num) (by norm_num) (by norm_num)
  have e12 := hb 1 2 1 (3 / 2) (by norm_num) (by norm_num) (by norm_num) (by norm_num)
  have e02 := hb 0 2 (14 / 5) 3 (by norm_num) (by norm_num) (by norm_num) (by norm_num)
  have e13 := hb 1 3 (14 / 5) 3 (by norm_num) (by norm_num) (by norm_num) (by norm_num)
  have e03 := hb 0 3 4 5 (by norm_num) (by norm_num) (by norm_num) (by norm_num)
  have f01 : ⌊euclidean (diagonal 0) (diagonal 1)⌋ = 1 := r _ 1 (by push_cast; linarith) (by push_cast; linarith)
  have f12 : ⌊euclidean (diagonal 1) (diagonal 2)⌋ = 1 := r _ 1 (by push_cast; linarith) (by push_cast; linarith)
  have f02 : ⌊euclidean (diagonal 0) (diagonal 2)⌋ = 2 := r _ 2 (by push_cast; linarith) (by push_cast; linarith)
  have f13 : ⌊euclidean (diagonal 1) (diagonal 3)⌋ = 2 := r _ 2 (by push_cast; linarith) (by push_cast; linarith)
  have f03 : ⌊euclidean (diagonal 0) (diagonal 3)⌋ = 4 := r _ 4 (by push_cast; linarith) (by push_cast; linarith)
  refine ⟨fun i j => (npRound (squareform euclidean diagonal i j) : ℤ), fun i j => (⌊squareform euclidean diagonal i j⌋ : ℤ), rfl, ?_,
    rfl, ?_⟩
  · dsimp only
    rw [hs 0 1 (by omega), hs 1 2 (by omega), hs 0 2 (by omega)]
    have n01 : npRound (euclidean (diagonal 0) (diagonal 1)) = 1 := by
      unfold npRound; rw [f01, if_pos (by push_cast; linarith)]
    have n12 : npRound (euclidean (diagonal 1) (diagonal 2)) = 1 := by
      unfold npRound; rw [f12, if_pos (by push_cast; linarith)]
    have n02 : npRound (euclidean (diagonal 0) (diagonal 2)) = 3 := by
      unfold npRound; rw [f02, if_neg (by push_cast; linarith), if_pos (by push_cast; linarith)]; rfl
    rw [n01, n12, n02]
    norm_num
  · dsimp only
    rw [hs 0 1 (by omega), hs 1 3 (by omega), hs 0 3 (by omega), f01, f13, f03]
    norm_num

/-- **C69** is false for the distances of different places if they are rounded to the nearest: they can be zero. -/
theorem C69_positive_false : ∃ D, calculate_D (fun n => ((n : ℝ) / 3, 0)) none "EUC_2D" = .ok D ∧ D 0 1 = 0 := by
  refine ⟨_, rfl, ?_⟩
  have h : squareform euclidean (fun n => ((n : ℝ) / 3, 0)) 0 1 = 1 / 3 := by
    show euclidean _ _ = _
    unfold euclidean
    rw [show (((0 : ℕ) : ℝ) / 3 - ((1 : ℕ) : ℝ) / 3) ^ 2 + ((0 : ℝ) - 0) ^ 2 = (1 / 3) ^ 2 by norm_num]
    exact Real.sqrt_sq (by norm_num)
  dsimp only
  rw [h]
  have : npRound (1 / 3) = 0 := by
    have : ⌊(1 / 3 : ℝ)⌋ = 0 := Int.floor_eq_iff.2 ⟨by norm_num, by norm_num⟩
    unfold npRound
    rw [this, if_pos (by norm_num)]
  rw [this]
  simp

/-- **C69**, the file format asks for `EUC_2D` to round halves up; the package rounds them to even numbers: a distance of one half is
zero, not one. -/
theorem C69_nint_false : ∃ D, calculate_D (fun n => ((n : ℝ) / 2, 0)) none "EUC_2D" = .ok D ∧
    PlaneDist ((0 : ℝ) / 2, 0) (1 / 2, 0) (1 / 2) ∧ D 0 1 ≠ ((⌊(1 / 2 : ℝ) + 1 / 2⌋ : ℤ) : ℝ) := by
  obtain ⟨D, hD⟩ := (C69_kinds (fun n => ((n : ℝ) / 2, 0)) none "EUC_2D").1 (by decide)
  have hx : PlaneDist ((0 : ℝ) / 2, 0) (1 / 2, 0) (1 / 2) := ⟨by norm_num, by norm_num⟩
  refine ⟨D, hD, hx, fun e => ?_⟩
  have h := (C69_plane hD (i := 0) (j := 1) (x := 1 / 2) (by decide) (by simpa using hx)).2.2.2.1 rfl
  have e1 : D 0 1 = 1 := by rw [e]; norm_num
  rw [e1] at h
  obtain ⟨m, hm⟩ := h.2 (by norm_num)
  have : (1 : ℤ) = 2 * m := by exact_mod_cast hm
  omega

/-- The hypotheses of the theorems are met: a triangle with sides 3, 4 and 5. -/
example : ∃ D, calculate_D (fun n => if n = 0 then (0, 0) else if n = 1 then (3, 0) else (3, 4)) none "CEIL_2D" = .ok D ∧
    DistMatrix D ∧ D 0 2 = 5 ∧ D 0 2 ≤ D 0 1 + D 1 2 ∧ 0 < D 0 1 := by
  obtain ⟨D, hD⟩ := (C69_kinds (fun n => if n = 0 then (0, 0) else if n = 1 then (3, 0) else (3, 4)) none "CEIL_2D").1 (by decide)
  obtain ⟨E, hE⟩ := C69_whole hD (by decide)
  have h := (C69_plane hD (i := 0) (j := 2) (x := 5) (by decide) ⟨by norm_num, by norm_num⟩).2.1 rfl
  refine ⟨D, hD, C69_matrix hD, ?_, C69_triangle_partial hD (by decide) (by decide) 0 1 2,
    C69_positive_partial hD (by decide) (by decide) (by norm_num)⟩
  rw [hE] at h ⊢
  have h1 : (5 : ℤ) ≤ E 0 2 := by exact_mod_cast h.1
  have h2 : E 0 2 < 5 + 1 := by exact_mod_cast h.2
  have : E 0 2 = 5 := by omega
  rw [this]
  norm_num

end Verif
