import Verif.Lemmas.GapSeeds
import Verif.Props.Gap

/-! # The seed points of the generalized assignment heuristic (C68)

The specification is in `Verif/Spec/GapSeeds.lean`. -/

namespace Verif
open Spec

theorem seeds_cases {g : Trig} {N K t : ℕ} {D : ℕ → ℕ → ℚ} {d : ℕ → ℚ} {C : Option ℚ} {sweep : List (ℚ × ℚ × ℕ)} {depot : ℚ × ℚ}
    (hs : SweepOf N sweep) (hn : SweepNonneg N D d C) (hK : 1 ≤ K) (ht : t < N) (hN : 2 ≤ N)
    (hbig : K * (K + 1) / 10 ^ 10 ≤ sweepTotal N D d C sweep) :
    ∃ ps n, sweep_seed_points g sweep depot D d C N K t = .ok (ps ++ List.replicate n (0, 0)) ∧ ps.length + n = K ∧
      (∀ p ∈ ps, Near g.cos g.sin depot sweep p) ∧
      (t + 1 < N → (InUse C → d 0 = 0) → SweepSmall N D d C (sweepTotal N D d C sweep / K) → n = 0) := by
  obtain ⟨cones, h1, h2, h3, h4⟩ := coneGroups_spec (g := g) hs hn hK ht hN hbig
  have hlen : sweep.length = N - 1 := by have := hs.nodes.length_eq; simpa using this
  obtain ⟨f, hf, hfar⟩ := exists_far sweep (by rintro rfl; simp at hlen; omega)
  have hT : 0 ≤ (coneArgs sweep D d C N K).target := by
    obtain ⟨-, a2, -⟩ := coneArgs_spec hs hn hK ht hN
    have hKq : (0 : ℚ) < K := by exact_mod_cast hK
    have : (0 : ℚ) ≤ K * (coneArgs sweep D d C N K).target := by
      rw [a2]; exact le_trans (by positivity) hbig
    exact le_of_mul_le_mul_left (by linarith) hKq
  refine ⟨cones.map (coneSeed g depot (coneArgs sweep D d C N K).target), K - cones.length, ?_, by simp; omega, ?_, ?_⟩
  · unfold sweep_seed_points
    dsimp only
    rw [h1]
    dsimp only
    rw [if_neg (by omega)]
  · intro p hp
    obtain ⟨c, hc, rfl⟩ := List.mem_map.1 hp
    obtain ⟨rho, phi, e, r1, r2⟩ := coneSeed_near (g := g) (depot := depot) (c := c) hT (hs.far f hf) (fun x hx => by
      obtain ⟨⟨e, he, e1⟩, h5⟩ := h4 c hc x hx
      exact ⟨by rw [e1]; exact ⟨hs.far e he, hfar e he⟩, h5⟩)
    exact ⟨rho, phi, e, r1, f, hf, r2⟩
  · intro h5 h6 h7
    rw [h3 h5 h6 h7]
    omega

/-- **C68**, cones: from customers with coordinates, demands or distances that are not negative and of which there is more than the
tolerance for every vehicle, as many seed points are made as there are vehicles, whichever customer the sweep begins with. Each is
not farther from the depot than some customer, or it is the origin of the coordinates. -/
theorem C68_cones_partial {g : Trig} {N K t : ℕ} {D : ℕ → ℕ → ℚ} {d : ℕ → ℚ} {C : Option ℚ} {sweep : List (ℚ × ℚ × ℕ)}
    {depot : ℚ × ℚ} (hs : SweepOf N sweep) (hn : SweepNonneg N D d C) (hK : 1 ≤ K) (ht : t < N) (hN : 2 ≤ N)
    (hbig : K * (K + 1) / 10 ^ 10 ≤ sweepTotal N D d C sweep) :
    ∃ seeds, sweep_seed_points g sweep depot D d C N K t = .ok seeds ∧ seeds.length = K ∧
      ∀ p ∈ seeds, p = (0, 0) ∨ Near g.cos g.sin depot sweep p := by
  obtain ⟨ps, n, h1, h2, h3, -⟩ := seeds_cases (g := g) (depot := depot) hs hn hK ht hN hbig
  refine ⟨_, h1, by simpa using h2, fun p hp => ?_⟩
  rcases List.mem_append.1 hp with hp | hp
  · exact Or.inr (h3 p hp)
  · exact Or.inl (List.eq_of_mem_replicate hp)

/-- **C68**, cones: if no customer needs more than the share of a vehicle, and the sweep does not begin behind the last customer,
none of the seed points is put at the origin for want of customers. -/
theorem C68_cones_all {g : Trig} {N K t : ℕ} {D : ℕ → ℕ → ℚ} {d : ℕ → ℚ} {C : Option ℚ} {sweep : List (ℚ × ℚ × ℕ)}
    {depot : ℚ × ℚ} (hs : SweepOf N sweep) (hn : SweepNonneg N D d C) (hd : InUse C → d 0 = 0) (hK : 1 ≤ K) (ht : t + 1 < N)
    (hbig : K * (K + 1) / 10 ^ 10 ≤ sweepTotal N D d C sweep) (hsm : SweepSmall N D d C (sweepTotal N D d C sweep / K)) :
    ∃ seeds, sweep_seed_points g sweep depot D d C N K t = .ok seeds ∧ seeds.length = K ∧
      ∀ p ∈ seeds, Near g.cos g.sin depot sweep p := by
  obtain ⟨ps, n, h1, h2, h3, h4⟩ := seeds_cases (g := g) (depot := depot) hs hn hK (by omega : t < N) (by omega) hbig
  rw [h4 ht hd hsm] at h1 h2
  exact ⟨ps, by simpa using h1, by simpa using h2, h3⟩

/-- **C68**, the search with seed points from cones: with coordinates and a limit and at least one vehicle to begin with, the
search ends with a result, under the hypotheses of `C58_no_error_partial` on the message about trials without a solution. -/
theorem C68_no_error_partial {a : GapArgs} {g : Trig} {sweep : List (ℚ × ℚ × ℕ)} {depot : ℚ × ℚ} {row : ℚ × ℚ → ℕ → ℚ}
    (hN : 2 ≤ a.N) (hs : SweepOf a.N sweep) (hn : SweepNonneg a.N a.D a.d a.C) (hq : GapQuiet a) {K : Option ℕ}
    (hseeds : a.seeds = fun K t => (sweep_seed_points g sweep depot a.D a.d a.C a.N K t).map (·.map row))
    (hbig : (mostVehicles a.N K a.increase_K : ℚ) * (mostVehicles a.N K a.increase_K + 1) / 10 ^ 10 ≤
      sweepTotal a.N a.D a.d a.C sweep)
    (h : 0 < K.getD 0 ∨ (truthy a.C = true ∧ 0 < ((List.range a.N).map a.d).sum / a.C.getD 0) ∨
      (truthy a.C = false ∧ 0 < a.L.getD 0 ∧ 0 < (a.tsp (pyRange 1 a.N)).2)) :
    ∃ r, Ends (fun fuel => gap_init fuel a K false true) r := by
  refine C58_no_error_partial (by omega) hq (fun k t h1 h2 h3 => ?_) (by simp) h
  have hk : (k : ℚ) ≤ mostVehicles a.N K a.increase_K := by exact_mod_cast h2
  have hk0 : (0 : ℚ) ≤ k := Nat.cast_nonneg k
  obtain ⟨seeds, e1, e2, -⟩ := C68_cones_partial (g := g) (depot := depot) hs hn h1 h3 hN (le_trans (by gcongr) hbig)
  rw [hseeds]
  refine ⟨seeds.map row, ?_, by simp [e2]⟩
  dsimp only
  rw [e1]
  rfl

/-- **C68**, the angle between two angles: the second is turned forward by as few full turns as it takes not to be before the first,
and the sector from the first to the second is divided in the ratio. -/
theorem C68_bisect {g : Trig} (hpi : 0 < g.pi) (angle1 angle2 ratio : ℚ) :
    ∃ n : ℕ, angle1 ≤ angle2 + n * (2 * g.pi) ∧ (n = 0 ∨ angle2 + n * (2 * g.pi) < angle1 + 2 * g.pi) ∧
      bisectAngle g angle1 angle2 ratio = angle1 + ratio * (angle2 + n * (2 * g.pi) - angle1) := by
  have h2 : 0 < 2 * g.pi := by linarith
  by_cases h : angle2 < angle1
  · refine ⟨⌈(angle1 - angle2) / (2 * g.pi)⌉₊, ?_, .inr ?_, ?_⟩
    · have := Nat.le_ceil ((angle1 - angle2) / (2 * g.pi))
      rw [div_le_iff₀ h2] at this
      linarith
    · have h3 : 0 ≤ (angle1 - angle2) / (2 * g.pi) := div_nonneg (by linarith) h2.le
      have := Nat.ceil_lt_add_one h3
      have h4 := mul_lt_mul_of_pos_right this h2
      rw [add_mul, div_mul_cancel₀ _ h2.ne'] at h4
      linarith
    · unfold bisectAngle
      rw [if_pos h]
      ring
  · refine ⟨0, by push_cast; linarith, .inl rfl, ?_⟩
    unfold bisectAngle
    rw [if_neg h]
    push_cast
    ring

/-- The hypotheses of `C68_bisect` are met: from three quarters of a turn to one and a quarter ahead, half of the way. -/
example : bisectAngle ⟨2, id, id⟩ 3 (-7) (1 / 2) = 4 := by decide +kernel

/-! ## Large demands -/

/-- **C68**, large demands: at first as many different customers are chosen as there are vehicles, if there are enough. Those that
ask for more than half of the capacity are all chosen if there are no more of them than vehicles, and otherwise no others are. In the
first case each of the others chosen is, weighted by its demand, the farthest from the depot and those chosen before, in the second
case each one chosen is the farthest from these among those that ask for more than half of the capacity. -/
theorem C68_large {sqrt : ℚ → ℚ} {D : ℕ → ℕ → ℚ} {d : ℕ → ℚ} {C : ℚ} {N K : ℕ} (hN : 1 ≤ N) (hK : K ≤ N - 1)
    (h0 : ¬ (C / 2 < d 0)) :
    ∃ seeds, large_demand_seeds sqrt D d C N K 0 = .ok seeds ∧ seeds.Nodup ∧ seeds.length = K ∧ (∀ i ∈ seeds, 1 ≤ i ∧ i < N) ∧
      (((∀ i, 1 ≤ i → i < N → C / 2 < d i → i ∈ seeds) ∧ ∀ pre i post, seeds = pre ++ i :: post → d i ≤ C / 2 →
          ∀ j, 1 ≤ j → j < N → d j ≤ C / 2 → j ∉ pre → farness sqrt D pre j * (d j / C) ≤ farness sqrt D pre i * (d i / C)) ∨
        ((∀ i ∈ seeds, C / 2 < d i) ∧ ∀ pre i post, seeds = pre ++ i :: post →
          ∀ j, 1 ≤ j → j < N → C / 2 < d j → j ∉ pre → farness sqrt D pre j ≤ farness sqrt D pre i)) := by
  have hscore : ∀ (rest : Bool) (l : List ℕ), l.Nodup → (∀ i ∈ l, 1 ≤ i ∧ i < N) → ∀ j,
      largeScore sqrt D d C rest l ((List.range N).filter fun i => decide (i = 0 ∨ i ∈ l)) j =
        farness sqrt D l j * (if rest then d j / C else 1) := by
    intro rest l hl hr j
    unfold largeScore farness
    congr 1
    by_cases he : l = []
    · rw [if_pos he, if_pos he]
    · rw [if_neg he, if_neg he]
      have hp : ((List.range N).filter fun i => decide (i = 0 ∨ i ∈ l)).Perm (0 :: l) := by
        rw [List.perm_ext_iff_of_nodup (List.nodup_range.filter _)
          (List.nodup_cons.2 ⟨fun h => by have := hr 0 h; omega, hl⟩)]
        intro i
        rw [List.mem_filter, List.mem_range, decide_eq_true_eq, List.mem_cons]
        constructor
        · exact fun h => h.2
        · rintro (h | h)
          · exact ⟨by omega, .inl h⟩
          · exact ⟨(hr i h).2, .inr h⟩
      rw [(hp.map _).sum_eq]
      simp
  have hhalf : 1 / 2 * C = C / 2 := by ring
  have hover : ∀ i, i ∈ (List.range N).filter (fun i => decide (1 / 2 * C < d i)) ↔ i < N ∧ C / 2 < d i := by
    intro i; rw [hhalf]; simp
  have hpos : ∀ i, i < N ∧ C / 2 < d i → 1 ≤ i := by
    intro i h
    rcases Nat.eq_zero_or_pos i with rfl | h'
    · exact absurd h.2 h0
    · exact h'
  have hnd : ((List.range N).filter fun i => decide (1 / 2 * C < d i)).Nodup := List.nodup_range.filter _
  unfold large_demand_seeds largeCands
  rw [if_pos rfl]
  dsimp only
  generalize hov : (List.range N).filter (fun i => decide (1 / 2 * C < d i)) = over at *
  by_cases hl : over.length ≤ K
  · rw [if_pos hl]
    have hfresh : ∀ i, i ∈ (pyRange 1 N).filter (fun i => decide (i ∉ over)) ↔ (1 ≤ i ∧ i < N) ∧ i ∉ over := by
      intro i
      unfold pyRange
      rw [List.mem_filter, List.mem_range'_1, decide_eq_true_eq]
      constructor
      · rintro ⟨h1, h2⟩; exact ⟨by omega, h2⟩
      · rintro ⟨h1, h2⟩; exact ⟨by omega, h2⟩
    have hfn : ((pyRange 1 N).filter (fun i => decide (i ∉ over))).Nodup := by
      have : (pyRange 1 N).Nodup := by unfold pyRange; exact List.nodup_range'
      exact this.filter _
    have hfl : over.length + ((pyRange 1 N).filter (fun i => decide (i ∉ over))).length = N - 1 := by
      have hp : (over ++ (pyRange 1 N).filter (fun i => decide (i ∉ over))).Perm (pyRange 1 N) := by
        rw [List.perm_ext_iff_of_nodup]
        · intro i
          rw [List.mem_append, hfresh, hover]
          unfold pyRange
          rw [List.mem_range'_1]
          constructor
          · rintro (h | h)
            · have := hpos i h; omega
            · omega
          · intro h
            by_cases hc : C / 2 < d i
            · exact Or.inl ⟨by omega, hc⟩
            · exact Or.inr ⟨by omega, fun h' => hc h'.2⟩
        · rw [List.nodup_append]
          refine ⟨hnd, hfn, fun x hx y hy e => ?_⟩
          rw [hfresh] at hy
          exact hy.2 (e ▸ hx)
        · unfold pyRange; exact List.nodup_range'
      have := hp.length_eq
      rw [List.length_append] at this
      rw [this]
      simp [pyRange]
    cases hn : K - over.length with
    | zero =>
      refine ⟨over, by simp [largeLoop], hnd, by omega, fun i hi => ?_, Or.inl ⟨fun i h1 h2 h3 => ?_, fun pre i post e h1 => ?_⟩⟩
      · have := (hover i).1 hi
        exact ⟨hpos i this, this.1⟩
      · exact (hover i).2 ⟨h2, h3⟩
      · have := (hover i).1 (by rw [e]; simp)
        exact absurd h1 (not_le.2 this.2)
    | succ n =>
      have hstart : ∀ rest, largeLoop sqrt D d C N over (n + 1) rest over [] [] =
          largeLoop sqrt D d C N over (n + 1) true over ((pyRange 1 N).filter (fun i => decide (i ∉ over)))
            ((pyRange 1 N).filter (fun i => decide (i ∉ over))) := by
        intro rest
        have hne : ((pyRange 1 N).filter (fun i => decide (i ∉ over))).isEmpty = false := by
          rw [List.isEmpty_eq_false_iff]
          intro e
          rw [e] at hfl
          simp at hfl
          omega
        conv_lhs => unfold largeLoop
        conv_rhs => unfold largeLoop
        simp only [hne, List.isEmpty_nil, Bool.or_true, Bool.true_or, if_true, Bool.false_eq_true, if_false]
      rw [hstart]
      obtain ⟨l, h1, h2, h3, h4, h5⟩ := largeLoop_ok (sqrt := sqrt) (D := D) (d := d) (C := C) (N := N) (large := over) (n + 1)
        (rest := true) (seeds := over) hfn (by omega)
      refine ⟨_, h1, ?_, by rw [List.length_append]; omega, fun i hi => ?_,
        Or.inl ⟨fun i _ h6 h7 => ?_, fun pre i post e h6 j j1 j2 j3 j4 => ?_⟩⟩
      · rw [List.nodup_append]
        refine ⟨hnd, h2, fun x hx y hy e => ?_⟩
        exact ((hfresh y).1 (h4 y hy)).2 (e ▸ hx)
      · rcases List.mem_append.1 hi with hi | hi
        · have := (hover i).1 hi
          exact ⟨hpos i this, this.1⟩
        · exact ((hfresh i).1 (h4 i hi)).1
      · exact List.mem_append_left _ ((hover i).2 ⟨h6, h7⟩)
      · have hio : i ∉ over := fun h => not_lt.2 h6 ((hover i).1 h).2
        obtain ⟨pre', rfl, hl'⟩ : ∃ pre', pre = over ++ pre' ∧ l = pre' ++ i :: post := by
          rcases List.append_eq_append_iff.1 e with ⟨a, e1, e2⟩ | ⟨b, e1, e2⟩
          · exact ⟨a, e1, e2⟩
          · cases b with
            | nil => exact ⟨[], by simpa using e1.symm, by simpa using e2.symm⟩
            | cons x b =>
              injection e2 with e2 _
              exact absurd (by rw [e1, e2]; simp) hio
        have h7 := h5 pre' i post hl' j ((hfresh j).2 ⟨⟨j1, j2⟩, fun h => not_lt.2 j3 ((hover j).1 h).2⟩)
          fun h => j4 (List.mem_append_right _ h)
        have hnd' : (over ++ pre').Nodup := by
          rw [List.nodup_append]
          refine ⟨hnd, h2.sublist (by rw [hl']; exact List.sublist_append_left _ _), fun x hx y hy e => ?_⟩
          exact ((hfresh y).1 (h4 y (by rw [hl']; exact List.mem_append_left _ hy))).2 (e ▸ hx)
        have hr : ∀ x ∈ over ++ pre', 1 ≤ x ∧ x < N := by
          intro x hx
          rcases List.mem_append.1 hx with hx | hx
          · have := (hover x).1 hx
            exact ⟨hpos x this, this.1⟩
          · exact ((hfresh x).1 (h4 x (by rw [hl']; exact List.mem_append_left _ hx))).1
        rw [hscore true _ hnd' hr, hscore true _ hnd' hr] at h7
        exact h7
  · rw [if_neg hl]
    have hmask : (List.range N).filter (fun i => decide (i ∈ over)) = over := by
      rw [← hov]
      refine List.filter_congr fun i hi => ?_
      rw [decide_eq_decide, List.mem_filter]
      simp [List.mem_range.1 hi]
    rw [hmask]
    obtain ⟨l, h1, h2, h3, h4, h5⟩ := largeLoop_ok (sqrt := sqrt) (D := D) (d := d) (C := C) (N := N) (large := over) K
      (rest := false) (seeds := []) hnd (by omega)
    rw [List.nil_append] at h1
    have hr : ∀ i ∈ l, 1 ≤ i ∧ i < N := by
      intro i hi
      have := (hover i).1 (h4 i hi)
      exact ⟨hpos i this, this.1⟩
    refine ⟨l, h1, h2, h3, hr, Or.inr ⟨fun i hi => ((hover i).1 (h4 i hi)).2, fun pre i post e j _ j2 j3 j4 => ?_⟩⟩
    have h7 := h5 pre i post e j ((hover j).2 ⟨j2, j3⟩) j4
    rw [List.nil_append] at h7
    have hnd' : pre.Nodup := h2.sublist (by rw [e]; exact List.sublist_append_left _ _)
    have hr' : ∀ x ∈ pre, 1 ≤ x ∧ x < N := fun x hx => hr x (by rw [e]; exact List.mem_append_left _ hx)
    rw [hscore false _ hnd' hr', hscore false _ hnd' hr'] at h7
    simpa using h7

/-- **C68**, large demands fail: from the third trial on an exception is raised if two nodes, of which one may be the depot, ask for
at most half of the capacity. -/
theorem C68_large_raises {sqrt : ℚ → ℚ} {D : ℕ → ℕ → ℚ} {d : ℕ → ℚ} {C : ℚ} {N K t i j : ℕ} (ht : 2 ≤ t) (htN : t < N)
    (hi : i < N) (hj : j < N) (hij : i ≠ j) (h1 : d i ≤ C / 2) (h2 : d j ≤ C / 2) :
    large_demand_seeds sqrt D d C N K t = .error .indexError := by
  have hhalf : 1 / 2 * C = C / 2 := by ring
  unfold large_demand_seeds largeCands
  rw [if_neg (by omega)]
  dsimp only
  have hlen : 2 ≤ (pySort (fun i j => decide (d j < d i) || (decide (d i = d j) && decide (j ≤ i)))
      ((List.range N).filter fun i => !decide (1 / 2 * C < d i))).length := by
    rw [(pySort_perm _ _).length_eq]
    have hsub : [i, j].Subperm ((List.range N).filter fun i => !decide (1 / 2 * C < d i)) := by
      refine List.subperm_of_subset (by simp [hij]) fun x hx => ?_
      rw [List.mem_filter, List.mem_range, hhalf]
      simp only [List.mem_cons, List.not_mem_nil, or_false] at hx
      rcases hx with rfl | rfl
      · exact ⟨hi, by simpa using h1⟩
      · exact ⟨hj, by simpa using h2⟩
    simpa using hsub.length_le
  rw [if_neg (by intro e; rw [e] at hlen; simp at hlen), if_neg]
  rw [List.length_drop, List.length_take]
  omega

/-! ## Examples -/

/-- Angles in units of a quarter turn, and approximate values of the functions at the angles of the examples. -/
def gsTrig : Trig := ⟨2, fun x => if x = 1 / 2 then 7 / 10 else if x = 5 / 2 then -7 / 10 else 1,
  fun x => if x = 1 / 2 then 7 / 10 else if x = 5 / 2 then -7 / 10 else 0⟩

/-- Customers around the depot in all four directions. -/
def gsSweep : List (ℚ × ℚ × ℕ) := [(-1, 2, 1), (0, 1, 2), (1, 3, 3), (2, 1, 4)]

theorem gsSweep_ok : SweepOf 5 gsSweep := by
  refine ⟨show [1, 2, 3, 4].Perm [1, 2, 3, 4] from List.Perm.refl _, fun e he => ?_⟩
  simp only [gsSweep, List.mem_cons, List.not_mem_nil, or_false] at he
  rcases he with rfl | rfl | rfl | rfl <;> norm_num

/-- The hypotheses of `C68_cones_all` are met. -/
example : ∃ seeds, sweep_seed_points gsTrig gsSweep (10, 10) gpLine (fun n => if n = 0 then 0 else 2) (some 5) 5 2 1 = .ok seeds ∧
    seeds.length = 2 ∧ ∀ p ∈ seeds, Near gsTrig.cos gsTrig.sin (10, 10) gsSweep p :=
  C68_cones_all gsSweep_ok
    ⟨fun _ i _ => by dsimp only; split_ifs <;> norm_num, fun h => absurd ⟨5, rfl, by norm_num⟩ h⟩ (fun _ => rfl) (by decide) (by decide)
    (by decide +kernel)
    ⟨fun _ i h1 _ => by show (if i = 0 then (0 : ℚ) else 2) ≤ _; rw [if_neg (by omega)]; decide +kernel, fun h => absurd ⟨5, rfl, by norm_num⟩ h⟩

example : sweep_seed_points gsTrig gsSweep (10, 10) gpLine (fun n => if n = 0 then 0 else 2) (some 5) 5 2 1 =
    .ok [(57 / 5, 57 / 5), (179 / 20, 179 / 20)] := by decide +kernel

/-- Two customers, of which the second asks for nine tenths. -/
def gsPair : List (ℚ × ℚ × ℕ) := [(0, 1, 1), (2, 1, 2)]

theorem gsPair_ok : SweepOf 3 gsPair := by
  refine ⟨show [1, 2].Perm [1, 2] from List.Perm.refl _, fun e he => ?_⟩
  simp only [gsPair, List.mem_cons, List.not_mem_nil, or_false] at he
  rcases he with rfl | rfl <;> norm_num

/-- **C68** is false without the hypothesis on large customers: the seed point of the second of two vehicles is the origin of the
coordinates, though the depot is at (10, 10) and the customers are at a distance of 1 from it. -/
theorem C68_cones_false : SweepOf 3 gsPair ∧ SweepNonneg 3 gpLine (fun n => if n = 0 then 0 else if n = 1 then 1 else 9) (some 10) ∧
    Serviceable 3 gpLine (fun n => if n = 0 then 0 else if n = 1 then 1 else 9) (some 10) none ∧
    ∃ p, sweep_seed_points gsTrig gsPair (10, 10) gpLine (fun n => if n = 0 then 0 else if n = 1 then 1 else 9) (some 10) 3 2 0 =
      .ok [p, (0, 0)] := by
  refine ⟨gsPair_ok, ⟨fun _ i _ => by dsimp only; split_ifs <;> norm_num, fun h => absurd ⟨10, rfl, by norm_num⟩ h⟩, ?_, (11, 10),
    by decide +kernel⟩
  have key : ∀ n ∈ List.range 3, exceeds (some 10) C_EPS (demand (fun n => if n = 0 then 0 else if n = 1 then 1 else 9) [n]) = false ∧
      exceeds none S_EPS (cost gpLine (wrap [n])) = false := by decide +kernel
  intro n h1 h2
  rw [RouteOk, ← exceeds_iff, ← exceeds_iff]
  exact key n (List.mem_range.2 h2)

/-- **C68** is false for tiny demands: more groups than vehicles are made and an exception is raised. -/
theorem C68_tiny_false : SweepOf 3 gsPair ∧ SweepNonneg 3 gpLine (fun n => if n = 0 then 0 else 1 / 10 ^ 12) (some 10) ∧
    sweep_seed_points gsTrig gsPair (10, 10) gpLine (fun n => if n = 0 then 0 else 1 / 10 ^ 12) (some 10) 3 1 0 =
      .error .indexError :=
  ⟨gsPair_ok, ⟨fun _ i _ => by dsimp only; split_ifs <;> norm_num, fun h => absurd ⟨10, rfl, by norm_num⟩ h⟩, by decide +kernel⟩

/-- The hypotheses of `C68_no_error_partial` are met. -/
example : ∃ r, Ends (fun fuel => gap_init fuel { gpArgs 3 gpLine (some 2) none (gapBrute false) with
    seeds := fun K t => (sweep_seed_points gsTrig gsPair (0, 0) gpLine (fun n => if n = 0 then 0 else 1) (some 2) 3 K t).map
      (·.map fun p j => p.1 + gpLine 0 j), find_optimal_seeds := true } none false true) r :=
  C68_no_error_partial (g := gsTrig) (depot := (0, 0)) (row := fun p j => p.1 + gpLine 0 j) (by decide) gsPair_ok
    ⟨fun _ i _ => by show (0 : ℚ) ≤ if i = 0 then 0 else 1; split_ifs <;> norm_num, fun h => absurd ⟨2, rfl, by norm_num⟩ h⟩
    (Or.inr (Or.inr ⟨rfl, fun t M (e : gapBrute false t M = _) => by
      rcases gapBrute_answers false t M with h | ⟨Y, h⟩ <;> rw [h] at e <;> cases e⟩)) rfl (by decide +kernel) (Or.inr (Or.inl ⟨rfl, by decide +kernel⟩))

/-- The hypotheses of `C68_large` and `C68_large_raises` are met. -/
example : large_demand_seeds id gpLine (fun n => if n = 0 then 0 else if n = 1 then 6 else 1) 10 4 2 0 = .ok [1, 3] ∧
    large_demand_seeds id gpLine (fun n => if n = 0 then 0 else if n = 1 then 6 else 1) 10 4 2 1 = .ok [1, 3] ∧
    large_demand_seeds id gpLine (fun n => if n = 0 then 0 else if n = 1 then 6 else 1) 10 4 2 2 = .error .indexError := by
  decide +kernel

/-- **C68** is false for large demands: a search with all trials, which is the default, ends with an exception, though the
customers can be served and there is a solver that finds it. -/
theorem C68_large_false : Serviceable 4 gpLine (fun n => if n = 0 then 0 else 1) (some 2) none ∧
    GapHyp (gpArgs 4 gpLine (some 2) none (gapBrute false)) ∧
    gap_init 100 { gpArgs 4 gpLine (some 2) none (gapBrute false) with find_optimal_seeds := true, seeds := fun K t =>
      (large_demand_seeds id gpLine (fun n => if n = 0 then 0 else 1) 2 4 K t).map (·.map gpLine) } none true true =
      .error .indexError := by
  refine ⟨?_, gpArgs_hyp .., by decide +kernel⟩
  have key : ∀ n ∈ List.range 4, exceeds (some 2) C_EPS (demand (fun n => if n = 0 then 0 else 1) [n]) = false ∧
      exceeds none S_EPS (cost gpLine (wrap [n])) = false := by decide +kernel
  intro n h1 h2
  rw [RouteOk, ← exceeds_iff, ← exceeds_iff]
  exact key n (List.mem_range.2 h2)

end Verif
