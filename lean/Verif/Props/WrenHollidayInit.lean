import Verif.Props.WrenHollidayProc

/-! # The heuristic of Wren and Holliday (C46)

`wren_holliday_init`, `verypy/classic_heuristics/wren_holliday_sweep.py` 477-752. -/

namespace Verif

open Spec

variable {I : WhInput}

/-- The solution the heuristic hands out, by returning it or with an interrupt. -/
def WhEnd.sol? : WhEnd → Option (List ℕ)
  | .returned s => s
  | .interrupted s => s
  | .nothing => none

/-- The sweeps that are made for a direction and a seed. -/
def whPlan (I : WhInput) (ldp : ℚ) (seed : WhSeed) (dir : SweepDir) : List (ℕ × Bool) :=
  (match dir with
    | .both => [true, false]
    | .cw => [true]
    | .ccw => [false]
    | .other => []).flatMap (whSweeps I ldp seed)

theorem whPlan_spec (h : WhInputOk I) (ldp : ℚ) {seed : WhSeed} (hs : seed.usable I.N) {dir : SweepDir}
    (hd : dir ≠ .other) : whPlan I ldp seed dir ≠ [] ∧ (∀ p ∈ whPlan I ldp seed dir, p.1 < I.N - 1) ∧
      ∃ dirs, whDirs dir = .ok dirs ∧ dirs.flatMap (whSweeps I ldp seed) = whPlan I ldp seed dir := by
  have h1 := whSweeps_lt h ldp hs
  cases dir with
  | other => exact absurd rfl hd
  | both =>
    refine ⟨?_, ?_, _, rfl, rfl⟩
    · simp [whPlan, (h1 true).1]
    · intro p hp
      obtain ⟨b, -, hb⟩ := List.mem_flatMap.1 hp
      exact (h1 b).2 p hb
  | cw =>
    refine ⟨?_, ?_, _, rfl, rfl⟩
    · simp [whPlan, (h1 true).1]
    · intro p hp
      obtain ⟨b, -, hb⟩ := List.mem_flatMap.1 hp
      exact (h1 b).2 p hb
  | ccw =>
    refine ⟨?_, ?_, _, rfl, rfl⟩
    · simp [whPlan, (h1 false).1]
    · intro p hp
      obtain ⟨b, -, hb⟩ := List.mem_flatMap.1 hp
      exact (h1 b).2 p hb

/-- The best of the candidates, by the number of routes first if that is to be minimized. -/
def BestAmong (I : WhInput) (cands : List (List ℕ)) (sol : List ℕ) : Prop :=
  sol ∈ cands ∧
    ∀ c ∈ cands, ¬ Better I.minimize_K (cost I.D c, ((blocks c).length : ℚ)) (cost I.D sol, ((blocks sol).length : ℚ))

theorem count_tour {us : List (List ℕ)} (h : ∀ u ∈ us, ∀ x ∈ u, x ≠ 0) : (tour us).count 0 = us.length + 1 := by
  induction us with
  | nil => rfl
  | cons u us ih =>
    have h0 : u.count 0 = 0 := List.count_eq_zero.2 fun hm => h u (by simp) 0 hm rfl
    rw [tour, List.count_cons_self, List.count_append, h0, ih fun v hv => h v (List.mem_cons_of_mem _ hv), List.length_cons]
    omega

theorem solves_count {N : ℕ} {D : ℕ → ℕ → ℚ} {d : ℕ → ℚ} {C L : Option ℚ} {sol : List ℕ} (h : Solves N D d C L sol) :
    (sol.count 0 : ℚ) - 1 = (blocks sol).length := by
  have : sol = tour (blocks sol) := by rw [← squeeze_depotEnds h.ends, h.noEmpty]
  have hc := count_tour (us := blocks sol) fun u hu => (mem_blocks sol u hu).2
  rw [← this] at hc
  rw [hc]
  push_cast
  ring

theorem keepBetter_best {cands : List (List ℕ)} (hc : cands ≠ []) (hg : ∀ c ∈ cands, WhGood I c) :
    ∃ sol, (cands.foldl (keepBetter I.D I.minimize_K) none).map (·.1) = some sol ∧ BestAmong I cands sol := by
  obtain ⟨l, s, r, e1, e2, e3, e4⟩ :=
    C04_bestOf (fun s => cost I.D s) (fun s => (s.count 0 : ℚ) - 1) I.minimize_K cands hc
  have hs : s ∈ cands := by rw [e1]; simp
  refine ⟨s, by rw [keepBetter_fold, e2], hs, fun x hx => ?_⟩
  rw [← solves_count (hg x hx).1, ← solves_count (hg s hs).1]
  rw [e1, List.mem_append, List.mem_cons] at hx
  rcases hx with hx | rfl | hx
  · exact fun hb => better_irrefl _ _ (better_trans _ hb (e3 x hx))
  · exact better_irrefl _ _
  · exact e4 x hx

/-- **C46**, an interrupt of the first phase, after at least one sweep: the best of the solutions of the
sweeps that were made is handed out. -/
theorem C46_first (h : WhInputOk I) (h2 : I.N = 3 → (I.sweep.two I.sweep.nodes).Perm [1, 2]) (ldp : ℚ) {seed : WhSeed}
    (hs : seed.usable I.N) {dir : SweepDir} (hd : dir ≠ .other) (k : ℕ) :
    ∃ cands sol, List.Forall₂ (WhSwept I) ((whPlan I ldp seed dir).take (k + 1)) cands ∧ (∀ c ∈ cands, WhGood I c) ∧
      BestAmong I cands sol ∧
      ∃ F, ∀ fuel, F ≤ fuel → wren_holliday_init fuel I ldp seed dir (.first (k + 1)) = .ok (some (.interrupted (some sol))) := by
  obtain ⟨p1, p2, dirs, p3, p4⟩ := whPlan_spec h ldp hs hd
  obtain ⟨sols, ⟨F, e⟩, l, g⟩ := whInitials_spec h h2 ((whPlan I ldp seed dir).take (k + 1))
    fun p hp => p2 p (List.mem_of_mem_take hp)
  have hne : sols ≠ [] := by
    rintro rfl
    have := l.length_eq
    simp at this
    exact p1 this
  obtain ⟨sol, s1, s2⟩ := keepBetter_best (I := I) hne fun c hc => whInitial_good (g c hc)
  refine ⟨sols, sol, l, fun c hc => whInitial_good (g c hc), s2, F, fun fuel hf => ?_⟩
  rw [wren_holliday_init, p3]
  simp only
  rw [p4, e fuel hf]
  simp only
  rw [whHandOut, if_neg hne, s1]

/-- **C46**, an interrupt before the first sweep is done hands out nothing. -/
theorem C46_nothing (h : WhInputOk I) (ldp : ℚ) {seed : WhSeed} (hs : seed.usable I.N) {dir : SweepDir} (hd : dir ≠ .other) :
    ∀ fuel, wren_holliday_init fuel I ldp seed dir (.first 0) = .ok (some .nothing) := by
  obtain ⟨-, -, dirs, p3, -⟩ := whPlan_spec h ldp hs hd
  intro fuel
  rw [wren_holliday_init, p3]
  simp [whInitials, whHandOut]

/-- **C46**, the second phase, interrupted after any number of stages of its loop, or not at all: from each
of the solutions of the sweeps, or as many of them as there was time for, it makes a complete solution
within the limits, and hands out the best of these. If the number of the routes is to be minimized, each of
them has fewer routes than the solution of the sweep it is made from, or as many and no higher cost. -/
theorem C46_second (h : WhInputOk I) (h2 : I.N = 3 → (I.sweep.two I.sweep.nodes).Perm [1, 2]) (ldp : ℚ) {seed : WhSeed}
    (hs : seed.usable I.N) {dir : SweepDir} (hd : dir ≠ .other) (n : ℕ) :
    ∃ inits cands sol, List.Forall₂ (WhSwept I) (whPlan I ldp seed dir) inits ∧ (∀ c ∈ inits, WhGood I c) ∧
      (∀ c ∈ cands, WhGood I c) ∧ BestAmong I cands sol ∧
      (I.minimize_K = true → List.Forall₂ (AtLeastAsGood I.D) (inits.take cands.length) cands) ∧
      ∃ F, (cands.length = inits.length ∧
          ∀ fuel, F ≤ fuel → wren_holliday_init fuel I ldp seed dir (.second n) = .ok (some (.returned (some sol)))) ∨
        ∀ fuel, F ≤ fuel → wren_holliday_init fuel I ldp seed dir (.second n) = .ok (some (.interrupted (some sol))) := by
  obtain ⟨p1, p2, dirs, p3, p4⟩ := whPlan_spec h ldp hs hd
  obtain ⟨sols, ⟨F1, e1⟩, l, g⟩ := whInitials_spec h h2 (whPlan I ldp seed dir) p2
  have hne : sols ≠ [] := by
    rintro rfl
    exact p1 (List.length_eq_zero_iff.1 l.length_eq)
  obtain ⟨cands, c1, c2, c3, c4⟩ := whPhase2_spec h sols none n g
  obtain ⟨sol, s1, s2⟩ := keepBetter_best (I := I) (c2 hne) c1
  have red : ∀ fuel, F1 ≤ fuel → wren_holliday_init fuel I ldp seed dir (.second n) = whPhase2 fuel I sols none n := by
    intro fuel hf
    rw [wren_holliday_init, p3]
    simp only
    rw [p4, e1 fuel hf]
  refine ⟨sols, cands, sol, l, fun c hc => whInitial_good (g c hc), c1, s2, c3, ?_⟩
  rcases c4 with ⟨c4, F2, e2⟩ | ⟨F2, e2⟩
  · exact ⟨F1 + F2, .inl ⟨c4, fun fuel hf => by rw [red fuel (by omega), e2 fuel (by omega), s1]⟩⟩
  · exact ⟨F1 + F2, .inr fun fuel hf => by rw [red fuel (by omega), e2 fuel (by omega), s1]⟩

/-- **C46**: whenever the interrupt comes, the heuristic ends without an exception, with a complete solution
within the limits (or with nothing, if no sweep was done). -/
theorem C46 (h : WhInputOk I) (h2 : I.N = 3 → (I.sweep.two I.sweep.nodes).Perm [1, 2]) (ldp : ℚ) {seed : WhSeed}
    (hs : seed.usable I.N) {dir : SweepDir} (hd : dir ≠ .other) (w : WhWhen) :
    ∃ e, (∃ F, ∀ fuel, F ≤ fuel → wren_holliday_init fuel I ldp seed dir w = .ok (some e)) ∧
      ((∃ sol, e.sol? = some sol ∧ WhGood I sol) ∨ (w = .first 0 ∧ e = .nothing)) := by
  cases w with
  | first k =>
    cases k with
    | zero => exact ⟨.nothing, ⟨0, fun fuel _ => C46_nothing h ldp hs hd fuel⟩, .inr ⟨rfl, rfl⟩⟩
    | succ k =>
      obtain ⟨cands, sol, -, c1, c2, F, e⟩ := C46_first h h2 ldp hs hd k
      exact ⟨_, ⟨F, e⟩, .inl ⟨sol, rfl, c1 sol c2.1⟩⟩
  | second n =>
    obtain ⟨inits, cands, sol, -, -, c1, c2, -, F, ⟨-, e⟩ | e⟩ := C46_second h h2 ldp hs hd n
    · exact ⟨_, ⟨F, e⟩, .inl ⟨sol, rfl, c1 sol c2.1⟩⟩
    · exact ⟨_, ⟨F, e⟩, .inl ⟨sol, rfl, c1 sol c2.1⟩⟩

/-- **C46**: if the number of the routes is to be minimized, the heuristic ends, and the solution it returns has
fewer routes than that of any of the sweeps, or as many and no higher cost. Without this option that is
not so (`C46_worse_false`), and the heuristic need not end (`C46_endless`, in `Props/WrenHollidayEndless.lean`). -/
theorem C46_ends_partial (h : WhInputOk I) (h2 : I.N = 3 → (I.sweep.two I.sweep.nodes).Perm [1, 2])
    (hm : I.minimize_K = true) (ldp : ℚ) {seed : WhSeed} (hs : seed.usable I.N) {dir : SweepDir} (hd : dir ≠ .other) :
    ∃ inits sol, List.Forall₂ (WhSwept I) (whPlan I ldp seed dir) inits ∧ WhGood I sol ∧
      (∀ c ∈ inits, AtLeastAsGood I.D c sol) ∧
      ∃ k F, ∀ fuel, F ≤ fuel → ∀ n, k ≤ n →
        wren_holliday_init fuel I ldp seed dir (.second n) = .ok (some (.returned (some sol))) := by
  obtain ⟨p1, p2, dirs, p3, p4⟩ := whPlan_spec h ldp hs hd
  obtain ⟨sols, ⟨F1, e1⟩, l, g⟩ := whInitials_spec h h2 (whPlan I ldp seed dir) p2
  have hne : sols ≠ [] := by
    rintro rfl
    exact p1 (List.length_eq_zero_iff.1 l.length_eq)
  obtain ⟨cands, k, F2, c1, c2, e2⟩ := whPhase2_ends h hm sols none g
  obtain ⟨sol, s1, s2⟩ := keepBetter_best (I := I) (cands := cands) (by
    rintro rfl
    exact hne (List.length_eq_zero_iff.1 c1.length_eq)) c2
  have red : ∀ n fuel, F1 ≤ fuel → wren_holliday_init fuel I ldp seed dir (.second n) = whPhase2 fuel I sols none n := by
    intro n fuel hf
    rw [wren_holliday_init, p3]
    simp only
    rw [p4, e1 fuel hf]
  refine ⟨sols, sol, l, c2 sol s2.1, ?_, k, F1 + F2, fun fuel hf n hn => by
    rw [red n fuel (by omega), e2 fuel (by omega) n hn, s1]⟩
  intro c hc
  obtain ⟨i, hi, rfl⟩ := List.getElem_of_mem hc
  have hi' : i < cands.length := by rw [← c1.length_eq]; exact hi
  have a : AtLeastAsGood I.D sols[i] cands[i] := c1.get hi hi'
  have b := s2.2 cands[i] (List.getElem_mem hi')
  rw [hm] at b
  simp only [Better, if_true, not_or, not_and, not_lt, Nat.cast_le, Nat.cast_inj] at b
  unfold AtLeastAsGood at a ⊢
  rcases Nat.lt_or_ge (blocks sol).length (blocks sols[i]).length with hlt | hge
  · exact .inl hlt
  · rcases a with a | ⟨a1, a2⟩
    · have := b.1
      omega
    · have := b.1
      exact .inr ⟨by omega, (b.2 (by omega)).trans a2⟩

/-- A seed of another type: no sweep is made and nothing is returned. -/
theorem C46_other (I : WhInput) (ldp : ℚ) {dir : SweepDir} (hd : dir ≠ .other) (n fuel : ℕ) :
    wren_holliday_init fuel I ldp .other dir (.second n) = .ok (some (.returned none)) := by
  cases dir with
  | other => exact absurd rfl hd
  | both => rfl
  | cw => rfl
  | ccw => rfl

/-- The instance of `whLine`: two customers on each side of the depot. -/
def whLineInput (minimize_K full_convergence : Bool) : WhInput :=
  ⟨5, whLine, whDem, some 3, none, minimize_K, full_convergence, whLineSweep⟩

theorem whLineInput_ok (m f : Bool) : WhInputOk (whLineInput m f) := ⟨whLine_case, (by decide : 2 ≤ 5), whLine_tri⟩

/-- The hypotheses of the theorems hold there. -/
example (w : WhWhen) : ∃ e, (∃ F, ∀ fuel, F ≤ fuel →
    wren_holliday_init fuel (whLineInput true false) 0 .bestOfFour .both w = .ok (some e)) ∧
      ((∃ sol, e.sol? = some sol ∧ WhGood (whLineInput true false) sol) ∨ (w = .first 0 ∧ e = .nothing)) :=
  C46 (seed := .bestOfFour) (dir := .both) (whLineInput_ok true false) (fun h => absurd h (by decide)) 0 trivial (fun h => nomatch h) w

/-- The run. -/
example : wren_holliday_init 9 (whLineInput true false) 0 .leastDense .ccw (.second 30) =
    .ok (some (.returned (some [0, 3, 1, 0, 4, 2, 0]))) := by
  decide +kernel

/-- **C46**: "the improvement phase does not make the solution worse" does not hold if the number of the routes is
not to be minimized, as DELETE may raise the cost: the sweep costs 60, what is returned 80. An interrupt
in the first phase would have handed out the better solution. -/
theorem C46_worse_false :
    wren_holliday_init 9 (whLineInput false true) 0 (.position 0) .ccw (.first 1) =
      .ok (some (.interrupted (some [0, 1, 2, 0, 3, 0, 4, 0]))) ∧
    wren_holliday_init 9 (whLineInput false true) 0 (.position 0) .ccw (.second 30) =
      .ok (some (.returned (some [0, 3, 1, 0, 4, 2, 0]))) ∧
    cost whLine [0, 1, 2, 0, 3, 0, 4, 0] = 60 ∧ cost whLine [0, 3, 1, 0, 4, 2, 0] = 80 := by
  decide +kernel

/-- Six customers at (4,3), (0,3), (2,3), (-4,-4), (2,2) and (-2,3), the depot at (0,0). -/
def whSixX (n : ℕ) : ℚ := [0, 4, 0, 2, -4, 2, -2].getD n 0

@[inherit_doc whSixX]
def whSixY (n : ℕ) : ℚ := [0, 3, 3, 3, -4, 2, 3].getD n 0

/-- Distances along the axes. -/
def whSixD (i j : ℕ) : ℚ := |whSixX i - whSixX j| + |whSixY i - whSixY j|

/-- The demands of the six customers. -/
def whSixDem (n : ℕ) : ℚ := [0, 1, 2, 3, 2, 2, 3].getD n 0

/-- The angles of the six customers, where two stands for a half turn. -/
def whSixPhi (n : ℕ) : ℚ := [0, 3 / 7, 1, 3 / 5, -3 / 2, 1 / 2, 7 / 5].getD n 0

/-- The instance of the six customers: the fewest routes, full convergence. -/
def whSix : WhInput :=
  ⟨7, whSixD, whSixDem, some 6, none, true, true, ⟨2, whSixPhi, [4, 1, 5, 3, 2, 6], fun _ => [1, 2]⟩⟩

theorem whSix_ok : WhInputOk whSix := by
  refine ⟨⟨fun i j => ?_, fun i j => ?_, by decide +kernel, fun n => ?_, by decide +kernel, ?_, by decide, ?_⟩,
    (by decide : 2 ≤ 7), fun i j k => ?_⟩
  · show whSixD i j = whSixD j i
    unfold whSixD
    rw [abs_sub_comm, abs_sub_comm (whSixY i)]
  · exact add_nonneg (abs_nonneg _) (abs_nonneg _)
  · show 0 ≤ whSixDem n
    unfold whSixDem
    rcases n with _ | _ | _ | _ | _ | _ | _ | n <;> simp
  · intro n h1 h2
    refine ⟨fun c hc _ => ?_, fun c hc => nomatch hc⟩
    obtain rfl : c = 6 := by injection hc with hc; exact hc.symm
    have h2 : n < 7 := h2
    interval_cases n <;> decide +kernel
  · refine ⟨by decide +kernel, fun n => ?_⟩
    show -2 ≤ whSixPhi n ∧ whSixPhi n ≤ 2
    unfold whSixPhi
    rcases n with _ | _ | _ | _ | _ | _ | _ | n <;> norm_num
  · show whSixD i k ≤ whSixD i j + whSixD j k
    unfold whSixD
    have h1 := abs_sub_le (whSixX i) (whSixX j) (whSixX k)
    have h2 := abs_sub_le (whSixY i) (whSixY j) (whSixY k)
    linarith

/-- **C46**: with full convergence "the local search continues until no operation is capable of finding an
improving move" does not hold, as the loop is not told of the changes that DISENTANGLE makes: the solution
that is returned here costs 42, and SINGLE makes it cost 40. -/
theorem C46_converged_false :
    wren_holliday_init 9 whSix 0 (.position 0) .ccw (.second 30) =
      .ok (some (.returned (some [0, 2, 0, 5, 3, 1, 0, 4, 6, 0]))) ∧
    single_heuristic 9 whSixD whSixDem (some 6) none (whRecords whSixD whSixDem [[2], [5, 3, 1], [4, 6]]) =
      .ok (some (whRecords whSixD whSixDem [[6, 2], [5, 3, 1], [4]], true)) ∧
    cost whSixD [0, 2, 0, 5, 3, 1, 0, 4, 6, 0] = 42 ∧ cost whSixD [0, 6, 2, 0, 5, 3, 1, 0, 4, 0] = 40 := by
  decide +kernel

/-- One customer. -/
def whSmall : WhInput := ⟨2, whLine, whDem, some 3, none, false, true, ⟨3, fun _ => 0, [1], fun _ => [1, 2]⟩⟩

/-- **C46**: the second position of the sweep, which the command line option stands for, does not exist if there is
only one customer: an exception. -/
theorem C46_single_false : wren_holliday_init 9 whSmall 0 (.position 1) .ccw (.second 30) = .error .indexError := by
  decide +kernel

end Verif
