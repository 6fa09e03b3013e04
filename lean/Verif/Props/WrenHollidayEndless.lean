import Verif.Props.WrenHollidayInit
import Verif.Lemmas.WhFuel

/-! # A run of the heuristic of Wren and Holliday that does not end (C46)

`wren_holliday_init`, `verypy/classic_heuristics/wren_holliday_sweep.py` 477-752, without the option to
minimize the number of the routes. -/

namespace Verif

open Spec

deriving instance DecidableEq for WhState

theorem whLoop_append (f : ℕ) (I : WhInput) (n m : ℕ) {s t : WhState} (h : whLoop f I n s = .ok (some (t, 0))) :
    whLoop f I (n + m) s = whLoop f I m t := by
  induction n generalizing s with
  | zero =>
    rw [whLoop] at h
    injection h with h
    injection h with h
    injection h with h
    rw [Nat.zero_add, h]
  | succ n ih =>
    rw [Nat.add_right_comm, whLoop]
    rw [whLoop] at h
    by_cases hs : s.stage = .stopped
    · rw [if_pos hs] at h
      injection h with h
      injection h with h
      injection h with _ h
      exact absurd h (by omega)
    · rw [if_neg hs] at h ⊢
      match hq : whStep f I s with
      | .error e => rw [hq] at h; cases h
      | .ok none => rw [hq] at h; cases h
      | .ok (some u) =>
        rw [hq] at h
        exact ih h

theorem whLoop_cycle (f : ℕ) (I : WhInput) {a p : ℕ} {s t : WhState} (h : whLoop f I a s = .ok (some (t, 0)))
    (hp : whLoop f I p t = .ok (some (t, 0))) (k : ℕ) : whLoop f I (a + k * p) s = .ok (some (t, 0)) := by
  rw [whLoop_append f I a _ h]
  induction k with
  | zero => rw [Nat.zero_mul]; rfl
  | succ k ih =>
    rw [Nat.succ_mul, Nat.add_comm, whLoop_append f I p _ hp]
    exact ih

theorem whLoop_stays (f : ℕ) (I : WhInput) (n m : ℕ) {s t : WhState} {k : ℕ} (h : whLoop f I n s = .ok (some (t, k)))
    (ht : t.stage = .stopped) : whLoop f I (n + m) s = .ok (some (t, k + m)) := by
  induction n generalizing s with
  | zero =>
    rw [whLoop] at h
    injection h with h
    injection h with h
    injection h with h h'
    subst h h'
    cases m with
    | zero => rfl
    | succ m => rw [Nat.zero_add, whLoop, if_pos ht]
  | succ n ih =>
    rw [Nat.add_right_comm, whLoop]
    rw [whLoop] at h
    by_cases hs : s.stage = .stopped
    · rw [if_pos hs] at h ⊢
      injection h with h
      injection h with h
      injection h with h h'
      subst h h'
      rw [Nat.add_right_comm]
    · rw [if_neg hs] at h ⊢
      match hq : whStep f I s with
      | .error e => rw [hq] at h; cases h
      | .ok none => rw [hq] at h; cases h
      | .ok (some u) =>
        rw [hq] at h
        exact ih h

/-- A loop that comes back to a state never stops. -/
theorem whLoop_never (f : ℕ) (I : WhInput) {a p : ℕ} {s t : WhState} (h : whLoop f I a s = .ok (some (t, 0)))
    (hp : whLoop f I p t = .ok (some (t, 0))) (h0 : 0 < p) (ht : t.stage ≠ .stopped) (fuel n : ℕ) (u : WhState) (k : ℕ)
    (hu : whLoop fuel I n s = .ok (some (u, k))) : u.stage ≠ .stopped := by
  intro hst
  have hn : n ≤ a + n * p := (Nat.le_mul_of_pos_right n h0).trans (Nat.le_add_left _ _)
  have h1 := (whLoop_more I (Nat.le_max_left f fuel) (a + n * p) s).ok (whLoop_cycle f I h hp n)
  have h2 := whLoop_stays fuel I n (a + n * p - n) hu hst
  rw [Nat.add_sub_cancel' hn] at h2
  have h3 := (whLoop_more I (Nat.le_max_right f fuel) (a + n * p) s).ok h2
  rw [h1] at h3
  injection h3 with h3
  injection h3 with h3
  injection h3 with h3
  exact ht (h3 ▸ hst)

theorem whPhase2_returned (fuel : ℕ) (I : WhInput) {sols : List (List ℕ)} {best : Option (List ℕ × ℚ × ℚ)} {n : ℕ}
    {r : Option (List ℕ)} (h : whPhase2 fuel I sols best n = .ok (some (.returned r))) :
    ∀ sol ∈ sols, ∃ m s k, whLoop fuel I m (whStart I sol) = .ok (some (s, k)) ∧ s.stage = .stopped := by
  induction sols generalizing best n with
  | nil => intro sol hs; cases hs
  | cons x rest ih =>
    rw [whPhase2] at h
    match hq : whLoop fuel I n (whStart I x) with
    | .error e => rw [hq] at h; cases h
    | .ok none => rw [hq] at h; cases h
    | .ok (some (s, k)) =>
      rw [hq] at h
      dsimp only at h
      by_cases hs : s.stage = .stopped
      · rw [if_pos hs] at h
        intro sol hm
        rcases List.mem_cons.1 hm with rfl | hm
        · exact ⟨n, s, k, hq, hs⟩
        · exact ih h sol hm
      · rw [if_neg hs] at h
        cases h

/-- If the loop comes back to a state from the solution of one of the sweeps, the heuristic does not return. -/
theorem wren_holliday_never (f : ℕ) (I : WhInput) (ldp : ℚ) (seed : WhSeed) (dir : SweepDir) {dirs : List Bool}
    (hd : whDirs dir = .ok dirs) {sols : List (List ℕ)}
    (hi : whInitials f I (dirs.flatMap (whSweeps I ldp seed)) = .ok (some sols)) {sol : List ℕ} (hs : sol ∈ sols)
    {a p : ℕ} {t : WhState} (h : whLoop f I a (whStart I sol) = .ok (some (t, 0)))
    (hp : whLoop f I p t = .ok (some (t, 0))) (h0 : 0 < p) (ht : t.stage ≠ .stopped) (fuel n : ℕ) (r : Option (List ℕ)) :
    wren_holliday_init fuel I ldp seed dir (.second n) ≠ .ok (some (.returned r)) := by
  intro hr
  rw [wren_holliday_init, hd] at hr
  dsimp only at hr
  match hq : whInitials fuel I (dirs.flatMap (whSweeps I ldp seed)) with
  | .error e => rw [hq] at hr; cases hr
  | .ok none => rw [hq] at hr; cases hr
  | .ok (some sols') =>
    rw [hq] at hr
    have h1 := (whInitials_more I (Nat.le_max_left f fuel) _).ok hi
    have h2 := (whInitials_more I (Nat.le_max_right f fuel) _).ok hq
    rw [h1] at h2
    injection h2 with h2
    injection h2 with h2
    subst h2
    obtain ⟨m, s, k, hl, hst⟩ := whPhase2_returned fuel I hr sol hs
    exact whLoop_never f I h hp h0 ht fuel m s k hl hst

/-- Five customers at (4,5), (6,-6), (-1,0), (-3,2) and (1,-4), the depot at (0,0). -/
def whFiveX (n : ℕ) : ℚ := [0, 4, 6, -1, -3, 1].getD n 0

@[inherit_doc whFiveX]
def whFiveY (n : ℕ) : ℚ := [0, 5, -6, 0, 2, -4].getD n 0

/-- Distances along the axes. -/
def whFiveD (i j : ℕ) : ℚ := |whFiveX i - whFiveX j| + |whFiveY i - whFiveY j|

/-- The demands of the five customers. -/
def whFiveDem (n : ℕ) : ℚ := [0, 3, 2, 3, 3, 2].getD n 0

/-- The angles of the five customers, to four digits. -/
def whFivePhi (n : ℕ) : ℚ :=
  [0, 8961 / 10000, -7854 / 10000, 31416 / 10000, 25536 / 10000, -13258 / 10000].getD n 0

/-- The instance of the five customers, with the capacity five; the number of the routes is not to be minimized. -/
def whFive (full_convergence : Bool) : WhInput :=
  ⟨6, whFiveD, whFiveDem, some 5, none, false, full_convergence,
    ⟨31416 / 10000, whFivePhi, [5, 2, 1, 4, 3], fun _ => [1, 2]⟩⟩

theorem whFive_ok (f : Bool) : WhInputOk (whFive f) := by
  refine ⟨⟨fun i j => ?_, fun i j => ?_, by cases f <;> decide +kernel, fun n => ?_, by cases f <;> decide +kernel, ?_, by cases f <;> decide, ?_⟩,
    (by decide : 2 ≤ 6), fun i j k => ?_⟩
  · show whFiveD i j = whFiveD j i
    unfold whFiveD
    rw [abs_sub_comm, abs_sub_comm (whFiveY i)]
  · exact add_nonneg (abs_nonneg _) (abs_nonneg _)
  · show 0 ≤ whFiveDem n
    unfold whFiveDem
    rcases n with _ | _ | _ | _ | _ | _ | n <;> simp
  · intro n h1 h2
    refine ⟨fun c hc _ => ?_, fun c hc => nomatch hc⟩
    obtain rfl : c = 5 := by injection hc with hc; exact hc.symm
    have h2 : n < 6 := h2
    interval_cases n <;> cases f <;> decide +kernel
  · refine ⟨by show (0 : ℚ) < 31416 / 10000; norm_num, fun n => ?_⟩
    show -(31416 / 10000) ≤ whFivePhi n ∧ whFivePhi n ≤ 31416 / 10000
    unfold whFivePhi
    rcases n with _ | _ | _ | _ | _ | _ | n <;> norm_num
  · show whFiveD i k ≤ whFiveD i j + whFiveD j k
    unfold whFiveD
    have h1 := abs_sub_le (whFiveX i) (whFiveX j) (whFiveX k)
    have h2 := abs_sub_le (whFiveY i) (whFiveY j) (whFiveY k)
    linarith

/-- The state to which the loop comes back after 24 stages. -/
def whFiveState : WhState :=
  { routes := [⟨[0, 3, 0], 2, some 3⟩, ⟨[0, 5, 2, 0], 24, some 4⟩, ⟨[0, 4, 0], 10, some 3⟩, ⟨[0, 1, 0], 18, some 3⟩]
    stage := .delete, converging := true, deleted := true, changed := true
    sol_f := 56, prev_Q := some 56, prev_iter := some 62 }

theorem whFive_enter (f : Bool) :
    whLoop 6 (whFive f) 17 (whStart (whFive f) [0, 5, 2, 0, 1, 0, 4, 0, 3, 0]) = .ok (some (whFiveState, 0)) := by
  cases f <;> decide +kernel

theorem whFive_cycle (f : Bool) : whLoop 6 (whFive f) 24 whFiveState = .ok (some (whFiveState, 0)) := by
  cases f <;> decide +kernel

/-- **C46**: "the heuristic ends" does not hold if the number of the routes is not to be minimized, with the seeds and
the directions that the command line uses, whether full convergence is asked for or not: DELETE makes
the solution worse, the other procedures make it better again, and the loop comes back to the state it was
in. The instance has five customers and meets all the conditions of `C46`. However much time it is given,
the heuristic does not return; it has to be interrupted, and then hands out a solution. -/
theorem C46_endless (f : Bool) :
    WhInputOk (whFive f) ∧ ∀ n,
      (∀ fuel r, wren_holliday_init fuel (whFive f) (-30703 / 10000) .bestOfFour .both (.second n) ≠
        .ok (some (.returned r))) ∧
      ∃ sol, WhGood (whFive f) sol ∧ ∃ F, ∀ fuel, F ≤ fuel →
        wren_holliday_init fuel (whFive f) (-30703 / 10000) .bestOfFour .both (.second n) =
          .ok (some (.interrupted (some sol))) := by
  have hi : whInitials 6 (whFive f) ([true, false].flatMap (whSweeps (whFive f) (-30703 / 10000) .bestOfFour)) =
      .ok (some [[0, 3, 0, 4, 0, 1, 2, 0, 5, 0], [0, 3, 0, 4, 0, 1, 2, 0, 5, 0], [0, 2, 5, 0, 3, 0, 4, 0, 1, 0],
        [0, 1, 2, 0, 5, 3, 0, 4, 0], [0, 5, 2, 0, 1, 0, 4, 0, 3, 0], [0, 5, 2, 0, 1, 0, 4, 0, 3, 0],
        [0, 1, 0, 4, 0, 3, 5, 0, 2, 0], [0, 4, 0, 3, 5, 0, 2, 1, 0]]) := by
    cases f <;> decide +kernel
  have hne : ∀ n fuel r, wren_holliday_init fuel (whFive f) (-30703 / 10000) .bestOfFour .both (.second n) ≠
      .ok (some (.returned r)) := fun n fuel r =>
    wren_holliday_never 6 (whFive f) _ .bestOfFour .both rfl hi (sol := [0, 5, 2, 0, 1, 0, 4, 0, 3, 0]) (by decide)
      (whFive_enter f) (whFive_cycle f) (by decide) (by decide) fuel n r
  refine ⟨whFive_ok f, fun n => ⟨hne n, ?_⟩⟩
  obtain ⟨inits, cands, sol, -, -, c1, c2, -, F, ⟨-, e⟩ | e⟩ :=
    C46_second (seed := .bestOfFour) (dir := .both) (whFive_ok f) (fun h => absurd h (by cases f <;> decide)) (-30703 / 10000)
      trivial (fun h => nomatch h) n
  · exact absurd (e F le_rfl) (hne n F _)
  · exact ⟨sol, c1 sol c2.1, F, e⟩

/-- **C46**: a single sweep is enough for that. -/
theorem C46_endless_single (f : Bool) (fuel n : ℕ) (r : Option (List ℕ)) :
    wren_holliday_init fuel (whFive f) 0 (.position 0) .ccw (.second n) ≠ .ok (some (.returned r)) := by
  refine wren_holliday_never 6 (whFive f) 0 (.position 0) .ccw rfl (sols := [[0, 5, 2, 0, 1, 0, 4, 0, 3, 0]]) ?_
    (List.mem_singleton.2 rfl) (whFive_enter f) (whFive_cycle f) (by decide) (by decide) fuel n r
  cases f <;> decide +kernel

/-- The same instance with another start of the sweep: the heuristic returns. -/
example : wren_holliday_init 9 (whFive true) 0 (.position 1) .ccw (.second 60) =
    .ok (some (.returned (some [0, 1, 2, 0, 3, 5, 0, 4, 0]))) := by
  decide +kernel

end Verif
