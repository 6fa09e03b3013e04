import Verif.Spec.TspCli
import Verif.Props.Ropt
import Verif.Props.TspGurobi
import Verif.Props.TspExternal

/-! # C83: the command line of the routines for tours

The specification is in `Verif/Spec/TspCli.lean`. -/

namespace Verif
open Spec

/-- **C83**: without exactly one argument, or if it names no file, the usage is printed and nothing is read or solved. -/
theorem C83_usage {W : Type} {argv : List W} {isfile : W → Bool} (h : argv.length ≠ 2 ∨ ∀ a ∈ argv[1]?, isfile a = false)
    (read : W → Py (ℕ × (ℕ → ℕ → ℚ))) (tsp_f : (ℕ → ℕ → ℚ) → List ℕ → TspCall) :
    tsp_cli argv isfile read tsp_f = ([.usage], .normal) := by
  rcases argv with _ | ⟨p, _ | ⟨a, _ | ⟨b, t⟩⟩⟩
  · rfl
  · rfl
  · have : isfile a = false := by simpa using h
    rw [tsp_cli, this]; rfl
  · rfl

/-- The call for a file that can be read. -/
theorem tsp_cli_file {W : Type} {isfile : W → Bool} {read : W → Py (ℕ × (ℕ → ℕ → ℚ))} {a : W} {n : ℕ} {D : ℕ → ℕ → ℚ}
    (hf : isfile a = true) (hr : read a = .ok (n, D)) (p : W) (tsp_f : (ℕ → ℕ → ℚ) → List ℕ → TspCall) :
    tsp_cli [p, a] isfile read tsp_f = tcShow D (tsp_f D (List.range n)) := by
  rw [tsp_cli, if_pos hf, hr]

/-- **C83**: whatever the routine does, a cost that is printed is that of the tour printed before it, with the distances of the file; if
the program runs to the end then either the usage is printed, or the tour is the one that the routine returned for all nodes of the file
and its cost is the one that the routine reported. -/
theorem C83_honest {W : Type} (argv : List W) (isfile : W → Bool) (read : W → Py (ℕ × (ℕ → ℕ → ℚ)))
    (tsp_f : (ℕ → ℕ → ℚ) → List ℕ → TspCall) :
    (∀ q, .cost q ∈ (tsp_cli argv isfile read tsp_f).1 → ∃ p a n D sol, argv = [p, a] ∧ read a = .ok (n, D) ∧ q = cost D sol ∧
      (tsp_cli argv isfile read tsp_f).1 = [.solved, .solution sol, .cost q]) ∧
    ((tsp_cli argv isfile read tsp_f).2 = .normal → (tsp_cli argv isfile read tsp_f).1 = [.usage] ∨
      ∃ p a n D sol, argv = [p, a] ∧ read a = .ok (n, D) ∧ tsp_f D (List.range n) = .pair (some sol) (some (cost D sol)) ∧
        PrintsTour D sol (tsp_cli argv isfile read tsp_f)) := by
  by_cases hu : argv.length ≠ 2 ∨ ∀ a ∈ argv[1]?, isfile a = false
  · rw [C83_usage hu]
    exact ⟨fun q h => by simp at h, fun _ => .inl rfl⟩
  · rw [not_or, not_not] at hu
    obtain ⟨h1, h2⟩ := hu
    obtain ⟨p, a, rfl⟩ := List.length_eq_two.1 h1
    have ha : isfile a = true := by simpa using h2
    cases hr : read a with
    | error e =>
      have : tsp_cli [p, a] isfile read tsp_f = ([], .raised e) := by rw [tsp_cli, if_pos ha, hr]
      rw [this]
      exact ⟨fun q h => by simp at h, fun h => by cases h⟩
    | ok nD =>
      obtain ⟨n, D⟩ := nD
      rw [tsp_cli_file ha hr]
      cases hc : tsp_f D (List.range n) with
      | raised e => exact ⟨fun q h => by simp [tcShow] at h, fun h => by cases h⟩
      | interrupted => exact ⟨fun q h => by simp [tcShow] at h, fun h => by cases h⟩
      | assertion => exact ⟨fun q h => by simp [tcShow] at h, fun h => by cases h⟩
      | stuck => exact ⟨fun q h => by simp [tcShow] at h, fun h => by cases h⟩
      | pair sol f =>
        cases sol with
        | none => exact ⟨fun q h => by simp [tcShow] at h, fun h => by cases h⟩
        | some sol =>
          rw [tcShow]
          dsimp only
          rw [objf_eq_cost]
          constructor
          · intro q h
            simp only [List.mem_cons, reduceCtorEq, TcEvent.cost.injEq, List.not_mem_nil, or_false, false_or] at h
            exact ⟨p, a, n, D, sol, rfl, hr, h, by rw [h]⟩
          · intro h
            by_cases hf : f = some (cost D sol)
            · refine .inr ⟨p, a, n, D, sol, rfl, hr, by rw [hc, hf], ?_⟩
              rw [PrintsTour, if_pos hf]
            · rw [if_neg hf] at h; cases h

/-- A pair with the right cost is printed. -/
theorem tcShow_right (D : ℕ → ℕ → ℚ) (sol : List ℕ) : PrintsTour D sol (tcShow D (.pair (some sol) (some (cost D sol)))) := by
  rw [PrintsTour, tcShow, objf_eq_cost, if_pos rfl]

theorem tour_split {t r : List ℕ} (h1 : r.Perm (0 :: t ++ [0])) (h2 : r.head? = some 0) (h3 : r.getLast? = some 0) :
    ∃ u, u.Perm t ∧ r = 0 :: u ++ [0] := by
  rcases r with _ | ⟨x, r⟩
  · simp at h2
  · have hx : x = 0 := by simpa using h2
    subst hx
    have hr : r ≠ [] := by
      rintro rfl
      have := h1.length_eq
      simp at this
    have e : r = r.dropLast ++ [0] := by
      have h4 : r.getLast? = some 0 := by rwa [List.getLast?_cons_of_ne_nil hr] at h3
      rw [List.getLast?_eq_some_getLast hr] at h4
      have := List.dropLast_append_getLast hr
      rw [Option.some.inj h4] at this
      exact this.symm
    refine ⟨r.dropLast, ?_, by rw [List.cons_append, ← e]⟩
    rw [e] at h1
    exact (List.perm_append_right_iff [0]).1 ((List.perm_cons 0).1 h1)

theorem range_from_zero (m : ℕ) : List.range (m + 1) = 0 :: (List.range m).map (· + 1) := List.range_succ_eq_map

/-- **C83**: with the routine of 2-opt and 3-opt moves the program prints, for every file with two nodes or more and the same distance
both ways, a tour of all nodes and its cost, and runs to its end; no 2-opt or 3-opt move makes the tour shorter by more than the
tolerance. -/
theorem C83_ropt {W : Type} {isfile : W → Bool} {read : W → Py (ℕ × (ℕ → ℕ → ℚ))} {a : W} {n : ℕ} {D : ℕ → ℕ → ℚ}
    (hf : isfile a = true) (hr : read a = .ok (n, D)) (h2 : 2 ≤ n) (hD : Symm D) (p : W) :
    ∃ F, ∀ fuel, F ≤ fuel → ∃ sol, PrintsTour D sol (tsp_cli [p, a] isfile read (tcRopt fuel)) ∧ RoundTrip n sol ∧
      ∀ r', Nb2opt sol r' ∨ Nb3opt sol r' ∧ r' ≠ sol → ¬ (cost D r' + S_EPS < cost D sol) := by
  obtain ⟨m, rfl⟩ : ∃ m, n = m + 1 := ⟨n - 1, by omega⟩
  have ht : (List.range m).map (· + 1) ≠ [] := by simp; omega
  have hl : ((List.range m).map (· + 1)).getLast? ≠ some 0 := by
    intro h
    have := List.mem_of_getLast? h
    simp at this
  obtain ⟨F, h⟩ := C31_ropt hD 0 ((List.range m).map (· + 1)) ht hl true true
  refine ⟨F, fun fuel hfu => ?_⟩
  obtain ⟨r, c, h3, h4, h5, h6, h7, -, h8, h9⟩ := h fuel hfu
  obtain ⟨u, h10, h11⟩ := tour_split h4 (h5.trans rfl) (h6.trans (List.getLast?_concat (l := 0 :: _)))
  refine ⟨r, ?_, ⟨u, by rw [range_from_zero]; exact h10.cons 0, h11⟩, ?_⟩
  · rw [tsp_cli_file hf hr, tcRopt, range_from_zero, h3]
    simp only
    rw [h7]
    exact tcShow_right D r
  · rintro r' (h | ⟨h, h'⟩)
    · exact h8 (.inl rfl) r' h
    · exact h9 rfl r' h h'

/-- **C83**: with the routine of the solver the tour that is printed has the least cost of all, unless the solver ran out of time or was
interrupted; then nothing is printed. -/
theorem C83_gurobi {W : Type} {isfile : W → Bool} {read : W → Py (ℕ × (ℕ → ℕ → ℚ))} {a : W} {n : ℕ} {D : ℕ → ℕ → ℚ}
    (hf : isfile a = true) (hr : read a = .ok (n, D)) (h2 : 2 ≤ n) (hD : Symm D) (p : W)
    {solver : ℕ → (ℕ → ℕ → ℚ) → EdgeAnswer} (hs : EdgeSolver solver) :
    (∃ sol, PrintsTour D sol (tsp_cli [p, a] isfile read (tcGurobi solver)) ∧ RoundTrip n sol ∧
      ∀ sol', RoundTrip n sol' → cost D sol ≤ cost D sol') ∨
    4 ≤ n ∧ ∃ w, (solver n w = .timeout ∧ tsp_cli [p, a] isfile read (tcGurobi solver) = ([], .raised .gurobiError) ∨
      solver n w = .interrupted ∧ tsp_cli [p, a] isfile read (tcGurobi solver) = ([], .interrupted)) := by
  obtain ⟨m, rfl⟩ : ∃ m, n = m + 1 := ⟨n - 1, by omega⟩
  have ht : (List.range m).map (· + 1) ≠ [] := by simp; omega
  rw [tsp_cli_file hf hr, tcGurobi, range_from_zero]
  have hlen : ((List.range m).map (· + 1)).length = m := by simp
  rcases C71_optimal hD hs ht (a := 0) (by simp) (.inl rfl) with ⟨sol, h3, ⟨u, hu, hsol⟩, h4⟩ | ⟨h3, w, ⟨h4, h5⟩ | ⟨h4, h5⟩⟩
  · rw [h3]
    refine .inl ⟨sol, tcShow_right D sol, ⟨u, by rw [range_from_zero]; exact hu.cons 0, hsol⟩, ?_⟩
    rintro _ ⟨v, hv, rfl⟩
    rw [range_from_zero] at hv
    exact h4 v ((List.perm_cons 0).1 hv)
  · rw [hlen] at h3 h4
    rw [h5]
    exact .inr ⟨by omega, w, .inl ⟨h4, rfl⟩⟩
  · rw [hlen] at h3 h4
    rw [h5]
    exact .inr ⟨by omega, w, .inr ⟨h4, rfl⟩⟩

/-- **C83**: with LKH and whole numbers as distances the program prints a tour of all nodes with its cost and runs to its end. -/
theorem C83_lkh_partial {W : Type} {isfile : W → Bool} {read : W → Py (ℕ × (ℕ → ℕ → ℚ))} {a : W} {n : ℕ} {D : ℕ → ℕ → ℚ}
    (hf : isfile a = true) (hr : read a = .ok (n, D)) (h2 : 2 ≤ n) (hD : Symm D) (hz : ∀ i j, ∃ z : ℤ, D i j = z) (p : W)
    (float : Bool) {acc : ℕ} (hacc : 0 < acc) {lkh : List ℕ → List LkhLine} (h : LkhRight float acc D lkh) :
    ∃ sol, PrintsTour D sol (tsp_cli [p, a] isfile read (tcLkh lkh float acc)) ∧ RoundTrip n sol := by
  obtain ⟨m, rfl⟩ : ∃ m, n = m + 1 := ⟨n - 1, by omega⟩
  have ht : (List.range m).map (· + 1) ≠ [] := by simp; omega
  have hnd : (0 :: (List.range m).map (· + 1)).Nodup := by rw [← range_from_zero]; exact List.nodup_range
  obtain ⟨u, hu, e⟩ := C72_integers hD hz float hacc h _ ht hnd
  have hw : wrap u = 0 :: u ++ [0] := by simp [wrap]
  refine ⟨wrap u, ?_, ⟨u, by rw [range_from_zero]; exact hu.cons 0, hw⟩⟩
  rw [tsp_cli_file hf hr, tcLkh, range_from_zero]
  rw [lkhRoutine] at e
  cases hs : solve_tsp_lkh (lkh (0 :: (List.range m).map (· + 1))) float acc D (0 :: (List.range m).map (· + 1)) with
  | error x =>
    rw [hs] at e
    have := congrArg Prod.fst e
    simp [wrap] at this
  | ok r =>
    rw [hs] at e
    simp only at e
    rw [e]
    exact tcShow_right D (wrap u)

/-- **C83**: with ACOTSP the tour that is printed is one of all nodes with its cost, for any distances, if the program has printed a tour;
if it has printed none and there are four nodes or more, there is an error after the line that the problem is solved. -/
theorem C83_acotsp {W : Type} {isfile : W → Bool} {read : W → Py (ℕ × (ℕ → ℕ → ℚ))} {a : W} {n : ℕ} {D : ℕ → ℕ → ℚ}
    (hf : isfile a = true) (hr : read a = .ok (n, D)) (h4 : 4 ≤ n) (p : W) {tours : List ℕ → List (List ℕ)}
    (h : ∀ t ∈ tours (List.range n), t.Perm (List.range n)) :
    (tours (List.range n) = [] → tsp_cli [p, a] isfile read (tcAcotsp tours) = ([.solved], .raised .typeError)) ∧
    (tours (List.range n) ≠ [] → ∃ sol, PrintsTour D sol (tsp_cli [p, a] isfile read (tcAcotsp tours)) ∧ RoundTrip n sol) := by
  obtain ⟨m, rfl⟩ : ∃ m, n = m + 1 := ⟨n - 1, by omega⟩
  have hlen : ((List.range m).map (· + 1)).length = m := by simp
  have key := C72_acotsp D (a := 0) (rest := (List.range m).map (· + 1)) (by rw [hlen]; omega) (tours := tours (List.range (m + 1)))
    (by rw [hlen]; exact h)
  rw [tsp_cli_file hf hr, tcAcotsp]
  constructor
  · intro e
    have := key.1 e
    rw [← range_from_zero] at this
    rw [this]
    rfl
  · intro e
    obtain ⟨u, hu, -, hs⟩ := key.2 _ _ (List.dropLast_append_getLast e).symm
    rw [← range_from_zero] at hs
    refine ⟨0 :: u ++ [0], ?_, u, by rw [range_from_zero]; exact hu.cons 0, rfl⟩
    rw [hs]
    exact tcShow_right D _

/-- **C83**: "the tour is printed and the program runs to its end" does not hold with LKH: for three nodes, all distances 1.9, the tour is
printed with its cost 5.7 and then the assertion fails, whatever the program and the accuracy. -/
theorem C83_lkh_false (lkh : List ℕ → List LkhLine) (float : Bool) (acc : ℚ) {W : Type} {isfile : W → Bool}
    {read : W → Py (ℕ × (ℕ → ℕ → ℚ))} {a : W} (hf : isfile a = true) (hr : read a = .ok (3, nearlyTwo)) (p : W) :
    tsp_cli [p, a] isfile read (tcLkh lkh float acc) = ([.solved, .solution [0, 1, 2, 0], .cost (57 / 10)], .assertion) := by
  obtain ⟨h1, h2, -⟩ := C72_cost_false lkh float acc
  rw [tsp_cli_file hf hr, tcLkh, show List.range 3 = [0, 1, 2] from rfl, h1]
  simp only
  rw [tcShow, objf_eq_cost, h2, if_neg (by decide +kernel)]

/-- All distances are 0.1236. -/
def fineDist (i j : ℕ) : ℚ := if i = j then 0 else 1236 / 10000

/-- **C83**: nor does it hold with four nodes, where LKH is run: with the accuracy of the package and an answer that is right the
assertion fails. -/
theorem C83_accuracy_false : ∃ lkh, LkhRight true 1000 fineDist lkh ∧ ∀ {W : Type} {isfile : W → Bool}
    {read : W → Py (ℕ × (ℕ → ℕ → ℚ))} {a : W}, isfile a = true → read a = .ok (4, fineDist) → ∀ p,
    tsp_cli [p, a] isfile read (tcLkh lkh true 1000) =
      ([.solved, .solution [0, 1, 2, 3, 0], .cost (4944 / 10000)], .assertion) := by
  refine ⟨lkhInOrder true 1000 fineDist, lkhInOrder_right _ _ _, ?_⟩
  intro W isfile read a hf hr p
  rw [tsp_cli_file hf hr]
  decide +kernel

/-- **C83**: nor does it hold for a file with one node: the routine of the solver returns no tour, and there is an error after the line that
the problem is solved. -/
theorem C83_single_false (solver : ℕ → (ℕ → ℕ → ℚ) → EdgeAnswer) {W : Type} {isfile : W → Bool} {read : W → Py (ℕ × (ℕ → ℕ → ℚ))}
    {a : W} {D : ℕ → ℕ → ℚ} (hf : isfile a = true) (hr : read a = .ok (1, D)) (p : W) :
    tsp_cli [p, a] isfile read (tcGurobi solver) = ([.solved], .raised .typeError) := by
  rw [tsp_cli_file hf hr, tcGurobi, show List.range 1 = [0] from rfl, (C71_single solver D 0).1]
  rfl

/-- **C83**: with the routine that chooses by the number of nodes the program prints a tour of all nodes with its cost and runs to its end,
if the solver always answers and the distances are whole numbers. -/
theorem C83_fast_partial {W : Type} {isfile : W → Bool} {read : W → Py (ℕ × (ℕ → ℕ → ℚ))} {a : W} {n : ℕ} {D : ℕ → ℕ → ℚ}
    (hf : isfile a = true) (hr : read a = .ok (n, D)) (h2 : 2 ≤ n) (hD : Symm D) (hz : ∀ i j, ∃ z : ℤ, D i j = z) (p : W)
    {solver : ℕ → (ℕ → ℕ → ℚ) → EdgeAnswer} (hs : EdgeSolver solver) (hv : ∀ n w, 4 ≤ n → ∃ X, solver n w = .values X)
    (float : Bool) {acc : ℕ} (hacc : 0 < acc) {lkh : List ℕ → List LkhLine} (h : LkhRight float acc D lkh) :
    ∃ F, ∀ fuel, F ≤ fuel → ∃ sol, RoundTrip n sol ∧ PrintsTour D sol (tsp_cli [p, a] isfile read fun D =>
      solve_tsp_fast (tcRopt fuel D) (tcGurobi solver D) (tcLkh lkh float acc D)) := by
  obtain ⟨F, h3⟩ := C83_ropt hf hr h2 hD p
  refine ⟨F, fun fuel hfu => ?_⟩
  rw [tsp_cli_file hf hr, solve_tsp_fast, List.length_range]
  by_cases e1 : n < 5
  · obtain ⟨sol, h4, h5, -⟩ := h3 fuel hfu
    rw [tsp_cli_file hf hr] at h4
    exact ⟨sol, h5, by rw [if_pos e1]; exact h4⟩
  · rw [if_neg e1]
    by_cases e2 : n < 20
    · rw [if_pos e2]
      rcases C83_gurobi hf hr h2 hD p hs with ⟨sol, h4, h5, -⟩ | ⟨h4, w, ⟨h5, -⟩ | ⟨h5, -⟩⟩
      · rw [tsp_cli_file hf hr] at h4
        exact ⟨sol, h5, h4⟩
      · obtain ⟨X, hX⟩ := hv n w h4
        rw [hX] at h5; cases h5
      · obtain ⟨X, hX⟩ := hv n w h4
        rw [hX] at h5; cases h5
    · rw [if_neg e2]
      obtain ⟨sol, h4, h5⟩ := C83_lkh_partial hf hr h2 hD hz p float hacc h
      rw [tsp_cli_file hf hr] at h4
      exact ⟨sol, h5, h4⟩

/-- The distance of two numbers. -/
def lineDist (i j : ℕ) : ℚ := if i ≤ j then j - i else i - j

theorem lineDist_symm : Symm lineDist := by
  intro i j
  rw [lineDist, lineDist]
  split_ifs with h1 h2 h2
  · rw [le_antisymm h1 h2]
  · rfl
  · rfl
  · omega

/-- A file with five nodes on a line. -/
example (p : ℕ) : ∃ F, ∀ fuel, F ≤ fuel → ∃ sol, PrintsTour lineDist sol
    (tsp_cli [p, 7] (· == 7) (fun _ => .ok (5, lineDist)) (tcRopt fuel)) ∧ RoundTrip 5 sol :=
  let ⟨F, h⟩ := C83_ropt (isfile := (· == 7)) (read := fun _ => .ok (5, lineDist)) (a := 7) rfl rfl (by decide) lineDist_symm p
  ⟨F, fun fuel hf => let ⟨sol, h1, h2, _⟩ := h fuel hf; ⟨sol, h1, h2⟩⟩

/-- A word that is no file, and one argument too many. -/
example : tsp_cli [0, 8] (· == 7) (fun _ => .ok (5, lineDist)) (tcRopt 20) = ([.usage], .normal) ∧
    tsp_cli [0, 7, 7] (· == 7) (fun _ => .ok (5, lineDist)) (tcRopt 20) = ([.usage], .normal) :=
  ⟨C83_usage (.inr (by simp)) _ _, C83_usage (.inl (by simp)) _ _⟩

example : ∃ solver, EdgeSolver solver ∧ ∀ n w, 4 ≤ n → ∃ X, solver n w = .values X := C71_solver_exists

example : ∃ lkh, LkhRight true ((1000 : ℕ) : ℚ) (fun i j => if i = j then 0 else i + j) lkh := ⟨_, lkhInOrder_right _ _ _⟩

example : tsp_cli [0, 7] (· == 7) (fun _ => .ok (4, fun i j => if i = j then 0 else i + j)) (tcAcotsp fun _ => [[2, 0, 1, 3]]) =
    ([.solved, .solution [0, 1, 3, 2, 0], .cost 12], .normal) := by
  decide +kernel

end Verif
