import Verif.Lemmas.CliRuns

/-! # C59: the best of several runs -/

namespace Verif
open Spec

/-- The printing at the end. -/
theorem shown_ok {i : CliInst} (hp : PlainData i.Dc i.d i.C i.L) {mk : Bool} {v : ℤ} {ss ms : List (List ℕ)}
    (hm : List.Forall₂ NormalForm ss ms) {best : Option (List ℕ × ℚ × ℕ)} (h : RunInv i.Dc mk ms best)
    (hN : 0 ≤ v → 0 < i.N ∧ ∀ s ∈ ss, ∀ x ∈ s, x < i.N) :
    ∃ shown, Printed i v (best.map (·.1)) shown ∧ cliShown i v best = .ok shown := by
  match best, h with
  | none, _ => exact ⟨none, rfl, rfl⟩
  | some (m, f, K), h =>
    by_cases hv : 0 ≤ v
    · obtain ⟨⟨-, pre, post, h2, -⟩, -, -⟩ := h
      obtain ⟨s, hs, hsm⟩ : ∃ s ∈ ss, NormalForm s m := by
        rw [h2] at hm
        clear hN h2
        induction pre generalizing ss with
        | nil =>
          cases hm with
          | cons q _ => exact ⟨_, List.mem_cons_self, q⟩
        | cons y t ih =>
          cases hm with
          | cons _ q =>
            obtain ⟨s, q1, q2⟩ := ih q
            exact ⟨s, List.mem_cons_of_mem _ q1, q2⟩
      have hends : DepotEnds m := by
        rw [hsm.tour]
        exact depotEnds_tour _
      have hnorm : normalize_solution m = .ok m := by
        obtain ⟨m', e1, e2, e3, e4⟩ := normalForm (s := m) (by rw [hsm.tour]; exact tour_ne_nil _)
        rw [normalize_solution_eq (by rw [hsm.tour]; exact tour_ne_nil _)]
        congr 1
        have hor : (blocks m).map orientP = blocks m := by
          conv_rhs => rw [← List.map_id (blocks m)]
          refine List.map_congr_left fun b hb => ?_
          have hb0 := (mem_blocks m b hb).1
          obtain ⟨x, hx⟩ : ∃ x, b.head? = some x := by
            cases b with
            | nil => exact absurd rfl hb0
            | cons x t => exact ⟨x, rfl⟩
          obtain ⟨y, hy⟩ : ∃ y, b.getLast? = some y := by
            cases hl : b.getLast? with
            | none => exact absurd (List.getLast?_eq_none_iff.1 hl) hb0
            | some y => exact ⟨y, rfl⟩
          have := hsm.oriented b hb x y hx hy
          rw [orientP, hx, hy]
          simp only [Option.getD_some, id_eq]
          rw [if_neg (by omega)]
        rw [hor, lexSort_of_sorted (hsm.sorted.imp fun h => (lexLe_iff _ _).2 h), ← hsm.tour]
      obtain ⟨st, g1, g2⟩ := statistics_ok (D := i.D) hp hends (normal_count hsm) (N := i.N) (fun x hx => by
        rcases normal_mem hsm x hx with rfl | h
        · exact (hN hv).1
        · exact (hN hv).2 s hs x h) (decide (0 < v))
      refine ⟨some st, ?_, ?_⟩
      · simp only [Printed, Option.map_some, if_pos hv]
        exact ⟨st, rfl, by simpa using g2⟩
      · simp only [cliShown, if_pos hv, hnorm, g1]
    · refine ⟨none, ?_, ?_⟩
      · simp only [Printed, Option.map_some, if_neg hv]
      · simp only [cliShown, if_neg hv]

/-- C59. The best of several runs: if each run returns and some give a solution, then the first of the best ones is returned
in normal form, by the cost, or by the number of routes and then by the cost if that is asked for; with its own length and cost.
Unless the program is quiet the statistics of that solution are printed: whether each customer is served once, the capacity and
the length are kept, the number of routes, the cost and the length. -/
theorem C59_best (i : CliInst) (hp : PlainData i.Dc i.d i.C i.L) (mk : Bool) (n : ℕ) (v : ℤ) (runs : ℕ → RunOut)
    (hret : ∀ k < n, ∃ s, runs k = .ret s) (hsome : ∃ k < n, ∃ s, given (runs k) = some s)
    (hK : mk = true → ∀ k < n, ∀ s, given (runs k) = some s → (blocks s).length ≤ i.N)
    (hN : 0 ≤ v → 0 < i.N ∧ ∀ k < n, ∀ s, given (runs k) = some s → ∀ x ∈ s, x < i.N) :
    ∃ ms m shown, List.Forall₂ NormalForm ((List.range n).filterMap fun k => given (runs k)) ms ∧
      FirstBest i.Dc mk ms m ∧ Printed i v (some m) shown ∧
      read_and_solve i mk n v runs = .ok (.ret m (cost i.D m) (cost i.Dc m) shown) := by
  obtain ⟨ms, best, h1, h2, h3⟩ := loop_ok (i := i) (mk := mk) (n := n) (v := v) (runs := runs) (List.range n) []
    (ms := []) (best := none) rfl (fun k hk => hret k (List.mem_range.1 hk)) (fun hm k hk => hK hm k (List.mem_range.1 hk))
  simp only [List.nil_append, List.append_nil, bestOfLoop] at h2 h3
  obtain ⟨shown, g1, g2⟩ := shown_ok hp (v := v) h1 h2 (fun hv => ⟨(hN hv).1, fun s hs => by
    obtain ⟨k, hk, hks⟩ := List.mem_filterMap.1 hs
    exact (hN hv).2 k (List.mem_range.1 hk) s hks⟩)
  match best, h2, h3, g1, g2 with
  | none, h2, _, _, _ =>
    exfalso
    obtain ⟨k, hk, s, hs⟩ := hsome
    simp only [RunInv] at h2
    subst h2
    have : s ∈ (List.range n).filterMap fun k => given (runs k) := List.mem_filterMap.2 ⟨k, List.mem_range.2 hk, hs⟩
    cases hl : (List.range n).filterMap fun k => given (runs k) with
    | nil => rw [hl] at this; simp at this
    | cons a t => rw [hl] at h1; cases h1
  | some (m, f, K), h2, h3, g1, g2 =>
    refine ⟨ms, m, shown, h1, h2.1, g1, ?_⟩
    rw [read_and_solve, h3]
    dsimp only
    rw [g2]
    simp only [Bool.false_eq_true, if_false, objf_eq_cost]

/-- C59. An interrupt: the runs before `k` return and the run `k` is interrupted. No further run is made, and the
statistics of the first best solution so far, with the one handed over by the interrupted run, are printed unless the program
is quiet. What is raised is the interrupt, without the solution. -/
theorem C59_interrupted (i : CliInst) (hp : PlainData i.Dc i.d i.C i.L) (mk : Bool) (n : ℕ) (v : ℤ) (runs : ℕ → RunOut)
    (k : ℕ) (hk : k < n) (hret : ∀ j < k, ∃ s, runs j = .ret s) (hint : ∃ s, runs k = .interrupted s)
    (hK : mk = true → ∀ j ≤ k, ∀ s, given (runs j) = some s → (blocks s).length ≤ i.N)
    (hN : 0 ≤ v → 0 < i.N ∧ ∀ j ≤ k, ∀ s, given (runs j) = some s → ∀ x ∈ s, x < i.N) :
    ∃ ms best shown, List.Forall₂ NormalForm ((List.range (k + 1)).filterMap fun k => given (runs k)) ms ∧
      (ms = [] ∧ best = none ∨ ∃ m, best = some m ∧ FirstBest i.Dc mk ms m) ∧ Printed i v best shown ∧
      read_and_solve i mk n v runs = .ok (.interrupted shown) := by
  obtain ⟨s, hs⟩ := hint
  have hgs : given (.ret s) = given (runs k) := by
    rw [hs]
    rcases s with _ | _ | _ <;> rfl
  obtain ⟨ms, best, h1, h2, h3⟩ := loop_ok (i := i) (mk := mk) (n := n) (v := v) (runs := runs) (List.range k)
    (List.range' k (n - k)) (ms := []) (best := none) rfl (fun j hj => hret j (List.mem_range.1 hj))
    (fun hm j hj => hK hm j (by have := List.mem_range.1 hj; omega))
  obtain ⟨xs, best', e1, e2, e3⟩ := step_ok (n := n) (v := v) (sol := s) h2 (fun hm t ht => hK hm k le_rfl t (by rw [← hgs]; exact ht))
  have hall : List.Forall₂ NormalForm ((List.range (k + 1)).filterMap fun k => given (runs k)) (ms ++ xs) := by
    rw [List.range_succ, List.filterMap_append]
    refine List.rel_append h1 ?_
    rw [hgs] at e1
    cases hg : given (runs k) with
    | none => rw [hg] at e1; simpa [hg] using e1
    | some x => rw [hg] at e1; simpa [hg] using e1
  have hloop : bestOfLoop i mk n v runs (List.range n) none = .ok (best', true) := by
    have hr : List.range n = List.range k ++ List.range' k (n - k) := by
      have := List.range'_append_1 (s := 0) (m := k) (n := n - k)
      rw [List.range_eq_range', List.range_eq_range']
      simp only [Nat.zero_add] at this
      rw [this]
      congr 1
      omega
    rw [hr, h3]
    obtain ⟨q, hq⟩ : ∃ q, n - k = q + 1 := ⟨n - k - 1, by omega⟩
    rw [hq, List.range'_succ, bestOfLoop, hs]
    simp only [e2]
  simp only [List.nil_append] at e3
  obtain ⟨shown, g1, g2⟩ := shown_ok hp (v := v) hall e3 (fun hv => ⟨(hN hv).1, fun s hs => by
    obtain ⟨j, hj, hjs⟩ := List.mem_filterMap.1 hs
    exact (hN hv).2 j (by have := List.mem_range.1 hj; omega) s hjs⟩)
  refine ⟨ms ++ xs, best'.map (·.1), shown, hall, ?_, g1, ?_⟩
  · match best', e3 with
    | none, h => exact .inl ⟨h, rfl⟩
    | some (m, f, K), h => exact .inr ⟨m, rfl, h.1⟩
  · rw [read_and_solve, hloop]
    dsimp only
    rw [g2]
    simp

/-- C59. Whatever the instance, if no run gives a solution the program ends with a `TypeError` instead of telling so. -/
theorem C59_none_raises (i : CliInst) (mk : Bool) (n : ℕ) (v : ℤ) (runs : ℕ → RunOut)
    (hret : ∀ k < n, ∃ s, runs k = .ret s) (hnone : ∀ k < n, given (runs k) = none) :
    read_and_solve i mk n v runs = .error .typeError := by
  obtain ⟨ms, best, h1, h2, h3⟩ := loop_ok (i := i) (mk := mk) (n := n) (v := v) (runs := runs) (List.range n) []
    (ms := []) (best := none) rfl (fun k hk => hret k (List.mem_range.1 hk))
    (fun _ k hk s hs => by rw [hnone k (List.mem_range.1 hk)] at hs; cases hs)
  simp only [List.nil_append, List.append_nil, bestOfLoop] at h2 h3
  have : (List.range n).filterMap (fun k => given (runs k)) = [] := by
    rw [List.filterMap_eq_nil_iff]
    exact fun k hk => hnone k (List.mem_range.1 hk)
  rw [this] at h1
  cases h1
  match best, h2, h3 with
  | none, _, h3 => rw [read_and_solve, h3]; rfl
  | some (m, f, K), h2, _ =>
    obtain ⟨⟨-, pre, post, h, -⟩, -, -⟩ := h2
    simp at h

/-- C59. If a run raises an exception, what the runs before have found is lost: the exception goes on. -/
theorem C59_failed_raises (i : CliInst) (mk : Bool) (n : ℕ) (v : ℤ) (runs : ℕ → RunOut) (k : ℕ) (hk : k < n)
    (hret : ∀ j < k, ∃ s, runs j = .ret s) (e : PyErr) (hf : runs k = .failed e)
    (hK : mk = true → ∀ j < k, ∀ s, given (runs j) = some s → (blocks s).length ≤ i.N) :
    read_and_solve i mk n v runs = .error e := by
  obtain ⟨ms, best, -, -, h3⟩ := loop_ok (i := i) (mk := mk) (n := n) (v := v) (runs := runs) (List.range k)
    (List.range' k (n - k)) (ms := []) (best := none) rfl (fun j hj => hret j (List.mem_range.1 hj))
    (fun hm j hj => hK hm j (List.mem_range.1 hj))
  have hr : List.range n = List.range k ++ List.range' k (n - k) := by
    have := List.range'_append_1 (s := 0) (m := k) (n := n - k)
    rw [List.range_eq_range', List.range_eq_range']
    simp only [Nat.zero_add] at this
    rw [this]
    congr 1
    omega
  obtain ⟨q, hq⟩ : ∃ q, n - k = q + 1 := ⟨n - k - 1, by omega⟩
  rw [read_and_solve, hr, h3, hq, List.range'_succ, bestOfLoop, hf]

/-- Five nodes on a line. -/
def cliLine : CliInst where
  N := 5
  D := fun a b => |(a : ℚ) - b|
  Dc := fun a b => |(a : ℚ) - b|
  d := fun a => if a = 0 then 0 else 1
  C := some 2
  L := none

theorem cliLine_plain : PlainData cliLine.Dc cliLine.d cliLine.C cliLine.L :=
  ⟨by decide +kernel, rfl, by rintro c ⟨⟩; norm_num, by rintro l ⟨⟩⟩

/-- Three runs: none, a poor solution and a good one, which comes reversed. -/
def cliThree : ℕ → RunOut
  | 0 => .ret none
  | 1 => .ret (some [0, 1, 4, 0, 2, 3, 0])
  | _ => .ret (some [0, 4, 3, 0, 0, 2, 1, 0])

example : read_and_solve cliLine false 3 0 cliThree = .ok (.ret [0, 1, 2, 0, 3, 4, 0] 12 12
    (some ⟨[0, 1, 2, 0, 3, 4, 0], true, true, true, 2, none, some 12⟩)) := by decide +kernel

example : (∀ k < 3, ∃ s, cliThree k = .ret s) ∧ (∃ k < 3, ∃ s, given (cliThree k) = some s) ∧
    (∀ k < 3, ∀ s, given (cliThree k) = some s → ∀ x ∈ s, x < cliLine.N) := by
  refine ⟨?_, ⟨1, by norm_num, _, rfl⟩, ?_⟩
  · rintro (_ | _ | k) _ <;> exact ⟨_, rfl⟩
  · rintro (_ | _ | k) _ s hs <;> simp [cliThree, given] at hs <;> subst hs <;> decide

/-- C59 fails: with the solution of an interrupted run in hand the function raises the interrupt and does not return it; in the quiet mode
it is not printed either. -/
theorem C59_interrupted_false : ∃ (i : CliInst) (runs : ℕ → RunOut), PlainData i.Dc i.d i.C i.L ∧
    runs 0 = .ret (some [0, 1, 2, 0, 3, 4, 0]) ∧ runs 1 = .interrupted (some [0, 1, 2, 0, 3, 4, 0]) ∧
    read_and_solve i false 2 (-1) runs = .ok (.interrupted none) :=
  ⟨cliLine, fun k => if k = 0 then .ret (some [0, 1, 2, 0, 3, 4, 0]) else .interrupted (some [0, 1, 2, 0, 3, 4, 0]), cliLine_plain,
    rfl, rfl, by decide +kernel⟩

end Verif
