import Verif.Lemmas.WrenHollidayEnd
import Mathlib.Tactic.IntervalCases

/-! # The improvement procedures of Wren and Holliday (C45)

INSPECT, SINGLE, PAIR, DELETE and DISENTANGLE, `verypy/classic_heuristics/wren_holliday_sweep.py`. Each of
them is given a list of true records of routes from depot to depot (`GoodRd`) and answers with a list of
records and whether it succeeded. -/

namespace Verif

open Spec

/-- **C45**, INSPECT: ends, keeps each customer, record and limit; a success lowers the total cost by more
than the tolerance, no success means no change; in the end no exchange of two edges improves a route. -/
theorem C45_inspect {D : ℕ → ℕ → ℚ} (d : ℕ → ℚ) (C L : Option ℚ) (hS : Symm D) (hD : ∀ i j, 0 ≤ D i j)
    {rds : List RouteData} (h : ∀ rd ∈ rds, GoodRd D (some d) C rd) :
    ∃ rds' b, (∃ F, ∀ fuel, F ≤ fuel → inspect_heuristic fuel D rds = .ok (some (rds', b))) ∧
      WhProg D d C L rds rds' b ∧ ∀ rd ∈ rds', TwoOptimal D rd.route :=
  inspect_spec hS hD h

/-- **C45**, SINGLE: the same; without a success no customer can move on its route or to another route,
within the limits of that one, for a lower cost. -/
theorem C45_single {D : ℕ → ℕ → ℚ} (d : ℕ → ℚ) (C L : Option ℚ) (hD : ∀ i j, 0 ≤ D i j)
    {rds : List RouteData} (h : ∀ rd ∈ rds, GoodRd D (some d) C rd) :
    ∃ rds' b, (∃ F, ∀ fuel, F ≤ fuel → single_heuristic fuel D d C L rds = .ok (some (rds', b))) ∧
      WhProg D d C L rds rds' b ∧ (b = false → ∀ i, i < rds.length → Settled D d C L rds i) :=
  single_spec hD h

/-- **C45**, PAIR: the same; without a success no customer can take the place of one on a second route that
goes to a third, within the limits of these, for a lower cost. In particular the routes that are
passed over because there is no room on them would not have helped. -/
theorem C45_pair {N : ℕ} (hN : 0 < N) (D : ℕ → ℕ → ℚ) (d : ℕ → ℚ) (C L : Option ℚ) {rds : List RouteData}
    (h : ∀ rd ∈ rds, GoodRd D (some d) C rd) :
    ∃ rds' b, pair_heuristic N D d C L rds = .ok (rds', b) ∧ WhProg D d C L rds rds' b ∧
      (b = false → (∀ n, 0 ≤ d n) → (∀ n ∈ served rds, n < N) → ∀ i j k : ℕ, j ≠ i → k ≠ i → k ≠ j →
        ∀ r1 r2 r3 : RouteData, rds[i]? = some r1 → rds[j]? = some r2 → rds[k]? = some r3 →
        NoChain D d C L r1.route r2.route r3.route) :=
  pair_spec hN h

theorem routesInUse_eq {D : ℕ → ℕ → ℚ} {d : ℕ → ℚ} {C : Option ℚ} {rds : List RouteData}
    (h : ∀ rd ∈ rds, GoodRd D (some d) C rd) : routesInUse rds = (remove_empty rds).length := by
  rw [routesInUse, remove_empty, List.countP_eq_length_filter]
  congr 1
  refine List.filter_congr fun rd hrd => ?_
  obtain ⟨⟨cs, e⟩, -⟩ := h rd hrd
  have := is_empty_wrap e
  rw [e, interior_wrap]
  by_cases hc : cs = []
  · simp [hc, this.2 hc]
  · have : rd.is_empty = false := by rw [← Bool.not_eq_true]; exact fun h => hc (this.1 h)
    simp [hc, this]

theorem deleteLoop_some {D : ℕ → ℕ → ℚ} {d : ℕ → ℚ} {C L : Option ℚ} {rds : List RouteData} (is : List ℕ) :
    ∀ b, whDeleteLoop D d C L rds is (some b) ≠ .ok none := by
  induction is with
  | nil => intro b h; simp [whDeleteLoop] at h
  | cons i is ih =>
    intro b h
    rw [whDeleteLoop] at h
    split at h
    · exact nomatch h
    split at h
    · exact ih b h
    split at h
    · exact nomatch h
    · exact ih b h
    · split at h
      · exact ih _ h
      · exact ih _ h

theorem deleteLoop_none {D : ℕ → ℕ → ℚ} {d : ℕ → ℚ} {C L : Option ℚ} {rds : List RouteData} (is : List ℕ)
    (h : whDeleteLoop D d C L rds is none = .ok none) : ∀ i ∈ is, ∀ rd, rds[i]? = some rd → rd.is_empty = false →
      do_redistribute_move rd (remove_empty (rds.eraseIdx i)) D (some d) C L .FIRST_ACCEPT none 0 = .ok none := by
  induction is with
  | nil => simp
  | cons i is ih =>
    rw [whDeleteLoop] at h
    intro j hj rd hrd he
    cases hi : idx rds i with
    | error e => rw [hi] at h; exact nomatch h
    | ok rd1 =>
      rw [hi] at h
      simp only [Option.map_none] at h
      have hi' : rds[i]? = some rd1 := by
        unfold idx at hi
        split at hi <;> simp_all
      by_cases he1 : rd1.is_empty = true
      · rw [if_pos he1] at h
        rcases List.mem_cons.1 hj with rfl | hj
        · rw [hi', Option.some.injEq] at hrd
          rw [hrd, he] at he1
          simp at he1
        · exact ih h j hj rd hrd he
      · rw [if_neg he1] at h
        cases hm : do_redistribute_move rd1 (remove_empty (rds.eraseIdx i)) D (some d) C L .FIRST_ACCEPT none 0 with
        | error e => rw [hm] at h; exact nomatch h
        | ok r =>
          rw [hm] at h
          cases r with
          | some p => exact absurd h (deleteLoop_some is _)
          | none =>
            rcases List.mem_cons.1 hj with rfl | hj
            · rw [hi', Option.some.injEq] at hrd
              rw [← hrd]
              exact hm
            · exact ih h j hj rd hrd he

/-- The chosen redistribution is no worse than any that was found. -/
theorem deleteLoop_least {D : ℕ → ℕ → ℚ} {d : ℕ → ℚ} {C L : Option ℚ} {rds : List RouteData} (is : List ℕ) :
    ∀ best x rds', whDeleteLoop D d C L rds is best = .ok (some (x, rds')) →
      (∀ b, best = some b → x ≤ b.1) ∧
      ∀ i ∈ is, ∀ rd, rds[i]? = some rd → rd.is_empty = false → ∃ bd r, (∀ b, bd = some b → x ≤ b) ∧
        do_redistribute_move rd (remove_empty (rds.eraseIdx i)) D (some d) C L .FIRST_ACCEPT bd 0 = .ok r ∧
        ∀ l y, r = some (l, y) → x ≤ y := by
  induction is with
  | nil =>
    intro best x rds' h
    rw [whDeleteLoop] at h
    simp only [Except.ok.injEq] at h
    subst h
    exact ⟨by rintro b ⟨⟩; exact le_refl _, by simp⟩
  | cons i is ih =>
    intro best x rds' h
    rw [whDeleteLoop] at h
    cases hi : idx rds i with
    | error e => rw [hi] at h; exact nomatch h
    | ok rd1 =>
      rw [hi] at h
      simp only at h
      have hi' : rds[i]? = some rd1 := by
        unfold idx at hi
        split at hi <;> simp_all
      by_cases he1 : rd1.is_empty = true
      · rw [if_pos he1] at h
        obtain ⟨a1, a2⟩ := ih _ _ _ h
        refine ⟨a1, fun j hj rd hrd he => ?_⟩
        rcases List.mem_cons.1 hj with rfl | hj
        · rw [hi', Option.some.injEq] at hrd
          rw [hrd, he] at he1
          simp at he1
        · exact a2 j hj rd hrd he
      · rw [if_neg he1] at h
        cases hm : do_redistribute_move rd1 (remove_empty (rds.eraseIdx i)) D (some d) C L .FIRST_ACCEPT
            (best.map (·.1)) 0 with
        | error e => rw [hm] at h; exact nomatch h
        | ok r =>
          rw [hm] at h
          have key : (∀ b, best = some b → x ≤ b.1) → (∀ l y, r = some (l, y) → x ≤ y) →
              (∀ j ∈ is, ∀ rd, rds[j]? = some rd → rd.is_empty = false → ∃ bd r, (∀ b, bd = some b → x ≤ b) ∧
                do_redistribute_move rd (remove_empty (rds.eraseIdx j)) D (some d) C L .FIRST_ACCEPT bd 0 = .ok r ∧
                ∀ l y, r = some (l, y) → x ≤ y) →
              ∀ j ∈ i :: is, ∀ rd, rds[j]? = some rd → rd.is_empty = false → ∃ bd r, (∀ b, bd = some b → x ≤ b) ∧
                do_redistribute_move rd (remove_empty (rds.eraseIdx j)) D (some d) C L .FIRST_ACCEPT bd 0 = .ok r ∧
                ∀ l y, r = some (l, y) → x ≤ y := by
            intro b1 b2 b3 j hj rd hrd he
            rcases List.mem_cons.1 hj with rfl | hj
            · rw [hi', Option.some.injEq] at hrd
              rw [← hrd]
              refine ⟨_, r, fun b hb => ?_, hm, b2⟩
              obtain ⟨q, hq, rfl⟩ := Option.map_eq_some_iff.1 hb
              exact b1 q hq
            · exact b3 j hj rd hrd he
          cases r with
          | none =>
            obtain ⟨a1, a2⟩ := ih _ _ _ h
            exact ⟨a1, key a1 (by simp) a2⟩
          | some p =>
            obtain ⟨l, y⟩ := p
            simp only at h
            obtain ⟨a1, a2⟩ := ih _ _ _ h
            cases best with
            | none =>
              have hy := a1 (y, l) (by simp [whBelow])
              refine ⟨by simp, key (by simp) ?_ a2⟩
              rintro l' y' ⟨⟩
              exact hy
            | some b =>
              by_cases hlt : y < b.1
              · have hy := a1 (y, l) (by simp [whBelow, hlt])
                have hb : ∀ b', some b = some b' → x ≤ b'.1 := by
                  rintro b' ⟨⟩
                  exact le_trans hy (le_of_lt hlt)
                refine ⟨hb, key hb ?_ a2⟩
                rintro l' y' ⟨⟩
                exact hy
              · have hy := a1 b (by simp [whBelow, hlt])
                have hb : ∀ b', some b = some b' → x ≤ b'.1 := by
                  rintro b' ⟨⟩
                  exact hy
                refine ⟨hb, key hb ?_ a2⟩
                rintro l' y' ⟨⟩
                exact le_trans hy (not_lt.1 hlt)

/-- **C45**, DELETE, with the triangle inequality: keeps each customer, record and limit; a success leaves
fewer routes in use, one of the routes has been redistributed, and the redistribution (as it was called,
with the cost of the best one before it as the bound) found nothing for any other route for which the
insertions cost less; without a success nothing changes and the redistribution of none of the routes over
the others succeeds. -/
theorem C45_delete_partial {D : ℕ → ℕ → ℚ} {d : ℕ → ℚ} (C L : Option ℚ) (hT : Triangle D) (h0 : D 0 0 = 0) (hd0 : d 0 = 0)
    (hD : ∀ i j, 0 ≤ D i j) {rds : List RouteData} (h : ∀ rd ∈ rds, GoodRd D (some d) C rd) :
    ∃ rds' b, delete_heuristic D d C L rds = .ok (rds', b) ∧ WhKeeps D d C L rds rds' ∧
      (b = true → routesInUse rds' < routesInUse rds ∧ ∃ x,
        (∃ rd ∈ rds, interior rd.route ≠ [] ∧ tot D rds' = tot D rds - cost D rd.route + x) ∧
        ∀ i rd, rds[i]? = some rd → interior rd.route ≠ [] → ∃ bd r, (∀ b, bd = some b → x ≤ b) ∧
          do_redistribute_move rd (rds.eraseIdx i |>.filter fun r => decide (interior r.route ≠ [])) D (some d) C L
            .FIRST_ACCEPT bd 0 = .ok r ∧ ∀ l y, r = some (l, y) → x ≤ y) ∧
      (b = false → rds' = rds ∧ ∀ i rd, rds[i]? = some rd → interior rd.route ≠ [] →
        do_redistribute_move rd (rds.eraseIdx i |>.filter fun r => decide (interior r.route ≠ [])) D (some d) C L
          .FIRST_ACCEPT none 0 = .ok none) := by
  obtain ⟨r, e, hr⟩ := deleteLoop_spec (L := L) hT h0 hd0 hD h (List.range rds.length) (by simp) none (by simp)
  have hf : ∀ i, (rds.eraseIdx i).filter (fun r => decide (interior r.route ≠ [])) = remove_empty (rds.eraseIdx i) := by
    intro i
    rw [remove_empty]
    refine List.filter_congr fun r hr => ?_
    obtain ⟨⟨cs, e⟩, -⟩ := h r (List.mem_of_mem_eraseIdx hr)
    have := is_empty_wrap e
    rw [e, interior_wrap]
    by_cases hc : cs = []
    · simp [hc, this.2 hc]
    · have : r.is_empty = false := by rw [← Bool.not_eq_true]; exact fun h => hc (this.1 h)
      simp [hc, this]
  have hne : ∀ rd ∈ rds, (rd.is_empty = false ↔ interior rd.route ≠ []) := by
    intro rd hrd
    obtain ⟨⟨cs, ec⟩, -⟩ := h rd hrd
    rw [ec, interior_wrap, ← Bool.not_eq_true, is_empty_wrap ec]
  rw [delete_heuristic, e]
  cases r with
  | none =>
    refine ⟨rds, false, rfl, whKeeps_refl h, by simp, fun _ => ⟨rfl, fun i rd hi hn => ?_⟩⟩
    rw [hf]
    exact deleteLoop_none _ e i (List.mem_range.2 (List.getElem?_eq_some_iff.1 hi).1) rd hi
      ((hne rd (List.mem_of_getElem? hi)).2 hn)
  | some p =>
    obtain ⟨x, rds'⟩ := p
    have p := hr x rds' rfl
    obtain ⟨-, hl⟩ := deleteLoop_least _ _ _ _ e
    refine ⟨rds', true, rfl, p.1, fun _ => ⟨?_, x, ?_, fun i rd hi hn => ?_⟩, by simp⟩
    · rw [routesInUse_eq h, routesInUse_eq p.1.good]
      exact deleted_length p
    · obtain ⟨-, -, -, rd, hrd, he, ht⟩ := p
      exact ⟨rd, hrd, (hne rd hrd).1 he, ht⟩
    · rw [hf]
      exact hl i (List.mem_range.2 (List.getElem?_eq_some_iff.1 hi).1) rd hi
        ((hne rd (List.mem_of_getElem? hi)).2 hn)

/-- **C45**, DISENTANGLE: ends without an exception, keeps each customer, record and limit; the routes in use
do not become more, and if they do not become fewer, nothing has changed or the total cost is lower by
more than the tolerance. It never reports a success. -/
theorem C45_disentangle_partial {N : ℕ} {S : WhSweep} {D : ℕ → ℕ → ℚ} {d : ℕ → ℚ} {C L : Option ℚ} (h : WhCase N S D d C L)
    {rds : List RouteData} (hg : ∀ rd ∈ rds, GoodRd D (some d) C rd)
    (hs : (served rds).Perm (List.range' 1 (N - 1))) :
    ∃ rds', (∃ F, ∀ fuel, F ≤ fuel → disentangle_heuristic fuel N S D d C L rds = .ok (some (rds', false))) ∧
      WhKeeps D d C L rds rds' ∧ rds'.length = rds.length ∧ routesInUse rds' ≤ routesInUse rds ∧
      (routesInUse rds' = routesInUse rds → rds' = rds ∨ tot D rds' + S_EPS < tot D rds) := by
  obtain ⟨rds', e, k⟩ := disentangle_spec h hg hs
  refine ⟨rds', e, k.toWhKeeps, k.length, ?_⟩
  rw [routesInUse_eq hg, routesInUse_eq k.good]
  exact ⟨k.fewer, k.gain⟩

/-! ## Concrete cases -/

/-- Records of the routes with the given customers. -/
def whRecords (D : ℕ → ℕ → ℚ) (d : ℕ → ℚ) (us : List (List ℕ)) : List RouteData :=
  us.map fun u => ⟨wrap u, cost D (wrap u), some (demand d (wrap u))⟩

theorem whRecords_good (D : ℕ → ℕ → ℚ) (d : ℕ → ℚ) (C : Option ℚ) (us : List (List ℕ)) :
    ∀ rd ∈ whRecords D d us, GoodRd D (some d) C rd := by
  intro rd hrd
  obtain ⟨u, -, rfl⟩ := List.mem_map.1 hrd
  exact ⟨⟨u, rfl⟩, rfl, fun _ => ⟨d, rfl, rfl⟩⟩

/-- Two customers on each side of the depot. -/
def whX (n : ℕ) : ℚ := if n = 1 ∨ n = 2 then 10 else if n = 3 ∨ n = 4 then -10 else 0

/-- The demands: those on the one side are small. -/
def whDem (n : ℕ) : ℚ := if n = 1 ∨ n = 2 then 1 else if n = 3 ∨ n = 4 then 2 else 0

/-- Distances on the line. -/
def whLine (i j : ℕ) : ℚ := |whX i - whX j|

theorem whLine_symm : Symm whLine := fun _ _ => abs_sub_comm _ _

theorem whLine_tri : Triangle whLine := fun _ _ _ => abs_sub_le _ _ _

/-- The angles: the first two customers to the one side, the others to the other. -/
def whLineSweep : WhSweep := ⟨3, fun n => if n = 3 ∨ n = 4 then 3 else 0, [1, 2, 3, 4], fun _ => [1, 2]⟩

theorem whLine_case : WhCase 5 whLineSweep whLine whDem (some 3) none := by
  refine ⟨whLine_symm, fun _ _ => abs_nonneg _, by simp [whLine], fun n => ?_, by simp [whDem], ?_, by decide, ?_⟩
  · unfold whDem; split <;> [skip; split] <;> norm_num
  · intro n h1 h2
    refine ⟨fun c hc _ => ?_, fun c hc => nomatch hc⟩
    simp only [Option.some.injEq] at hc
    subst hc
    interval_cases n <;> decide +kernel
  · refine ⟨by decide +kernel, fun n => ?_⟩
    simp only [whLineSweep]
    split <;> norm_num

/-- The procedures INSPECT, SINGLE and PAIR at work; their theorems ask for true records and distances that
are symmetric and not negative. -/
example : (inspect_heuristic 9 whLine (whRecords whLine whDem [[1, 3, 2, 4]]) =
      .ok (some (whRecords whLine whDem [[2, 1, 3, 4]], true))) ∧
    (single_heuristic 9 whLine whDem (some 4) none (whRecords whLine whDem [[1, 3], [2, 4], []]) =
      .ok (some (whRecords whLine whDem [[4, 3], [1, 2], []], true))) ∧
    pair_heuristic 5 whLine whDem (some 4) none (whRecords whLine whDem [[1, 3], [2], [4]]) =
      .ok (whRecords whLine whDem [[1, 2], [], [3, 4]], true) := by
  decide +kernel

/-- **C45**: "DELETE applies the operation that improves the solution most" does not hold: the cost of the
insertions is not compared with the cost of the route that is saved. Here a success makes the total cost
80 where it was 60, and only the number of the routes is lower. -/
theorem C45_delete_false :
    delete_heuristic whLine whDem (some 3) none (whRecords whLine whDem [[1, 2], [3], [4]]) =
      .ok (whRecords whLine whDem [[], [3, 1], [4, 2]], true) ∧
    tot whLine (whRecords whLine whDem [[1, 2], [3], [4]]) = 60 ∧
    tot whLine (whRecords whLine whDem [[], [3, 1], [4, 2]]) = 80 := by
  decide +kernel

/-- The hypotheses of the theorem about DELETE hold there. -/
example : ∃ rds' b, delete_heuristic whLine whDem (some 3) none (whRecords whLine whDem [[1, 2], [3], [4]]) =
    .ok (rds', b) ∧ WhKeeps whLine whDem (some 3) none (whRecords whLine whDem [[1, 2], [3], [4]]) rds' := by
  obtain ⟨rds', b, e, k, -⟩ := C45_delete_partial (d := whDem) (some 3) none whLine_tri (by decide +kernel) (by decide +kernel)
    whLine_case.dist (whRecords_good whLine whDem (some 3) [[1, 2], [3], [4]])
  exact ⟨rds', b, e, k⟩

/-- A case with a choice: the first route could go to the second for 20, the last goes to the first for nothing. -/
example : delete_heuristic whLine whDem (some 4) none (whRecords whLine whDem [[1], [3], [2]]) =
      .ok (whRecords whLine whDem [[], [1, 2], [3]], true) := by
  decide +kernel

/-- Customers at a distance of one from the depot and ten from one another. -/
def whFar (i j : ℕ) : ℚ := if i = j then 0 else if i = 0 ∨ j = 0 then 1 else 10

/-- The customers 1, 2, 3, 4 at the angles -2, -1, 0, 1. -/
def whFan : WhSweep := ⟨3, fun n => if n = 1 then -2 else if n = 2 then -1 else if n = 4 then 1 else 0, [1, 2, 3, 4],
  fun _ => [1, 2]⟩

/-- One for each customer. -/
def whOne (n : ℕ) : ℚ := if n = 0 then 0 else 1

theorem whFan_case : WhCase 5 whFan whFar whOne (some 4) none := by
  refine ⟨fun i j => ?_, fun i j => ?_, by decide +kernel, fun n => ?_, by decide +kernel, ?_, by decide, ?_⟩
  · simp only [whFar, eq_comm, or_comm]
  · unfold whFar; split <;> [skip; split] <;> norm_num
  · unfold whOne; split <;> norm_num
  · intro n h1 h2
    refine ⟨fun c hc _ => ?_, fun c hc => nomatch hc⟩
    simp only [Option.some.injEq] at hc
    subst hc
    interval_cases n <;> decide +kernel
  · refine ⟨by decide +kernel, fun n => ?_⟩
    simp only [whFan]
    split <;> [skip; split <;> [skip; split]] <;> norm_num

/-- **C45**: what DISENTANGLE reports is not what it does: it changes the routes and reports no success, and if
the customers of two routes go on one it takes it whatever it costs. (The distances are symmetric but
do not satisfy the triangle inequality.) -/
theorem C45_disentangle_false :
    disentangle_heuristic 9 5 whFan whFar whOne (some 4) none (whRecords whFar whOne [[1, 3], [2, 4]]) =
      .ok (some (whRecords whFar whOne [[4, 3, 2, 1], []], false)) ∧
    tot whFar (whRecords whFar whOne [[1, 3], [2, 4]]) = 24 ∧
    tot whFar (whRecords whFar whOne [[4, 3, 2, 1], []]) = 32 := by
  decide +kernel

/-- The hypotheses of the theorem about DISENTANGLE hold there. -/
example : ∃ rds', (∃ F, ∀ fuel, F ≤ fuel → disentangle_heuristic fuel 5 whFan whFar whOne (some 4) none
    (whRecords whFar whOne [[1, 3], [2, 4]]) = .ok (some (rds', false))) ∧ routesInUse rds' ≤ 2 := by
  obtain ⟨rds', e, -, -, k, -⟩ := C45_disentangle_partial whFan_case (whRecords_good whFar whOne (some 4) [[1, 3], [2, 4]]) (by decide)
  exact ⟨rds', e, k⟩

end Verif
