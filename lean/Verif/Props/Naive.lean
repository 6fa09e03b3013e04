import Verif.Lemmas.NaiveRoutes
import Verif.Lemmas.NaiveStar
import Verif.Props.IntraRoute
import Mathlib.Algebra.Order.Archimedean.Basic

/-! # Properties C74, C75 and C76: the naive operators, the naive local search, and their agreement with the fast operators -/

namespace Verif
open Spec

/-! ## C74 -/

theorem tour_head_ne {sol : List ℕ} (h : DepotEnds sol) : sol ≠ [] := by
  rintro rfl
  have := h.1
  simp at this

/-- C74. The naive 2-opt move finds a reversal of customers within a route with its exact change, or there is none that is good enough, for
any distances. -/
theorem C74_two_opt_partial {sol : List ℕ} (hs : DepotEnds sol) (D : ℕ → ℕ → ℚ) (st : LSOPT) (bd : Option ℚ) :
    ∃ r, do_naive_2opt_move sol D st bd = .ok r ∧ MoveOk D NbReverse (st == .BEST_ACCEPT) (bd.getD 0) sol r := by
  obtain ⟨bs, hb, rfl⟩ := exists_tour hs
  refine ⟨_, do_naive_2opt_eq D st bd hb rfl, ?_⟩
  rw [initDelta_eq, naiveAnswer_scan]
  · exact moveOk_of_scan (fun m x h => candsAll_sound hb h) fun r hr => candsAll_complete hb hr
  · rintro ⟨m, x⟩ hc
    exact tour_head_ne (nbReverse_same hs (candsAll_sound hb hc).1).ends

/-- C74. What the naive 2-opt move finds has the same visits and keeps the limits, though it does not check them. -/
theorem C74_two_opt_safe_partial {sol : List ℕ} (hs : DepotEnds sol) {D : ℕ → ℕ → ℚ} {d : ℕ → ℚ} {C L : Option ℚ} {st : LSOPT} {bd : Option ℚ}
    (hbd : bd.getD 0 ≤ 0) {sol' : List ℕ} {delta : ℚ} (h : do_naive_2opt_move sol D st bd = .ok (some (sol', delta))) :
    SameVisits sol sol' ∧ (Feasible D d C L sol → Feasible D d C L sol') := by
  have heps : (0 : ℚ) < S_EPS := by norm_num [S_EPS]
  obtain ⟨r, h1, h2⟩ := C74_two_opt_partial hs D st bd
  rw [h] at h1
  simp only [Except.ok.injEq] at h1
  subst h1
  obtain ⟨g1, g2, g3, -⟩ := h2
  exact ⟨nbReverse_same hs g1, fun hf => feasible_reverse hs g1 hf (by linarith)⟩

/-- C74. The naive one point move finds a move of a customer to any place on any route, within the limits and with its exact change. -/
theorem C74_one_point_sound_partial {sol : List ℕ} (hs : DepotEnds sol) (D : ℕ → ℕ → ℚ) (d : ℕ → ℚ) (C L : Option ℚ) (st : LSOPT) (bd : Option ℚ) :
    ∃ r, do_naive_1point_move sol D d C L st bd = .ok r ∧
      MoveOkFor D (fun s s' => NbMove s s' ∧ Feasible D d C L s') (fun _ _ => False) (st == .BEST_ACCEPT) (bd.getD 0) sol r := by
  refine ⟨_, do_naive_1point_eq sol D d C L st bd, ?_⟩
  rw [initDelta_eq, naiveAnswer_scan]
  · exact moveOk_of_scan (fun m x h => candsMove_sound hs h) fun r hr => hr.elim
  · rintro ⟨m, x⟩ hc
    exact tour_head_ne (nbMove_same hs (candsMove_sound hs hc).1.1).ends

/-- C74. If no customer is visited twice, it also finds such a move whenever there is one, for distances and demands that are not negative. -/
theorem C74_one_point_partial {sol : List ℕ} (hs : DepotEnds sol) (hn : (customers sol).Nodup) {D : ℕ → ℕ → ℚ} (hD : ∀ i j, 0 ≤ D i j) (h00 : D 0 0 = 0)
    {d : ℕ → ℚ} (hd : ∀ n, 0 ≤ d n) (C : Option ℚ) {L : Option ℚ} (hL : ∀ x, L = some x → 0 ≤ x) (st : LSOPT) (bd : Option ℚ) :
    ∃ r, do_naive_1point_move sol D d C L st bd = .ok r ∧
      MoveOk D (fun s s' => NbMove s s' ∧ Feasible D d C L s') (st == .BEST_ACCEPT) (bd.getD 0) sol r := by
  refine ⟨_, do_naive_1point_eq sol D d C L st bd, ?_⟩
  rw [initDelta_eq, naiveAnswer_scan]
  · exact moveOk_of_scan (fun m x h => candsMove_sound hs h) fun r hr => candsMove_complete hs hn hD h00 hd hL hr
  · rintro ⟨m, x⟩ hc
    exact tour_head_ne (nbMove_same hs (candsMove_sound hs hc).1.1).ends

/-- C74. The naive two point move finds a swap of two customers of any routes, within the limits and with its exact change, or there is none that
is good enough. -/
theorem C74_two_point_partial {sol : List ℕ} (hs : DepotEnds sol) {D : ℕ → ℕ → ℚ} (hD : ∀ i j, 0 ≤ D i j) (h00 : D 0 0 = 0)
    {d : ℕ → ℚ} (hd : ∀ n, 0 ≤ d n) (C : Option ℚ) {L : Option ℚ} (hL : ∀ x, L = some x → 0 ≤ x) (st : LSOPT) {bd : Option ℚ}
    (hbd : bd.getD 0 ≤ 0) : ∃ r, do_naive_2point_move sol D d C L st bd = .ok r ∧
      MoveOk D (fun s s' => NbSwap s s' ∧ Feasible D d C L s') (st == .BEST_ACCEPT) (bd.getD 0) sol r := by
  have heps : (0 : ℚ) < S_EPS := by norm_num [S_EPS]
  refine ⟨_, do_naive_2point_eq sol D d C L st bd, ?_⟩
  rw [initDelta_eq, naiveAnswer_scan]
  · have h := moveOk_of_scan (D := D) (Nb := fun s s' => (s' = s ∨ NbSwap s s') ∧ Feasible D d C L s')
      (Nc := fun s s' => NbSwap s s' ∧ Feasible D d C L s') (st := st) (b0 := bd.getD 0) (route := sol) (cands := candsSwap sol D d C L) (res := id)
      (fun m x h => candsSwap_sound hs h) fun r hr => candsSwap_complete hs hD h00 hd hL hr
    rcases hr : answer id (scan st (candsSwap sol D d C L) (none, bd.getD 0)).1 with _ | ⟨m, x⟩
    · rw [hr] at h
      exact h
    · rw [hr] at h
      obtain ⟨⟨g1, g2⟩, g3, g4, g5⟩ := h
      refine ⟨⟨?_, g2⟩, g3, g4, g5⟩
      rcases g1 with rfl | g1
      · exfalso
        linarith
      · exact g1
  · rintro ⟨m, x⟩ hc
    rcases (candsSwap_sound hs hc).1.1 with h | h
    · dsimp only
      rw [h]
      exact tour_head_ne hs
    · exact tour_head_ne (nbSwap_same hs h).ends

theorem customers_part {bs : List (List ℕ)} (hb : ∀ b ∈ bs, ∀ x ∈ b, x ≠ 0) (hn : (customers (tour bs)).Nodup) {b : List ℕ} (h : b ∈ bs) :
    (customers (wrap b)).Nodup ∧ b.Nodup := by
  have e : ∀ b ∈ bs, customers b = b := fun b h => List.filter_eq_self.2 fun x hx => by simpa using hb b h x hx
  have e2 : customers (wrap b) = b := by
    have := e b h
    unfold customers at this ⊢
    rw [wrap, List.filter_cons_of_neg (by simp), List.filter_append, this]
    simp
  rw [e2, and_self]
  rw [customers_tour] at hn
  have := (List.nodup_flatMap.1 hn).1 b h
  rwa [e b h] at this

/-- C74. The naive relocation improves each route on its own by moving one customer, as far as possible and within the limits; it finds nothing
only if no route can be improved. -/
theorem C74_relocate_partial {bs : List (List ℕ)} (hb : ∀ b ∈ bs, ∀ x ∈ b, x ≠ 0) (hn : (customers (tour bs)).Nodup) {D : ℕ → ℕ → ℚ}
    (hD : ∀ i j, 0 ≤ D i j) (h00 : D 0 0 = 0) {d : ℕ → ℚ} (hd : ∀ n, 0 ≤ d n) (C : Option ℚ) {L : Option ℚ} (hL : ∀ x, L = some x → 0 ≤ x)
    (st : LSOPT) (bd : Option ℚ) :
    ∃ r, do_naive_relocate_move (tour bs) D d C L st bd = .ok r ∧ EachRouteOk D d C L NbMove (st == .BEST_ACCEPT) bs r :=
  intra_ok hb (fun b _ => nbMove_same (depotEnds_wrap b))
    fun b hbm => C74_one_point_partial (depotEnds_wrap b) (customers_part hb hn hbm).1 hD h00 hd C hL st none

/-- C74. The same for the naive exchange and swaps of two customers. -/
theorem C74_exchange_partial {bs : List (List ℕ)} (hb : ∀ b ∈ bs, ∀ x ∈ b, x ≠ 0) {D : ℕ → ℕ → ℚ}
    (hD : ∀ i j, 0 ≤ D i j) (h00 : D 0 0 = 0) {d : ℕ → ℚ} (hd : ∀ n, 0 ≤ d n) (C : Option ℚ) {L : Option ℚ} (hL : ∀ x, L = some x → 0 ≤ x)
    (st : LSOPT) (bd : Option ℚ) :
    ∃ r, do_naive_exchange_move (tour bs) D d C L st bd = .ok r ∧ EachRouteOk D d C L NbSwap (st == .BEST_ACCEPT) bs r :=
  intra_ok hb (fun b _ => nbSwap_same (depotEnds_wrap b))
    fun b _ => C74_two_point_partial (depotEnds_wrap b) hD h00 hd C hL st (bd := none) (by simp)

/-- C74. The naive operators for single routes ignore the bound that they are given. -/
theorem C74_bound_false : ∃ sol', do_naive_relocate_move [0, 2, 3, 1, 4, 0] exD (fun _ => 1) none none .BEST_ACCEPT (some (-100)) =
      .ok (some (sol', -6)) ∧
    do_relocate_move [0, 2, 3, 1, 4, 0] exD .BEST_ACCEPT (some (-100)) = .ok none := ⟨[0, 1, 2, 3, 4, 0], by decide +kernel, by decide +kernel⟩

/-- C74. The naive 2-opt* move never returns a solution: when it comes upon a better one it raises a `NameError`, as a function that it calls for
the limits does not exist. -/
theorem C74_star_false : (∀ (sol : List ℕ) (D : ℕ → ℕ → ℚ) (bd : Option ℚ) (r : List ℕ × ℚ), do_naive_2optstar_move sol D bd ≠ .ok (some r)) ∧
    do_naive_2optstar_move [0, 1, 3, 0, 2, 4, 0] exD none = .error .nameError ∧
    Feasible exD (fun _ => 1) (some 2) none [0, 1, 2, 0, 3, 4, 0] ∧ cost exD [0, 1, 2, 0, 3, 4, 0] < cost exD [0, 1, 3, 0, 2, 4, 0] := by
  refine ⟨?_, by decide +kernel, ?_, by decide +kernel⟩
  · intro sol D bd r h
    unfold do_naive_2optstar_move at h
    split at h
    · simp at h
    · simp at h
  · have e : blocks [0, 1, 2, 0, 3, 4, 0] = [[1, 2], [3, 4]] := by decide
    intro b hb
    rw [e] at hb
    refine ⟨?_, fun c hc => by simp at hc⟩
    intro c hc _
    injection hc with hc
    subst hc
    simp only [List.mem_cons, List.not_mem_nil, or_false] at hb
    rcases hb with rfl | rfl <;> norm_num [demand, C_EPS]

/-- C74. If the naive 2-opt* move ends without an error then there is nothing to find: no reversal of a part of a route, and no way to cut two
routes (the parts `B` and `E` lie before and behind the depots `M` between the cuts) and to join the ends otherwise, is good enough. The limits
are not looked at. -/
theorem C74_star_partial {sol : List ℕ} {D : ℕ → ℕ → ℚ} {bd : Option ℚ} (h : do_naive_2optstar_move sol D bd = .ok none) :
    (∀ P B R, sol = P ++ B ++ R → P ≠ [] → R ≠ [] → 2 ≤ B.length → 0 ∉ B →
      ¬ (cost D (P ++ B.reverse ++ R) - cost D sol + S_EPS < bd.getD 0)) ∧
    ∀ P B M E F R, sol = P ++ B ++ M ++ E ++ F ++ 0 :: R → P ≠ [] → 0 ∉ B → 0 ∉ E → 0 ∉ F → B ++ E ++ F ≠ [] →
      M.head? = some 0 → M.getLast? = some 0 →
      ¬ (cost D (P ++ E.reverse ++ M ++ B.reverse ++ F ++ 0 :: R) - cost D sol + S_EPS < bd.getD 0) ∧
      ¬ (cost D (P ++ F ++ M ++ B.reverse ++ E.reverse ++ 0 :: R) - cost D sol + S_EPS < bd.getD 0) := by
  rw [← initDelta_eq]
  simp only [← objf_eq_cost]
  constructor
  · intro P B R hs hP hR hB h0
    have hp := List.length_pos_iff.2 hP
    have hr := List.length_pos_iff.2 hR
    have hl : sol.length = P.length + B.length + R.length := by rw [hs]; simp; omega
    obtain ⟨o, h1, h2⟩ := star_none h (a := P.length - 1) (c := P.length + B.length - 1) (by omega) (by omega) (by omega) (.inl rfl)
    have e1 : P.length - 1 + 1 = P.length := by omega
    have e2 : P.length + B.length - 1 - (P.length - 1) = B.length := by omega
    have e3 : P.length + B.length - 1 + 1 = P.length + B.length := by omega
    have hn : ∀ c ∈ List.range' P.length B.length, sol[c]? ≠ some 0 := by
      intro c hc
      obtain ⟨y, hy, e⟩ := getElem_part (Z := R) hc
      rw [hs, e]
      intro h; exact h0 (Option.some.inj h ▸ hy)
    rw [e1, e2, if_neg (hn _ (by rw [List.mem_range'_1]; omega)), starMid_skip hn, starAnsatz] at h1
    injection h1 with h1
    refine h2 _ ?_
    rw [← h1, reversal, sliceRev, e1, e3, hs]
    congr 1
    have f1 : (P ++ B ++ R).take P.length = P := by rw [List.append_assoc, List.take_left]
    have f2 : (P ++ B ++ R).take (P.length + B.length) = P ++ B := by rw [← List.length_append, List.take_left]
    have f3 : (P ++ B ++ R).drop (P.length + B.length) = R := by rw [← List.length_append, List.drop_left]
    rw [f1, f2, f3, List.drop_left]
  · intro P B M E F R hs hP hB hE hF hne hM hM'
    have hp := List.length_pos_iff.2 hP
    have hn := List.length_pos_iff.2 hne
    rw [List.length_append, List.length_append] at hn
    have g1 : ∃ M', M = 0 :: M' := by
      cases M with
      | nil => simp at hM
      | cons x M => simp only [List.head?_cons, Option.some.injEq] at hM; exact ⟨M, by rw [hM]⟩
    have g2 : ∃ M', M = M' ++ [0] := by
      rcases List.eq_nil_or_concat M with rfl | ⟨M', x, rfl⟩
      · simp at hM
      · rw [List.concat_eq_append, List.getLast?_concat, Option.some.injEq] at hM'
        exact ⟨M', by rw [hM', List.concat_eq_append]⟩
    have hm : 0 < M.length := by obtain ⟨M', rfl⟩ := g1; simp
    have hl : sol.length = P.length + B.length + M.length + E.length + F.length + 1 + R.length := by rw [hs]; simp; omega
    have e1 : P.length - 1 + 1 = P.length := by omega
    have e2 : P.length + B.length + M.length + E.length - 1 - (P.length - 1) = B.length + M.length + E.length := by omega
    have e3 : P.length + B.length + M.length + E.length - 1 + 1 = P.length + B.length + M.length + E.length := by omega
    have e4 : P.length + B.length - 1 + 1 = P.length + B.length := by omega
    have e5 : P.length + B.length + M.length - 1 + 1 = P.length + B.length + M.length := by omega
    have hfold := starMid_fold (P := P) (F := F ++ 0 :: R) hB hE g1 g2
    rw [← List.append_assoc, ← hs] at hfold
    have f1 : sol.take P.length = P := by rw [hs]; simp
    have f2 : (sol.take (P.length + B.length + M.length + E.length)).drop (P.length + B.length + M.length) = E := by
      rw [hs, show P ++ B ++ M ++ E ++ F ++ 0 :: R = (P ++ B ++ M ++ E) ++ (F ++ 0 :: R) by simp,
        List.take_left' (by simp; omega), List.drop_left' (by simp; omega)]
    have f3 : (sol.take (P.length + B.length + M.length)).drop (P.length + B.length) = M := by
      rw [hs, show P ++ B ++ M ++ E ++ F ++ 0 :: R = (P ++ B ++ M) ++ (E ++ F ++ 0 :: R) by simp,
        List.take_left' (by simp; omega), List.drop_left' (by simp)]
    have f4 : (sol.take (P.length + B.length)).drop P.length = B := by
      rw [hs, show P ++ B ++ M ++ E ++ F ++ 0 :: R = (P ++ B) ++ (M ++ E ++ F ++ 0 :: R) by simp,
        List.take_left' (by simp), List.drop_left]
    have f5 : sol.drop (P.length + B.length + M.length + E.length) = F ++ 0 :: R := by
      rw [hs, show P ++ B ++ M ++ E ++ F ++ 0 :: R = (P ++ B ++ M ++ E) ++ (F ++ 0 :: R) by simp, List.drop_left' (by simp; omega)]
    have f6 : sol.drop (P.length + B.length + M.length + E.length + F.length) = 0 :: R := by
      rw [hs, List.drop_left' (by simp; omega)]
    have f7 : (sol.take (P.length + B.length + M.length + E.length + F.length)).drop (P.length + B.length + M.length + E.length) = F := by
      rw [hs, List.take_left' (by simp; omega), List.drop_left' (by simp; omega)]
    constructor
    · obtain ⟨o, h1, h2⟩ := star_none h (a := P.length - 1) (c := P.length + B.length + M.length + E.length - 1) (by omega) (by omega)
        (by omega) (.inl rfl)
      rw [e1, e2, hfold, starAnsatz] at h1
      injection h1 with h1
      refine h2 _ ?_
      rw [← h1, sliceRev, sliceRev, slice, e1, e3, e4, e5, f1, f2, f3, f4, f5]
      simp
    · obtain ⟨o, h1, h2⟩ := star_none h (a := P.length - 1) (c := P.length + B.length + M.length + E.length - 1) (by omega) (by omega)
        (by omega) (.inr rfl)
      rw [e1, e2, hfold, starAnsatz, e3, f5, routeEnd_at hF] at h1
      · injection h1 with h1
        refine h2 _ ?_
        rw [← h1, sliceRev, sliceRev, slice, slice, e1, e3, e4, e5, f1, f2, f3, f4, f6, f7]
      · simp

/-- A solution on which the move ends without an error: the edges of the depot cost nothing, the others 1. -/
example : do_naive_2optstar_move [0, 1, 2, 0, 3, 4, 0] (fun i j => if i = 0 ∨ j = 0 ∨ i = j then 0 else 1) none = .ok none ∧
    ([0, 1, 2, 0, 3, 4, 0] : List ℕ) = [0, 1] ++ [2] ++ [0] ++ [3] ++ [4] ++ 0 :: [] := by
  decide +kernel

example : do_naive_2opt_move [0, 1, 3, 2, 4, 0] exD .BEST_ACCEPT none = .ok (some ([0, 1, 2, 3, 4, 0], -4)) := by decide +kernel
example : (DepotEnds [0, 1, 3, 0, 2, 4, 0] ∧ (customers [0, 1, 3, 0, 2, 4, 0]).Nodup) ∧
    do_naive_1point_move [0, 1, 3, 0, 2, 4, 0] exD (fun _ => 1) (some 2) none .BEST_ACCEPT none = .ok none ∧
    do_naive_1point_move [0, 1, 3, 0, 2, 4, 0] exD (fun _ => 1) (some 3) none .BEST_ACCEPT none = .ok (some ([0, 1, 0, 2, 3, 4, 0], -6)) := by
  decide +kernel
example : do_naive_2point_move [0, 1, 3, 0, 2, 4, 0] exD (fun _ => 1) (some 2) none .BEST_ACCEPT none = .ok (some ([0, 4, 3, 0, 2, 1, 0], -4)) := by
  decide +kernel
example : do_naive_exchange_move [0, 3, 2, 1, 4, 0] exD (fun _ => 1) none none .BEST_ACCEPT none = .ok (some ([0, 1, 2, 3, 4, 0], -4)) := by
  decide +kernel

/-! ## C75 -/

/-- The naive operators that can be used, for a problem and a strategy. -/
def naiveOps (D : ℕ → ℕ → ℚ) (d : ℕ → ℚ) (C L : Option ℚ) (st : LSOPT) : List (List ℕ → Py (Option (List ℕ × ℚ))) :=
  [fun s => do_naive_2opt_move s D st none, fun s => do_naive_1point_move s D d C L st none, fun s => do_naive_relocate_move s D d C L st none,
    fun s => do_naive_2point_move s D d C L st none, fun s => do_naive_exchange_move s D d C L st none]

theorem naiveOps_ok {D : ℕ → ℕ → ℚ} (hD : ∀ i j, 0 ≤ D i j) (h00 : D 0 0 = 0) {d : ℕ → ℚ} (hd : ∀ n, 0 ≤ d n) (C : Option ℚ) {L : Option ℚ}
    (hL : ∀ x, L = some x → 0 ≤ x) (st : LSOPT) {op : List ℕ → Py (Option (List ℕ × ℚ))} (hop : op ∈ naiveOps D d C L st) {s : List ℕ}
    (hs : DepotEnds s) (hn : (customers s).Nodup) : ∃ r, op s = .ok r ∧ ∀ s' x, r = some (s', x) → SameVisits s s' ∧ cost D s' = cost D s + x ∧
      x + S_EPS < 0 ∧ (Feasible D d C L s → Feasible D d C L s') := by
  have heps : (0 : ℚ) < S_EPS := by norm_num [S_EPS]
  simp only [naiveOps, List.mem_cons, List.not_mem_nil, or_false] at hop
  rcases hop with rfl | rfl | rfl | rfl | rfl
  · obtain ⟨r, h1, h2⟩ := C74_two_opt_partial hs D st none
    refine ⟨r, h1, ?_⟩
    rintro s' x rfl
    obtain ⟨g1, g2, g3, -⟩ := h2
    refine ⟨nbReverse_same hs g1, g2, by simpa using g3, fun hf => feasible_reverse hs g1 hf ?_⟩
    simp only [Option.getD_none] at g3
    linarith
  · obtain ⟨r, h1, h2⟩ := C74_one_point_sound_partial hs D d C L st none
    refine ⟨r, h1, ?_⟩
    rintro s' x rfl
    obtain ⟨g1, g2, g3, -⟩ := h2
    exact ⟨nbMove_same hs g1.1, g2, by simpa using g3, fun _ => g1.2⟩
  · obtain ⟨bs, hb, rfl⟩ := exists_tour hs
    obtain ⟨r, h1, h2⟩ := C74_relocate_partial hb hn hD h00 hd C hL st none
    refine ⟨r, h1, ?_⟩
    rintro s' x rfl
    exact eachRouteOk_some (fun b _ => nbMove_same (depotEnds_wrap b)) h2
  · obtain ⟨r, h1, h2⟩ := C74_two_point_partial hs hD h00 hd C hL st (bd := none) (by simp)
    refine ⟨r, h1, ?_⟩
    rintro s' x rfl
    obtain ⟨g1, g2, g3, -⟩ := h2
    exact ⟨nbSwap_same hs g1.1, g2, by simpa using g3, fun _ => g1.2⟩
  · obtain ⟨bs, hb, rfl⟩ := exists_tour hs
    obtain ⟨r, h1, h2⟩ := C74_exchange_partial hb hD h00 hd C hL st none
    refine ⟨r, h1, ?_⟩
    rintro s' x rfl
    exact eachRouteOk_some (fun b _ => nbSwap_same (depotEnds_wrap b)) h2

theorem cost_nonneg_of {D : ℕ → ℕ → ℚ} (hD : ∀ i j, 0 ≤ D i j) : ∀ s : List ℕ, 0 ≤ cost D s
  | [] => le_rfl
  | [_] => le_rfl
  | a :: b :: t => add_nonneg (hD a b) (cost_nonneg_of hD (b :: t))

/-- C75. The naive local search ends for any of the operators, in any order and repetition. The result has the same visits, is not longer, keeps
the limits if they were kept, and none of the operators can improve it further. -/
theorem C75_partial {D : ℕ → ℕ → ℚ} (hD : ∀ i j, 0 ≤ D i j) (h00 : D 0 0 = 0) {d : ℕ → ℚ} (hd : ∀ n, 0 ≤ d n) (C : Option ℚ)
    {L : Option ℚ} (hL : ∀ x, L = some x → 0 ≤ x) (st : LSOPT) {ops : List (List ℕ → Py (Option (List ℕ × ℚ)))}
    (hops : ∀ op ∈ ops, op ∈ naiveOps D d C L st) {sol : List ℕ} (hs : DepotEnds sol) (hn : (customers sol).Nodup) (mx : Option ℕ) :
    ∃ F sol', (∀ fuel, F ≤ fuel → do_naive_local_search fuel ops sol mx = .ok (some sol')) ∧ SameVisits sol sol' ∧ cost D sol' ≤ cost D sol ∧
      (Feasible D d C L sol → Feasible D d C L sol') ∧ ∀ op ∈ ops, op sol' = .ok none := by
  have heps : (0 : ℚ) < S_EPS := by norm_num [S_EPS]
  obtain ⟨k, hk⟩ := exists_nat_gt (cost D sol / S_EPS)
  have hk' : cost D sol < k * S_EPS := by rwa [div_lt_iff₀ heps] at hk
  obtain ⟨s', h1, h2, h3, h4⟩ := naive_loop (ops := ops) (D := D) (Inv := fun s => SameVisits sol s ∧ (Feasible D d C L sol → Feasible D d C L s))
    (fun op hop s hi => by
      obtain ⟨r, g1, g2⟩ := naiveOps_ok hD h00 hd C hL st (hops op hop) hi.1.ends
        ((hi.1.perm.filter (fun n => decide (n ≠ 0))).nodup_iff.2 hn)
      refine ⟨r, g1, fun s1 x e => ?_⟩
      obtain ⟨k1, k2, k3, k4⟩ := g2 s1 x e
      exact ⟨⟨⟨k1.ends, k1.perm.trans hi.1.perm⟩, fun hf => k4 (hi.2 hf)⟩, by linarith⟩)
    mx (fun s _ => cost_nonneg_of hD s) k sol 0 ⟨⟨hs, .refl _⟩, fun h => h⟩ hk'
  exact ⟨k, s', h1, h2.1, h3, h2.2, h4⟩

example : do_naive_local_search 5 (naiveOps exD (fun _ => 1) (some 2) none .BEST_ACCEPT) [0, 1, 3, 0, 2, 4, 0] none = .ok (some [0, 4, 3, 0, 2, 1, 0]) := by
  decide +kernel

theorem naive_single (op : List ℕ → Py (Option (List ℕ × ℚ))) (mx : Option ℕ) (fuel : ℕ) (sol : List ℕ) (it it' : ℕ) :
    naiveLoop [op] mx fuel sol it = naiveLoop [op] none fuel sol it' := by
  induction fuel generalizing sol it it' with
  | zero => rfl
  | succ n ih =>
    rw [naiveLoop, naiveLoop, naivePass, naivePass, forBreak, forBreak]
    unfold naiveStep
    dsimp only
    rcases op sol with e | r
    · rfl
    · rcases r with _ | ⟨s, x⟩
      · rfl
      · dsimp only
        have e1 : maxReached none (it' + 1) = false := rfl
        rw [e1]
        cases maxReached mx (it + 1)
        · exact ih s _ _
        · exact ih s _ _

theorem naive_pass_count {m : ℕ} (ops : List (List ℕ → Py (Option (List ℕ × ℚ)))) (s : List ℕ × ℕ × Bool) (h : s.2.1 < m)
    {r : (List ℕ × ℕ × Bool) × Bool} (hr : forBreak ops s (naiveStep (some m)) = .ok r) :
    r.1.2.1 ≤ m ∧ (r.1.2.1 < m → forBreak ops s (naiveStep none) = .ok r) := by
  induction ops generalizing s with
  | nil =>
    rw [forBreak] at hr
    injection hr with hr
    subst hr
    exact ⟨h.le, fun _ => rfl⟩
  | cons op ops ih =>
    rw [forBreak] at hr
    rw [forBreak, naiveStep]
    rw [naiveStep] at hr
    cases ho : op s.1 with
    | error e => rw [ho] at hr; cases hr
    | ok o =>
      rw [ho] at hr
      cases o with
      | none => exact ih s h hr
      | some x =>
        obtain ⟨s', x⟩ := x
        dsimp only [bind, Except.bind] at hr ⊢
        by_cases he : s.2.1 + 1 = m
        · have : maxReached (some m) (s.2.1 + 1) = true := by simp [maxReached, he]; omega
          rw [this] at hr
          injection hr with hr
          subst hr
          exact ⟨he.le, fun h => absurd he (ne_of_lt h)⟩
        · have : maxReached (some m) (s.2.1 + 1) = false := by simp [maxReached, he]
          rw [this] at hr
          exact ih _ (by dsimp only; omega) hr

/-- C75. Within the first pass over the operators the greatest number of iterations is kept: no more improvements are made, and if there are
fewer the pass is the one without a greatest number. -/
theorem C75_pass_partial {ops : List (List ℕ → Py (Option (List ℕ × ℚ)))} {m : ℕ} (hm : 0 < m) {sol sol' : List ℕ} {k : ℕ} {improved : Bool}
    (h : naivePass ops (some m) sol 0 = .ok (sol', k, improved)) :
    k ≤ m ∧ (k < m → naivePass ops none sol 0 = .ok (sol', k, improved)) := by
  unfold naivePass at h ⊢
  split at h
  · cases h
  · rename_i s b hs
    injection h with h
    subst h
    obtain ⟨h1, h2⟩ := naive_pass_count ops (sol, 0, false) hm hs
    exact ⟨h1, fun hk => by rw [h2 hk]⟩

/-- Two of the operators would improve the solution, one may. -/
example : (naivePass (naiveOps exD (fun _ => 1) none none .FIRST_ACCEPT) (some 1) [0, 3, 1, 4, 2, 0] 0).toOption.map (·.2.1) = some 1 ∧
    (naivePass (naiveOps exD (fun _ => 1) none none .FIRST_ACCEPT) none [0, 3, 1, 4, 2, 0] 0).toOption.map (·.2.1) = some 3 := by
  decide +kernel

/-- C75. The greatest number of iterations is not kept: with a single operator it has no effect at all, whatever the operator is. Here two
improvements are made though one is asked for. -/
theorem C75_max_false : (∀ (fuel : ℕ) (op : List ℕ → Py (Option (List ℕ × ℚ))) (sol : List ℕ) (m : ℕ),
      do_naive_local_search fuel [op] sol (some m) = do_naive_local_search fuel [op] sol none) ∧
    do_naive_2opt_move [0, 3, 1, 4, 2, 0] exD .FIRST_ACCEPT none = .ok (some ([0, 1, 3, 4, 2, 0], -4)) ∧
    do_naive_local_search 9 [fun s => do_naive_2opt_move s exD .FIRST_ACCEPT none] [0, 3, 1, 4, 2, 0] (some 1) = .ok (some [0, 4, 3, 2, 1, 0]) :=
  ⟨fun fuel op sol m => naive_single op (some m) fuel sol 0 0, by decide +kernel, by decide +kernel⟩

/-! ## C76 -/

theorem nv_wrap_split {b X Y : List ℕ} (hX : X ≠ []) (hY : Y ≠ []) {Z : List ℕ} (h : wrap b = X ++ Z ++ Y) :
    ∃ X' Y', X = 0 :: X' ∧ Y = Y' ++ [0] ∧ b = X' ++ Z ++ Y' := by
  cases X with
  | nil => exact absurd rfl hX
  | cons x X =>
    rcases List.eq_nil_or_concat Y with rfl | ⟨Y', y, rfl⟩
    · exact absurd rfl hY
    · simp only [wrap, List.cons_append, List.cons.injEq, List.concat_eq_append] at h
      obtain ⟨rfl, h⟩ := h
      rw [← List.append_assoc] at h
      obtain ⟨h1, h2⟩ := List.append_inj' h rfl
      simp only [List.cons.injEq, and_true] at h2
      subst h2
      exact ⟨X, Y', rfl, by simp, by simpa using h1⟩

/-- The routes of a solution are what stands between two visits of the depot. -/
theorem mem_blocks_iff {sol : List ℕ} (hs : DepotEnds sol) {b : List ℕ} :
    b ∈ blocks sol ↔ b ≠ [] ∧ (∀ x ∈ b, x ≠ 0) ∧ ∃ p q, sol = p ++ 0 :: (b ++ 0 :: q) := by
  constructor
  · intro h
    obtain ⟨bs, hb, rfl⟩ := exists_tour hs
    rw [blocks_tour] at h
    obtain ⟨c, hc, h⟩ := List.mem_flatMap.1 h
    rw [blocks_zerofree c (hb c hc)] at h
    split at h
    · simp at h
    · rename_i hne
      simp only [List.mem_singleton] at h
      subst h
      refine ⟨hne, hb b hc, ?_⟩
      obtain ⟨l, r, rfl⟩ := List.append_of_mem hc
      clear hs hb hc hne h
      induction l with
      | nil => 
        cases r with
        | nil => exact ⟨[], [], by simp [tour]⟩
        | cons c r => exact ⟨[], c ++ tour r, by simp [tour]⟩
      | cons c l ih =>
        obtain ⟨p, q, e⟩ := ih
        refine ⟨0 :: (c ++ p), q, ?_⟩
        rw [List.cons_append, tour, e]
        simp
  · rintro ⟨hne, h0, p, q, rfl⟩
    rw [blocks_append_zero, blocks_append_zero, blocks_zerofree b h0, if_neg hne]
    simp

/-- A route of a solution has no neighbour of a kind that is better by more than the tolerance. -/
def NvStuck (D : ℕ → ℕ → ℚ) (Nb : List ℕ → List ℕ → Prop) (r : List ℕ) : Prop := ∀ w, Nb r w → ¬ cost D w - cost D r + S_EPS < 0

theorem nv_moveOk_none {D : ℕ → ℕ → ℚ} {Nb : List ℕ → List ℕ → Prop} {best : Bool} {s : List ℕ} {f : Py (Option (List ℕ × ℚ))}
    (h : ∃ r, f = .ok r ∧ MoveOk D Nb best ((none : Option ℚ).getD 0) s r) : f = .ok none ↔ NvStuck D Nb s := by
  obtain ⟨r, rfl, h⟩ := h
  rcases r with _ | ⟨s', x⟩
  · refine ⟨fun _ w hw hc => h w hw ?_, fun _ => rfl⟩
    simpa using hc
  · refine ⟨fun e => by simp at e, fun hst => ?_⟩
    obtain ⟨g1, g2, g3, -⟩ := h
    simp only [Option.getD_none] at g3
    exact absurd (by linarith) (hst s' g1)

/-- C76. The naive 2-opt move finds nothing exactly if the fast one finds nothing on any route, whatever their strategies. -/
theorem C76_two_opt {D : ℕ → ℕ → ℚ} (hD : Symm D) {sol : List ℕ} (hs : DepotEnds sol) (st st' : LSOPT) :
    do_naive_2opt_move sol D st none = .ok none ↔ ∀ b ∈ blocks sol, do_2opt_move (wrap b) D st' none = .ok none := by
  have heps : (0 : ℚ) < S_EPS := by norm_num [S_EPS]
  rw [nv_moveOk_none (C74_two_opt_partial hs D st none)]
  constructor
  · intro h b hb
    rw [nv_moveOk_none (C12_two_opt hD (wrap b) st' none)]
    rintro w ⟨A, B, E, hA, hB, hE, e, rfl⟩ hc
    obtain ⟨A', E', rfl, rfl, rfl⟩ := nv_wrap_split hA hE e
    obtain ⟨-, h0, p, q, rfl⟩ := (mem_blocks_iff hs).1 hb
    by_cases h2 : 2 ≤ B.length
    · refine h (p ++ 0 :: (A' ++ B.reverse ++ E' ++ 0 :: q))
        ⟨p ++ 0 :: A', B, E' ++ 0 :: q, by simp, by simp, h2, fun x hx => h0 x (by simp [hx]), by simp, by simp⟩ ?_
      rw [nv_cost_replace]
      have e1 : wrap (A' ++ B.reverse ++ E') = 0 :: A' ++ B.reverse ++ (E' ++ [0]) := by simp [wrap]
      rw [e1]
      exact hc
    · have h1 : B.reverse = B := by
        rcases B with _ | ⟨x, _ | ⟨y, B⟩⟩
        · rfl
        · rfl
        · simp at h2
      rw [h1, e] at hc
      linarith
  · rintro h w hw hc
    obtain ⟨p, q, P, B, Q, h0, hB, rfl, rfl⟩ := reverse_route hs hw
    have hB0 : B ≠ [] := by rintro rfl; simp at hB
    have hm : P ++ B ++ Q ∈ blocks (p ++ 0 :: ((P ++ B ++ Q) ++ 0 :: q)) :=
      (mem_blocks_iff hs).2 ⟨by simp [hB0], h0, p, q, rfl⟩
    have := (nv_moveOk_none (C12_two_opt hD (wrap (P ++ B ++ Q)) st' none)).1 (h _ hm)
    refine this (wrap (P ++ B.reverse ++ Q)) ⟨0 :: P, B, Q ++ [0], by simp, hB0, by simp, by simp [wrap], by simp [wrap]⟩ ?_
    rw [nv_cost_replace] at hc
    exact hc

theorem each_none {D : ℕ → ℕ → ℚ} {d : ℕ → ℚ} {C L : Option ℚ} {Nb : List ℕ → List ℕ → Prop} {best : Bool} {bs : List (List ℕ)}
    {f : Py (Option (List ℕ × ℚ))} (h : ∃ r, f = .ok r ∧ EachRouteOk D d C L Nb best bs r) :
    f = .ok none ↔ ∀ b ∈ bs, ∀ w, Nb (wrap b) w → Feasible D d C L w → ¬ cost D w + S_EPS < cost D (wrap b) := by
  have heps : (0 : ℚ) < S_EPS := by norm_num [S_EPS]
  obtain ⟨r, rfl, h⟩ := h
  rcases r with _ | ⟨s', x⟩
  · exact ⟨fun _ => h, fun _ => rfl⟩
  · refine ⟨fun e => by simp at e, fun hst => ?_⟩
    obtain ⟨bs', rfl, h1, h2, h3⟩ := h
    have e : bs = bs' := by
      clear h2
      induction h1 with
      | nil => rfl
      | cons hh _ ih =>
        rw [ih fun b hb => hst b (List.mem_cons_of_mem _ hb)]
        rcases hh with ⟨rfl, -⟩ | ⟨g1, g2, g3, -⟩
        · rfl
        · exact absurd g3 (hst _ (List.mem_cons_self ..) _ g1 g2)
    subst e
    linarith

theorem agree {D : ℕ → ℕ → ℚ} {d : ℕ → ℚ} {C L : Option ℚ} {Nb Nb' : List ℕ → List ℕ → Prop} {best best' : Bool} {bs : List (List ℕ)}
    (hb : ∀ b ∈ bs, ∀ x ∈ b, x ≠ 0) (hf : Feasible D d C L (tour bs)) (hN : ∀ b w, Nb (wrap b) w → SameVisits (wrap b) w)
    (h1 : ∀ b w, Nb (wrap b) w → w = wrap b ∨ Nb' (wrap b) w) (h2 : ∀ b ∈ bs, ∀ w, Nb' (wrap b) w → Nb (wrap b) w)
    {f : Py (Option (List ℕ × ℚ))} (hF : ∃ r, f = .ok r ∧ EachRouteOk D d C L Nb best bs r) {g : List ℕ → Py (Option (List ℕ × ℚ))}
    (hg : ∀ b ∈ bs, ∃ r, g b = .ok r ∧ MoveOk D Nb' best' ((none : Option ℚ).getD 0) (wrap b) r) :
    f = .ok none ↔ ∀ b ∈ blocks (tour bs), g b = .ok none := by
  have heps : (0 : ℚ) < S_EPS := by norm_num [S_EPS]
  have hmem : ∀ b, b ∈ blocks (tour bs) ↔ b ∈ bs ∧ b ≠ [] := by
    intro b
    rw [blocks_tour, List.mem_flatMap]
    constructor
    · rintro ⟨c, hc, h⟩
      rw [blocks_zerofree c (hb c hc)] at h
      split at h
      · simp at h
      · rename_i hne
        simp only [List.mem_singleton] at h
        subst h
        exact ⟨hc, hne⟩
    · rintro ⟨hc, hne⟩
      exact ⟨b, hc, by rw [blocks_zerofree b (hb b hc), if_neg hne]; simp⟩
  rw [each_none hF]
  constructor
  · intro h b hbm
    obtain ⟨hbm, -⟩ := (hmem b).1 hbm
    rw [nv_moveOk_none (hg b hbm)]
    intro w hw hc
    have hw' := h2 b hbm w hw
    obtain ⟨b', rfl, hp⟩ := wrap_of_same (hN b w hw')
    refine h b hbm _ hw' ?_ (by linarith)
    have e : ∀ c : List ℕ, wrap c = [] ++ 0 :: (c ++ 0 :: []) := fun c => by simp [wrap]
    rw [e]
    refine feasible_replace (hb b hbm) hp ?_ (by linarith)
    rw [← e, feasible_wrap]
    exact feasible_tour.1 hf b hbm
  · intro h b hbm w hw _ hc
    by_cases hne : b = []
    · subst hne
      obtain ⟨b', rfl, hp⟩ := wrap_of_same (hN [] w hw)
      rw [List.perm_nil.1 hp] at hc
      linarith
    · have := (nv_moveOk_none (hg b hbm)).1 (h b ((hmem b).2 ⟨hbm, hne⟩))
      rcases h1 b w hw with rfl | h3
      · linarith
      · exact this w h3 (by linarith)

theorem nbMove_relocate {s t : List ℕ} (h : NbMove s t) : t = s ∨ NbRelocate s t := by
  obtain ⟨A, E, A', E', n, -, hA, hE, hA', hE', rfl, e, rfl⟩ := h
  rcases List.append_eq_append_iff.1 e with ⟨M, rfl, rfl⟩ | ⟨M, rfl, rfl⟩
  · by_cases hM : M = []
    · left
      simp [hM]
    · exact .inr ⟨A, M, E', n, hA, hM, hE', .inl ⟨by simp, by simp⟩⟩
  · by_cases hM : M = []
    · left
      simp [hM]
    · exact .inr ⟨A', M, E, n, hA', hM, hE, .inr ⟨by simp, by simp⟩⟩

theorem relocate_nbMove {b t : List ℕ} (hb : ∀ x ∈ b, x ≠ 0) (h : NbRelocate (wrap b) t) : NbMove (wrap b) t := by
  obtain ⟨A, M, E, n, hA, hM, hE, ⟨e, rfl⟩ | ⟨e, rfl⟩⟩ := h
  · obtain ⟨A', E', -, -, rfl⟩ := nv_wrap_split (Z := [n] ++ M) hA hE (by simpa using e)
    refine ⟨A, M ++ E, A ++ M, E, n, hb n (by simp), hA, by simp [hM], by simp [hA], hE, by simpa using e, by simp, by simp⟩
  · obtain ⟨A', E', -, -, rfl⟩ := nv_wrap_split (Z := M ++ [n]) hA hE (by simpa using e)
    refine ⟨A ++ M, E, A, M ++ E, n, hb n (by simp), by simp [hA], hE, hA, by simp [hM], by simpa using e, by simp, by simp⟩

theorem nbSwap_exchange {b t : List ℕ} (h : NbSwap (wrap b) t) : NbExchange (wrap b) t := by
  obtain ⟨A, M, E, n, m, hn, hm, e, rfl⟩ := h
  refine ⟨A, M, E, n, m, ?_, ?_, by simpa using e, by simp⟩
  · rintro rfl
    simp only [wrap, List.nil_append, List.cons.injEq] at e
    exact hn e.1.symm
  · rintro rfl
    have := congrArg List.getLast? e
    simp [wrap, List.getLast?_append, List.getLast?_cons] at this
    exact hm this.symm

theorem exchange_nbSwap {b t : List ℕ} (hb : ∀ x ∈ b, x ≠ 0) (h : NbExchange (wrap b) t) : NbSwap (wrap b) t := by
  obtain ⟨A, M, E, n, m, hA, hE, e, rfl⟩ := h
  obtain ⟨A', E', -, -, rfl⟩ := nv_wrap_split (Z := [n] ++ M ++ [m]) hA hE (by simpa using e)
  exact ⟨A, M, E, n, m, hb n (by simp), hb m (by simp), by simpa using e, by simp⟩

theorem circuit_wrap {b : List ℕ} (hb : ∀ x ∈ b, x ≠ 0) (hn : b.Nodup) : Circuit (wrap b) :=
  have h0 : 0 ∉ b := fun h => hb 0 h rfl
  ⟨0, b, 0, rfl, List.nodup_cons.2 ⟨h0, hn⟩, h0⟩

/-- C76. For a solution within the limits, the naive relocation finds nothing exactly if the fast one, which knows no limits, finds nothing on any
route. -/
theorem C76_relocate {sol : List ℕ} (hs : DepotEnds sol) (hn : (customers sol).Nodup) {D : ℕ → ℕ → ℚ} (hD : ∀ i j, 0 ≤ D i j) (h00 : D 0 0 = 0)
    {d : ℕ → ℚ} (hd : ∀ n, 0 ≤ d n) (C : Option ℚ) {L : Option ℚ} (hL : ∀ x, L = some x → 0 ≤ x) (hf : Feasible D d C L sol) (st st' : LSOPT) :
    do_naive_relocate_move sol D d C L st none = .ok none ↔ ∀ b ∈ blocks sol, do_relocate_move (wrap b) D st' none = .ok none := by
  obtain ⟨bs, hb, rfl⟩ := exists_tour hs
  exact agree hb hf (fun b _ => nbMove_same (depotEnds_wrap b)) (fun b w h => nbMove_relocate h) (fun b hbm w h => relocate_nbMove (hb b hbm) h)
    (C74_relocate_partial hb hn hD h00 hd C hL st none)
    fun b hbm => C14_relocate D (circuit_wrap (hb b hbm) (customers_part hb hn hbm).2) st' none

/-- C76. The same for the naive and the fast exchange. -/
theorem C76_exchange {sol : List ℕ} (hs : DepotEnds sol) (hn : (customers sol).Nodup) {D : ℕ → ℕ → ℚ} (hD : ∀ i j, 0 ≤ D i j) (h00 : D 0 0 = 0)
    {d : ℕ → ℚ} (hd : ∀ n, 0 ≤ d n) (C : Option ℚ) {L : Option ℚ} (hL : ∀ x, L = some x → 0 ≤ x) (hf : Feasible D d C L sol) (st st' : LSOPT) :
    do_naive_exchange_move sol D d C L st none = .ok none ↔ ∀ b ∈ blocks sol, do_exchange_move (wrap b) D st' none = .ok none := by
  obtain ⟨bs, hb, rfl⟩ := exists_tour hs
  exact agree hb hf (fun b _ => nbSwap_same (depotEnds_wrap b)) (fun b w h => .inr (nbSwap_exchange h))
    (fun b hbm w h => exchange_nbSwap (hb b hbm) h) (C74_exchange_partial hb hD h00 hd C hL st none)
    fun b hbm => C15_exchange D (circuit_wrap (hb b hbm) (customers_part hb hn hbm).2) st' none

example : blocks [0, 2, 3, 1, 0, 4, 0] = [[2, 3, 1], [4]] ∧
    do_relocate_move (wrap [2, 3, 1]) exD .FIRST_ACCEPT none = .ok (some ([0, 3, 2, 1, 0], -2)) ∧
    do_naive_relocate_move [0, 2, 3, 1, 0, 4, 0] exD (fun _ => 1) (some 3) none .FIRST_ACCEPT none ≠ .ok none := by decide +kernel

end Verif
