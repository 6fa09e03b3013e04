import Verif.Lemmas.TwoOptStar
import Verif.Lemmas.Redistribute
import Verif.Props.IntraRoute

/-! # Properties C16-C21: the inter-route operators

Each operator is compared with a neighbourhood of `Verif.Spec.GroupMoves`. `bd.getD 0` is the bound
the caller gave, 0 without one. -/

namespace Verif
open Spec

theorem mem2 {α : Type} {P : α → Prop} {a b : α} : (∀ x ∈ [a, b], P x) ↔ P a ∧ P b := by simp
theorem mem3 {α : Type} {P : α → Prop} {a b c : α} :
    (∀ x ∈ [a, b, c], P x) ↔ P a ∧ P b ∧ P c := by simp

theorem depotEnds_mid {A M B : List ℕ} (hA : A ≠ []) (hB : B ≠ []) :
    DepotEnds (A ++ M ++ B) ↔ A.head? = some 0 ∧ B.getLast? = some 0 := by
  unfold DepotEnds
  rw [getLast_append_ne hB]
  cases A with
  | nil => exact absurd rfl hA
  | cons => rfl

theorem depotEnds_two {A B : List ℕ} (hA : A ≠ []) (hB : B ≠ []) :
    DepotEnds (A ++ B) ↔ A.head? = some 0 ∧ B.getLast? = some 0 := by
  have := depotEnds_mid (M := []) hA hB
  simpa using this

/-! ## C16: one point move -/

/-- C16. The one point move is sound, exact, complete and best-accept finds the best move, among the
moves that leave the receiving route within the limits. Records stay true. -/
theorem C16_one_point {D : ℕ → ℕ → ℚ} {d : Option (ℕ → ℚ)} {C L : Option ℚ} {rd1 rd2 : RouteData}
    (b1 : Book D d C rd1) (b2 : Book D d C rd2) (st : LSOPT) (bd : Option ℚ) :
    ∃ r, do_1point_move rd1 rd2 D d C L st bd = .ok r ∧
      GroupOk D d C Nb1point (fun rs => FitsAll D d C L C_EPS S_EPS rs.tail)
        (st == .BEST_ACCEPT) (bd.getD 0) [rd1, rd2] r := by
  refine ⟨_, do_1point_eq L b1 b2 st bd, ?_⟩
  rw [initDelta_eq]
  exact groupOk_of_scan (cands1p_sound b1 b2) (fun rs h hf => cands1p_complete b1 rs h hf)

theorem nb1point_conserves {rs rs' : List (List ℕ)} (h : Nb1point rs rs') : Conserves rs rs' := by
  obtain ⟨A, B, E, F, n, hA, hB, hE, hF, rfl, rfl⟩ := h
  refine ⟨?_, rfl, ?_⟩
  · rw [List.perm_iff_count]
    intro a
    simp only [List.flatten_cons, List.flatten_nil, List.count_append, List.count_nil]
    omega
  · intro hr
    rw [mem2, depotEnds_mid hA hB, depotEnds_two hE hF] at hr
    rw [mem2, depotEnds_two hA hB, depotEnds_mid hE hF]
    exact hr

/-- C16. The customers of the two routes stay, and so do the depots. -/
theorem C16_conserves {D : ℕ → ℕ → ℚ} {d : Option (ℕ → ℚ)} {C L : Option ℚ} {rd1 rd2 : RouteData}
    (b1 : Book D d C rd1) (b2 : Book D d C rd2) {st : LSOPT} {bd : Option ℚ} {rds : List RouteData}
    {delta : ℚ} (h : do_1point_move rd1 rd2 D d C L st bd = .ok (some (rds, delta))) :
    Conserves [rd1.route, rd2.route] (rds.map (·.route)) := by
  obtain ⟨r, h1, h2⟩ := C16_one_point (L := L) b1 b2 st bd
  rw [h] at h1
  cases h1
  exact nb1point_conserves h2.1

theorem demand_remove_le {f : ℕ → ℚ} (hf : ∀ n, 0 ≤ f n) (A B : List ℕ) (n : ℕ) :
    demand f (A ++ B) ≤ demand f (A ++ [n] ++ B) := by
  have := hf n
  simp only [demand_append, demand_cons, demand_nil]
  linarith

theorem cost_remove_le {D : ℕ → ℕ → ℚ} (hD : Triangle D) {A B : List ℕ} (hA : A ≠ []) (hB : B ≠ [])
    (n : ℕ) : cost D (A ++ B) ≤ cost D (A ++ [n] ++ B) := by
  obtain ⟨_, a, _, ha⟩ := ends hA
  obtain ⟨b, _, hb, _⟩ := ends hB
  have := cost_remove (D := D) (n := n) ha hb
  have := hD a n b
  linarith

theorem fits_remove {D : ℕ → ℕ → ℚ} {d : Option (ℕ → ℚ)} {C L : Option ℚ} {eC eL : ℚ}
    (hD : Triangle D) (hd : NonnegDemands d) {A B : List ℕ} (hA : A ≠ []) (hB : B ≠ []) {n : ℕ}
    (h : FitsC d C eC (A ++ [n] ++ B) ∧ FitsL D L eL (A ++ [n] ++ B)) :
    FitsC d C eC (A ++ B) ∧ FitsL D L eL (A ++ B) := by
  refine ⟨fun f hf c hc hc0 => ?_, fun c hc hc0 => ?_⟩
  · exact le_trans (demand_remove_le (hd f hf) A B n) (h.1 f hf c hc hc0)
  · exact le_trans (cost_remove_le hD hA hB n) (h.2 c hc hc0)

/-- C16. With the triangle inequality and no negative demands both routes stay feasible. -/
theorem C16_feasible {D : ℕ → ℕ → ℚ} {d : Option (ℕ → ℚ)} {C L : Option ℚ} {rd1 rd2 : RouteData}
    (b1 : Book D d C rd1) (b2 : Book D d C rd2) (hD : Triangle D) (hd : NonnegDemands d)
    (hf : FitsAll D d C L C_EPS S_EPS [rd1.route, rd2.route]) {st : LSOPT} {bd : Option ℚ}
    {rds : List RouteData} {delta : ℚ}
    (h : do_1point_move rd1 rd2 D d C L st bd = .ok (some (rds, delta))) :
    FitsAll D d C L C_EPS S_EPS (rds.map (·.route)) := by
  obtain ⟨r, h1, h2⟩ := C16_one_point (L := L) b1 b2 st bd
  rw [h] at h1
  cases h1
  obtain ⟨⟨A, B, E, F, n, hA, hB, hE, hF, hr, hr'⟩, h3, -⟩ := h2
  simp only [List.map_cons, List.map_nil, List.cons.injEq, and_true] at hr
  rw [hr'] at h3 ⊢
  rw [hr.1] at hf
  refine mem2.2 ⟨fits_remove hD hd hA hB (hf (A ++ [n] ++ B) (by simp)), h3 _ (by simp)⟩

theorem moveSafe_of_triangle {D : ℕ → ℕ → ℚ} (h : Triangle D) : MoveSafe D := fun a n b _ _ _ => h a n b

/-- C16. Both routes stay feasible also where the triangle inequality does not hold, as with rounded distances: a move that makes the giving
route longer is never an improvement. -/
theorem C16_feasible_rounded {D : ℕ → ℕ → ℚ} {d : Option (ℕ → ℚ)} {C L : Option ℚ} {rd1 rd2 : RouteData}
    (b1 : Book D d C rd1) (b2 : Book D d C rd2) (hD : MoveSafe D) (hd : NonnegDemands d)
    (hf : FitsAll D d C L C_EPS S_EPS [rd1.route, rd2.route]) {st : LSOPT} {bd : Option ℚ} (hbd : bd.getD 0 ≤ 0)
    {rds : List RouteData} {delta : ℚ}
    (h : do_1point_move rd1 rd2 D d C L st bd = .ok (some (rds, delta))) :
    FitsAll D d C L C_EPS S_EPS (rds.map (·.route)) := by
  obtain ⟨r, h1, h2⟩ := C16_one_point (L := L) b1 b2 st bd
  rw [h] at h1
  cases h1
  obtain ⟨⟨A, B, E, F, n, hA, hB, hE, hF, hr, hr'⟩, h3, -, h4, h5, -⟩ := h2
  rw [hr, hr'] at h4
  simp only [List.map_cons, List.map_nil, List.cons.injEq, and_true] at hr
  rw [hr'] at h3 ⊢
  rw [hr.1] at hf
  have hle : cost D (A ++ B) ≤ cost D (A ++ [n] ++ B) := by
    obtain ⟨_, a, _, ha⟩ := ends hA
    obtain ⟨b, _, hb, _⟩ := ends hB
    obtain ⟨_, x, _, hx⟩ := ends hE
    obtain ⟨y, _, hy, _⟩ := ends hF
    have e1 := cost_remove (D := D) (n := n) ha hb
    have e2 := cost_remove (D := D) (n := n) hx hy
    simp only [total, List.map_cons, List.map_nil, List.sum_cons, List.sum_nil] at h4
    have hS : (0 : ℚ) < S_EPS := by norm_num [S_EPS]
    have := hD a n b x y (by linarith)
    linarith
  have hA' := hf (A ++ [n] ++ B) (by simp)
  refine mem2.2 ⟨⟨fun f hf c hc hc0 => ?_, fun c hc hc0 => ?_⟩, h3 _ (by simp)⟩
  · exact le_trans (demand_remove_le (hd f hf) A B n) (hA'.1 f hf c hc hc0)
  · exact le_trans hle (hA'.2 c hc hc0)

/-- The capacity is shared by the routes of the examples. -/
def exd : ℕ → ℚ := fun n => if n = 0 then 0 else 1

example : Book exD (some exd) (some 3) (.of_route exD (some exd) [0, 1, 3, 0]) ∧
    Book exD (some exd) (some 3) (.of_route exD (some exd) [0, 2, 4, 0]) := by
  refine ⟨⟨by decide +kernel, fun _ => ⟨exd, rfl, by decide +kernel⟩⟩,
    ⟨by decide +kernel, fun _ => ⟨exd, rfl, by decide +kernel⟩⟩⟩

example : do_1point_move (.of_route exD (some exd) [0, 1, 3, 0]) (.of_route exD (some exd) [0, 2, 4, 0])
    exD (some exd) (some 3) (some 8) .BEST_ACCEPT none =
    .ok (some ([⟨[0, 1, 0], 2, some 1⟩, ⟨[0, 2, 3, 4, 0], 6, some 3⟩], -6)) := by decide +kernel
/-- The limits are obeyed. -/
example : do_1point_move (.of_route exD (some exd) [0, 1, 3, 0]) (.of_route exD (some exd) [0, 2, 4, 0])
    exD (some exd) (some 2) (some 8) .BEST_ACCEPT none = .ok none := by decide +kernel

/-- A matrix that breaks the triangle inequality. -/
def exN (i j : ℕ) : ℚ :=
  if i = j then 0 else if (i, j) ∈ [(0, 1), (1, 0)] then 50
  else if (i, j) ∈ [(3, 4), (4, 3)] then 56 else 1

/-- C16. Without the triangle inequality the giving route can be taken over the limit: only the
receiving route is checked. -/
theorem C16_needs_triangle : ∃ rd1 rd2 rds delta,
    Book exN none none rd1 ∧ Book exN none none rd2 ∧
    FitsAll exN none none (some 60) 0 0 [rd1.route, rd2.route] ∧
    do_1point_move rd1 rd2 exN none none (some 60) .FIRST_ACCEPT none = .ok (some (rds, delta)) ∧
    ¬ FitsAll exN none none (some 60) C_EPS S_EPS (rds.map (·.route)) := by
  refine ⟨.of_route exN none [0, 2, 1, 0], .of_route exN none [0, 3, 4, 0],
    [⟨[0, 1, 0], 100, none⟩, ⟨[0, 3, 2, 4, 0], 4, none⟩], -6,
    ⟨by decide +kernel, fun ⟨c, h, _⟩ => by simp at h⟩,
    ⟨by decide +kernel, fun ⟨c, h, _⟩ => by simp at h⟩, ?_, by decide +kernel, ?_⟩
  · refine mem2.2 ⟨⟨fun f h => by simp at h, ?_⟩, ⟨fun f h => by simp at h, ?_⟩⟩
    · rintro c hc -; simp only [Option.some.injEq] at hc; subst hc; decide +kernel
    · rintro c hc -; simp only [Option.some.injEq] at hc; subst hc; decide +kernel
  · intro h
    have := (h [0, 1, 0] (by simp)).2 60 rfl (by norm_num)
    exact absurd this (by decide +kernel)

/-! ## C17: two point move -/

/-- C17. The two point move is sound, exact, complete and best-accept finds the best swap, among the
swaps that leave both routes within the limits. Records stay true. -/
theorem C17_two_point {D : ℕ → ℕ → ℚ} {d : Option (ℕ → ℚ)} {C L : Option ℚ} {rd1 rd2 : RouteData}
    (b1 : Book D d C rd1) (b2 : Book D d C rd2) (st : LSOPT) (bd : Option ℚ) :
    ∃ r, do_2point_move rd1 rd2 D d C L st bd = .ok r ∧
      GroupOk D d C Nb2point (fun rs => FitsAll D d C L C_EPS 0 rs)
        (st == .BEST_ACCEPT) (bd.getD 0) [rd1, rd2] r := by
  refine ⟨_, do_2point_eq L b1 b2 st bd, ?_⟩
  rw [initDelta_eq]
  exact groupOk_of_scan (cands2p_sound b1 b2) (fun rs h hf => cands2p_complete b1 rs h hf)

theorem nb2point_conserves {rs rs' : List (List ℕ)} (h : Nb2point rs rs') : Conserves rs rs' := by
  obtain ⟨A, B, E, F, n, m, hA, hB, hE, hF, rfl, rfl⟩ := h
  refine ⟨?_, rfl, ?_⟩
  · rw [List.perm_iff_count]
    intro a
    simp only [List.flatten_cons, List.flatten_nil, List.count_append, List.count_nil]
    omega
  · intro hr
    rw [mem2, depotEnds_mid hA hB, depotEnds_mid hE hF] at hr
    rw [mem2, depotEnds_mid hA hB, depotEnds_mid hE hF]
    exact hr

/-- C17. The customers of the two routes stay, and so do the depots. -/
theorem C17_conserves {D : ℕ → ℕ → ℚ} {d : Option (ℕ → ℚ)} {C L : Option ℚ} {rd1 rd2 : RouteData}
    (b1 : Book D d C rd1) (b2 : Book D d C rd2) {st : LSOPT} {bd : Option ℚ} {rds : List RouteData}
    {delta : ℚ} (h : do_2point_move rd1 rd2 D d C L st bd = .ok (some (rds, delta))) :
    Conserves [rd1.route, rd2.route] (rds.map (·.route)) := by
  obtain ⟨r, h1, h2⟩ := C17_two_point (L := L) b1 b2 st bd
  rw [h] at h1
  cases h1
  exact nb2point_conserves h2.1

example : do_2point_move (.of_route exD (some exd) [0, 1, 3, 0]) (.of_route exD (some exd) [0, 2, 4, 0])
    exD (some exd) (some 2) (some 8) .BEST_ACCEPT none =
    .ok (some ([⟨[0, 4, 3, 0], 5, some 2⟩, ⟨[0, 2, 1, 0], 5, some 2⟩], -4)) := by decide +kernel

/-! ## C18: 2-opt* -/

theorem nb2optStar_conserves {rs rs' : List (List ℕ)} (h : Nb2optStar rs rs') :
    Conserves rs rs' := by
  obtain ⟨A, B, E, F, hA, hB, hE, hF, rfl, h⟩ := h
  have hE' : E.reverse ≠ [] := by simpa using hE
  have hB' : B.reverse ≠ [] := by simpa using hB
  refine ⟨?_, by rcases h with rfl | rfl <;> rfl, ?_⟩
  · rw [List.perm_iff_count]
    intro a
    rcases h with rfl | rfl
    all_goals
      simp only [List.flatten_cons, List.flatten_nil, List.count_append, List.count_nil,
        List.count_reverse]
      omega
  · intro hr
    rw [mem2, depotEnds_two hA hB, depotEnds_two hE hF] at hr
    rcases h with rfl | rfl
    · rw [mem2, depotEnds_two hA hE', depotEnds_two hB' hF, List.getLast?_reverse,
        List.head?_reverse]
      tauto
    · rw [mem2, depotEnds_two hA hF, depotEnds_two hB' hE', List.getLast?_reverse,
        List.head?_reverse]
      tauto

/-- C18. For symmetric distances 2-opt* is sound, exact and complete and best-accept finds the best
move, among the exchanges of tails that leave both routes within the limits. What is missing to the
full property is that the returned records are true: only the demand of the first one is, see
`C18_bookkeeping_false`. The records given need not be true either. -/
theorem C18_two_opt_star_partial {D : ℕ → ℕ → ℚ} (hD : Symm D) {d : Option (ℕ → ℚ)}
    (h0 : DepotFree d) {C L : Option ℚ} (hC : InUse C → ∃ f, d = some f) {rd1 rd2 : RouteData}
    (hr1 : DepotEnds rd1.route) (hr2 : DepotEnds rd2.route) (st : LSOPT) (bd : Option ℚ) :
    ∃ r, do_2optstar_move rd1 rd2 D d C L st bd = .ok r ∧
      GroupOkFor D Nb2optStar (FitsAll D d C L C_EPS S_EPS)
        (fun rds => ∀ rd ∈ rds.head?, ∀ f, d = some f → InUse C →
          rd.demand = some (demand f rd.route))
        (st == .BEST_ACCEPT) (bd.getD 0) [rd1, rd2] r := by
  refine ⟨_, do_2optstar_eq hD h0 C L hr1 hr2 st bd, ?_⟩
  rw [initDelta_eq]
  exact groupOk_of_scan (candsStar_sound hD) (fun rs h hf => candsStar_complete hD hC rs h hf)

/-- C18. The customers of the two routes stay, and so do the depots. -/
theorem C18_conserves {D : ℕ → ℕ → ℚ} (hD : Symm D) {d : Option (ℕ → ℚ)}
    (h0 : DepotFree d) {C L : Option ℚ} (hC : InUse C → ∃ f, d = some f) {rd1 rd2 : RouteData}
    (hr1 : DepotEnds rd1.route) (hr2 : DepotEnds rd2.route) {st : LSOPT} {bd : Option ℚ}
    {rds : List RouteData} {delta : ℚ}
    (h : do_2optstar_move rd1 rd2 D d C L st bd = .ok (some (rds, delta))) :
    Conserves [rd1.route, rd2.route] (rds.map (·.route)) ∧
      ∀ r ∈ rds.map (·.route), DepotEnds r := by
  obtain ⟨r, h1, h2⟩ := C18_two_opt_star_partial (L := L) hD h0 hC hr1 hr2 st bd
  rw [h] at h1
  cases h1
  have hc := nb2optStar_conserves h2.1
  exact ⟨hc, hc.2.2 (mem2.2 ⟨hr1, hr2⟩)⟩

/-- C18. The returned records are false, although those given are true: both carry the cost and the
demand meant for the first, and that cost is wrong even for the first. -/
theorem C18_bookkeeping_false : ∃ rd1 rd2 rds delta,
    Book exD (some exd) (some 3) rd1 ∧ Book exD (some exd) (some 3) rd2 ∧
    do_2optstar_move rd1 rd2 exD (some exd) (some 3) (some 20) .BEST_ACCEPT none
      = .ok (some (rds, delta)) ∧
    (∀ rd ∈ rds, rd.cost ≠ cost exD rd.route) ∧
    ∃ rd ∈ rds, rd.demand ≠ some (demand exd rd.route) := by
  refine ⟨.of_route exD (some exd) [0, 1, 3, 0], .of_route exD (some exd) [0, 2, 4, 0],
    [⟨[0, 1, 0], 5, some 1⟩, ⟨[0, 3, 2, 4, 0], 5, some 1⟩], -4,
    ⟨by decide +kernel, fun _ => ⟨exd, rfl, by decide +kernel⟩⟩,
    ⟨by decide +kernel, fun _ => ⟨exd, rfl, by decide +kernel⟩⟩, by decide +kernel,
    by decide +kernel, by decide +kernel⟩

/-! ## C19: insertion -/

/-- C19. Insertion of a list of customers to a route never fails with an exception; what it returns is
an empty route and the receiving route with exactly these customers added, within the limits, with a
true record and the exact delta, and the delta is below the bound if there is one. -/
theorem C19_insert {D : ℕ → ℕ → ℚ} {d : Option (ℕ → ℚ)} {C L : Option ℚ} {rd : RouteData}
    (b : Book D d C rd) (hr : DepotEnds rd.route) (h2 : 2 ≤ rd.route.length) (st : LSOPT)
    (bd : Option ℚ) (ns : List ℕ) :
    ∃ r, do_insert_move (.nodes ns) rd D d C L st bd = .ok r ∧
      ∀ rds t, r = some (rds, t) → ∃ rd', rds = [⟨[0, 0], 0, some 0⟩, rd'] ∧
        Inserted D d C L ns rd rd' t ∧ (ns ≠ [] → ∀ x, bd = some x → t + S_EPS ≤ x) :=
  insert_core (L := L) b hr h2 st bd ns (und := demSum d ns)
    (fun h => by obtain ⟨f, rfl, -⟩ := b.2 h; exact demSum_ok f ns)

/-- C19. The same for a single customer. -/
theorem C19_insert_node {D : ℕ → ℕ → ℚ} {d : Option (ℕ → ℚ)} {C L : Option ℚ} {rd : RouteData}
    (b : Book D d C rd) (hr : DepotEnds rd.route) (h2 : 2 ≤ rd.route.length) (st : LSOPT)
    (bd : Option ℚ) (n : ℕ) :
    ∃ r, do_insert_move (.node n) rd D d C L st bd = .ok r ∧
      ∀ rds t, r = some (rds, t) → ∃ rd', rds = [⟨[0, 0], 0, some 0⟩, rd'] ∧
        Inserted D d C L [n] rd rd' t ∧ (∀ x, bd = some x → t + S_EPS ≤ x) := by
  obtain ⟨r, e1, e2⟩ := insert_core (L := L) b hr h2 st bd [n] (und := demSum d [n])
    (fun h => by obtain ⟨f, rfl, -⟩ := b.2 h; exact demSum_ok f [n])
  refine ⟨r, e1, fun rds t h => ?_⟩
  obtain ⟨rd', k1, k2, k3⟩ := e2 rds t h
  exact ⟨rd', k1, k2, k3 (by simp)⟩

/-- C19. The same for the customers of another route, given by a true record. -/
theorem C19_insert_route {D : ℕ → ℕ → ℚ} {d : Option (ℕ → ℚ)} (h0 : DepotFree d) {C L : Option ℚ}
    {rd u : RouteData} (b : Book D d C rd) (hr : DepotEnds rd.route) (h2 : 2 ≤ rd.route.length)
    (bu : Book D d C u) {cs : List ℕ} (hu : u.route = wrap cs) (st : LSOPT) (bd : Option ℚ) :
    ∃ r, do_insert_move (.data u) rd D d C L st bd = .ok r ∧
      ∀ rds t, r = some (rds, t) → ∃ rd', rds = [⟨[0, 0], 0, some 0⟩, rd'] ∧
        Inserted D d C L cs rd rd' t ∧ (cs ≠ [] → ∀ x, bd = some x → t + S_EPS ≤ x) := by
  have hcs : u.route.tail.dropLast = cs := by rw [hu]; simp [wrap]
  obtain ⟨r, e1, e2⟩ := insert_core (L := L) b hr h2 st bd u.route.tail.dropLast
    (und := num u.demand) (fun h => by
      obtain ⟨f, rfl, hf⟩ := bu.2 h
      rw [hf, hcs]
      have : demand f u.route = demand f cs := by
        rw [hu]; simp [wrap, h0 f rfl]
      rw [this]; rfl)
  refine ⟨r, e1, ?_⟩
  rw [hcs] at e2
  exact e2

/-- C19. If a customer is not inserted although no bound is given, it does not fit: the capacity is
exceeded or no position is within the cost limit. With best accept the cheapest position within the
limit is used. -/
theorem C19_complete {D : ℕ → ℕ → ℚ} {d : Option (ℕ → ℚ)} {C L : Option ℚ} {rd : RouteData}
    (b : Book D d C rd) (hr : DepotEnds rd.route) (h2 : 2 ≤ rd.route.length) (st : LSOPT) (n : ℕ) :
    ∃ r, do_insert_move (.node n) rd D d C L st none = .ok r ∧
      (r = none → FitsC d C C_EPS (n :: rd.route) → ∀ A B, A ≠ [] → B ≠ [] → rd.route = A ++ B →
        ¬ FitsL D L S_EPS (A ++ [n] ++ B)) ∧
      (st = .BEST_ACCEPT → ∀ rds t, r = some (rds, t) → ∀ A B, A ≠ [] → B ≠ [] →
        rd.route = A ++ B → FitsL D L S_EPS (A ++ [n] ++ B) →
        t ≤ cost D (A ++ [n] ++ B) - cost D rd.route) :=
  insert_one b hr h2 st n

example : do_insert_move (.data (.of_route exD (some exd) [0, 3, 1, 0]))
    (.of_route exD (some exd) [0, 2, 4, 0]) exD (some exd) (some 5) (some 6) .FIRST_ACCEPT none =
    .ok (some ([⟨[0, 0], 0, some 0⟩, ⟨[0, 1, 2, 3, 4, 0], 5, some 4⟩], -2)) := by decide +kernel
example : do_insert_move (.nodes [3, 1])
    (.of_route exD (some exd) [0, 2, 4, 0]) exD (some exd) (some 3) (some 6) .FIRST_ACCEPT none =
    .ok none := by decide +kernel
example : do_insert_move (.node 3)
    (.of_route exD (some exd) [0, 2, 4, 0]) exD (some exd) (some 3) (some 5) .BEST_ACCEPT none =
    .ok none := by decide +kernel

/-! ## C20: redistribution -/

/-- C20. If the distances satisfy the triangle inequality (or there is no bound and only one order of
insertions is tried) a successful redistribution returns an empty route and the receiving routes,
possibly in another order, with exactly the customers of the removed route inserted, within the
limits, with true records and the exact delta. What is missing to the full property is that this
holds for every matrix and bound, see `C20_duplicates`. -/
theorem C20_redistribute_partial {D : ℕ → ℕ → ℚ} {d : Option (ℕ → ℚ)} {C L : Option ℚ} {st : LSOPT}
    {bd : Option ℚ} {level : ℕ} (hl : level ≤ 3) {rd1 : RouteData} {routes : List RouteData}
    {cs : List ℕ} (hcs : rd1.route = wrap cs) (b1 : Book D d C rd1)
    (hok : ∀ rd ∈ routes, DepotEnds rd.route ∧ 2 ≤ rd.route.length ∧ Book D d C rd)
    (hyp : Triangle D ∨ (bd = none ∧ level = 0)) :
    ∃ r, do_redistribute_move rd1 routes D d C L st bd level = .ok r ∧
      ∀ rds x, r = some (rds, x) → ∃ routes' rds', rds = ⟨[0, 0], 0, some 0⟩ :: rds' ∧
        routes'.Perm routes ∧ (level ≤ 1 → routes' = routes) ∧
        Received D d C L cs routes' rds' x ∧ (∀ b, bd = some b → b ≠ 0 → x < b) := by
  have ht : rd1.route.tail.dropLast = cs := by rw [hcs]; simp [wrap]
  have hyp' : Triangle D ∨ (truthy bd = false ∧ level = 0) := by
    rcases hyp with h | ⟨rfl, h⟩
    · exact Or.inl h
    · exact Or.inr ⟨rfl, h⟩
  have h1 : DepotEnds rd1.route := by
    rw [hcs]
    exact ⟨rfl, List.getLast?_concat (l := 0 :: cs)⟩
  obtain ⟨r, e1, e2⟩ := do_redistribute_spec (L := L) (st := st) hl
    ⟨h1, by rw [hcs]; simp [wrap], b1⟩ hok hyp'
  refine ⟨r, e1, fun rds x hr => ?_⟩
  obtain ⟨cs', routes', rds', k1, k2, k3, k4, k5, k6⟩ := e2 rds x hr
  rw [ht] at k2
  refine ⟨routes', rds', k1, k3, k4, ⟨k5.1, ?_, k5.2.2⟩, k6⟩
  exact k5.2.1.trans (k2.append_right _)

example : do_redistribute_move (.of_route exD (some exd) [0, 3, 1, 0])
    [.of_route exD (some exd) [0, 2, 0], .of_route exD (some exd) [0, 4, 0]]
    exD (some exd) (some 2) (some 20) .FIRST_ACCEPT none 3 =
    .ok (some ([⟨[0, 0], 0, some 0⟩, ⟨[0, 3, 4, 0], 5, some 2⟩, ⟨[0, 1, 2, 0], 5, some 2⟩], 2)) := by
  decide +kernel

/-- Distances on a line satisfy the triangle inequality. -/
def exLine (i j : ℕ) : ℚ := |(i : ℚ) - j|

example : Triangle exLine := fun i j k => abs_sub_le (i : ℚ) j k
example : Symm exLine := fun i j => abs_sub_comm (i : ℚ) j

/-- C20. Without the triangle inequality a redistribution with a bound duplicates a customer: an
insertion that does not reach the bound is kept when the next route is tried. -/
theorem C20_duplicates : ∃ rd1 routes rds delta,
    (∀ rd ∈ rd1 :: routes, DepotEnds rd.route ∧ Book exN none none rd) ∧
    do_redistribute_move rd1 routes exN none none none .BEST_ACCEPT (some (-5)) 0
      = .ok (some (rds, delta)) ∧
    (customers rd1.route).count 2 = 1 ∧ (∀ rd ∈ routes, 2 ∉ rd.route) ∧
    ((rds.map (·.route)).flatten).count 2 = 2 := by
  refine ⟨.of_route exN none [0, 2, 0], [.of_route exN none [0, 5, 0],
    .of_route exN none [0, 3, 4, 0]], [⟨[0, 0], 0, some 0⟩, ⟨[0, 2, 5, 0], 3, some 0⟩,
    ⟨[0, 3, 2, 4, 0], 4, some 0⟩], -53, ?_, by decide +kernel, by decide +kernel, by decide +kernel,
    by decide +kernel⟩
  have hb : ∀ r, Book exN none none (.of_route exN none r) :=
    fun r => ⟨objf_eq_cost r exN, fun ⟨c, h, _⟩ => by simp at h⟩
  intro rd hrd
  simp only [List.mem_cons, List.not_mem_nil, or_false] at hrd
  rcases hrd with rfl | rfl | rfl
  · exact ⟨by decide, hb _⟩
  · exact ⟨by decide, hb _⟩
  · exact ⟨by decide, hb _⟩

/-- C20. A recombination level above three is an error. -/
theorem C20_level_error (D : ℕ → ℕ → ℚ) (rd1 : RouteData) (routes : List RouteData) (st : LSOPT)
    (bd : Option ℚ) (level : ℕ) (h : 3 < level) :
    do_redistribute_move rd1 routes D none none none st bd level = .error .nameError := by
  obtain ⟨k, rfl⟩ : ∃ k, level = k + 4 := ⟨level - 4, by omega⟩
  rfl

/-! ## C21: chain move -/

/-- C21. The chain move is sound, exact, complete and best-accept finds the best chain, among those
that leave the second and the third route within the limits. Records stay true. -/
theorem C21_chain {D : ℕ → ℕ → ℚ} {d : Option (ℕ → ℚ)} {C L : Option ℚ}
    {rd1 rd2 rd3 : RouteData} (b1 : Book D d C rd1) (b2 : Book D d C rd2) (b3 : Book D d C rd3)
    (st : LSOPT) (bd : Option ℚ) :
    ∃ r, do_chain_move rd1 rd2 rd3 D d C L st bd = .ok r ∧
      GroupOk D d C NbChain (fun rs => FitsAll D d C L 0 0 rs.tail)
        (st == .BEST_ACCEPT) (bd.getD 0) [rd1, rd2, rd3] r := by
  refine ⟨_, do_chain_eq L b1 b2 b3 st bd, ?_⟩
  rw [initDelta_eq]
  exact groupOk_of_scan (candsCh_sound b1 b2 b3) (fun rs h hf => candsCh_complete b1 rs h hf)

theorem nbChain_conserves {rs rs' : List (List ℕ)} (h : NbChain rs rs') : Conserves rs rs' := by
  obtain ⟨A, B, E, F, G, H, n, m, hA, hB, hE, hF, hG, hH, rfl, rfl⟩ := h
  refine ⟨?_, rfl, ?_⟩
  · rw [List.perm_iff_count]
    intro a
    simp only [List.flatten_cons, List.flatten_nil, List.count_append, List.count_nil]
    omega
  · intro hr
    rw [mem3, depotEnds_mid hA hB, depotEnds_mid hE hF, depotEnds_two hG hH] at hr
    rw [mem3, depotEnds_two hA hB, depotEnds_mid hE hF, depotEnds_mid hG hH]
    exact hr

/-- C21. The customers of the three routes stay, and so do the depots. -/
theorem C21_conserves {D : ℕ → ℕ → ℚ} {d : Option (ℕ → ℚ)} {C L : Option ℚ}
    {rd1 rd2 rd3 : RouteData} (b1 : Book D d C rd1) (b2 : Book D d C rd2) (b3 : Book D d C rd3)
    {st : LSOPT} {bd : Option ℚ} {rds : List RouteData} {delta : ℚ}
    (h : do_chain_move rd1 rd2 rd3 D d C L st bd = .ok (some (rds, delta))) :
    Conserves [rd1.route, rd2.route, rd3.route] (rds.map (·.route)) := by
  obtain ⟨r, h1, h2⟩ := C21_chain (L := L) b1 b2 b3 st bd
  rw [h] at h1
  cases h1
  exact nbChain_conserves h2.1

/-- C21. With the triangle inequality and no negative demands the three routes stay feasible. -/
theorem C21_feasible {D : ℕ → ℕ → ℚ} {d : Option (ℕ → ℚ)} {C L : Option ℚ}
    {rd1 rd2 rd3 : RouteData} (b1 : Book D d C rd1) (b2 : Book D d C rd2) (b3 : Book D d C rd3)
    (hD : Triangle D) (hd : NonnegDemands d)
    (hf : FitsAll D d C L C_EPS S_EPS [rd1.route, rd2.route, rd3.route]) {st : LSOPT}
    {bd : Option ℚ} {rds : List RouteData} {delta : ℚ}
    (h : do_chain_move rd1 rd2 rd3 D d C L st bd = .ok (some (rds, delta))) :
    FitsAll D d C L C_EPS S_EPS (rds.map (·.route)) := by
  have heps : (0 : ℚ) ≤ C_EPS ∧ (0 : ℚ) ≤ S_EPS := by constructor <;> norm_num [S_EPS, C_EPS]
  obtain ⟨r, h1, h2⟩ := C21_chain (L := L) b1 b2 b3 st bd
  rw [h] at h1
  cases h1
  obtain ⟨⟨A, B, E, F, G, H, n, m, hA, hB, hE, hF, hG, hH, hr, hr'⟩, h3, -⟩ := h2
  simp only [List.map_cons, List.map_nil, List.cons.injEq, and_true] at hr
  rw [hr'] at h3 ⊢
  rw [hr.1] at hf
  have weaken : ∀ r, FitsC d C 0 r ∧ FitsL D L 0 r → FitsC d C C_EPS r ∧ FitsL D L S_EPS r := by
    rintro r ⟨k1, k2⟩
    refine ⟨fun f hf c hc hc0 => ?_, fun c hc hc0 => ?_⟩
    · have := k1 f hf c hc hc0; linarith [heps.1]
    · have := k2 c hc hc0; linarith [heps.2]
  refine mem3.2 ⟨fits_remove hD hd hA hB (hf (A ++ [n] ++ B) (by simp)), weaken _ (h3 _ (by simp)),
    weaken _ (h3 _ (by simp))⟩

example : do_chain_move (.of_route exD (some exd) [0, 1, 3, 0]) (.of_route exD (some exd) [0, 4, 2, 0])
    (.of_route exD (some exd) [0, 5, 0])
    exD (some exd) (some 2) (some 20) .FIRST_ACCEPT none =
    .ok (some ([⟨[0, 3, 0], 6, some 1⟩, ⟨[0, 1, 2, 0], 5, some 2⟩, ⟨[0, 4, 5, 0], 5, some 2⟩],
      -4)) := by decide +kernel

end Verif
