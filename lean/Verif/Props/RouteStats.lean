import Verif.Lemmas.CliRuns
import Verif.Lemmas.TyagiInit
import Verif.Spec.RouteStats

/-! # C85: the table of the routes -/

namespace Verif
open Spec

/-! ## Two digits -/

theorem twoDigits_int (x : ℚ) : ∃ n : ℤ, twoDigits x = n / 100 := ⟨_, rfl⟩

theorem twoDigits_near (x : ℚ) : |x - twoDigits x| ≤ 1 / 200 := by
  have h1 := Int.floor_le (x * 100)
  have h2 := Int.lt_floor_add_one (x * 100)
  unfold twoDigits
  dsimp only
  generalize ⌊x * 100⌋ = f at *
  rw [abs_le]
  split_ifs with a b c <;> push_cast <;> constructor <;> linarith

theorem twoDigits_even {x : ℚ} (h : 1 / 200 ≤ |x - twoDigits x|) : ∃ k : ℤ, twoDigits x = (2 * k : ℤ) / 100 := by
  have h1 := Int.floor_le (x * 100)
  have h2 := Int.lt_floor_add_one (x * 100)
  unfold twoDigits at h ⊢
  dsimp only at h ⊢
  generalize ⌊x * 100⌋ = f at *
  split_ifs at h ⊢ with a b c
  · rw [abs_of_nonneg (by linarith)] at h
    linarith
  · rw [abs_of_nonpos (by push_cast; linarith)] at h
    push_cast at h
    linarith
  · exact ⟨f / 2, by rw [show 2 * (f / 2) = f by omega]⟩
  · exact ⟨(f + 1) / 2, by rw [show 2 * ((f + 1) / 2) = f + 1 by omega]⟩

theorem hundredth_apart {x : ℚ} {m n : ℤ} (h : m ≠ n) : 1 / 100 ≤ |x - (m : ℚ) / 100| + |x - n / 100| := by
  have h1 : (1 : ℚ) ≤ |(m : ℚ) - n| := by
    have : (1 : ℤ) ≤ |m - n| := Int.one_le_abs (by omega)
    exact_mod_cast this
  have h2 : |(m : ℚ) / 100 - n / 100| = |(m : ℚ) - n| / 100 := by
    rw [← sub_div, abs_div]; norm_num
  have h3 : |(m : ℚ) / 100 - n / 100| ≤ |x - (m : ℚ) / 100| + |x - n / 100| := by
    rw [abs_sub_comm x ((m : ℚ) / 100)]
    exact abs_sub_le _ _ _
  linarith

theorem twoDigits_nearest (x : ℚ) : Nearest x (twoDigits x) := by
  obtain ⟨m, hm⟩ := twoDigits_int x
  have h := twoDigits_near x
  refine ⟨⟨m, hm⟩, fun n => ?_, fun n hn ht => twoDigits_even ?_⟩
  · rw [hm] at h ⊢
    by_cases e : n = m
    · rw [e]
    · have := hundredth_apart (x := x) (Ne.symm e)
      linarith
  · have := hundredth_apart (x := x) (m := m) (n := n) (fun e => hn (by rw [hm, e]))
    rw [hm] at ht ⊢
    linarith

theorem nearest_close {x y : ℚ} (h : Nearest x y) : |x - y| ≤ 1 / 200 := by
  obtain ⟨n, hn⟩ := twoDigits_int x
  have := h.2.1 n
  rw [← hn] at this
  exact this.trans (twoDigits_near x)

theorem nearest_exact {x y : ℚ} (h : Nearest x y) (n : ℤ) (hx : x = n / 100) : y = x := by
  have := h.2.1 n
  rw [← hx, sub_self, abs_zero] at this
  have := abs_eq_zero.1 (le_antisymm this (abs_nonneg _))
  linarith

theorem nearest_sum {α : Type*} {f g : α → ℚ} {l : List α} (h : ∀ a ∈ l, Nearest (f a) (g a)) :
    |(l.map f).sum - (l.map g).sum| ≤ l.length / 200 := by
  induction l with
  | nil => simp
  | cons a t ih =>
    have h1 := nearest_close (h a (by simp))
    have h2 := ih fun b hb => h b (by simp [hb])
    simp only [List.map_cons, List.sum_cons, List.length_cons]
    push_cast
    rw [abs_le] at *
    constructor <;> linarith [h1.1, h1.2, h2.1, h2.2]

/-! ## The table -/

theorem rs_demand_wrap {d : ℕ → ℚ} (h : d 0 = 0) (b : List ℕ) : demand d (wrap b) = demand d b := by
  simp [wrap, demand, demand_append, h]

theorem rows_table (D Dc : ℕ → ℕ → ℚ) (d : ℕ → ℚ) (C : Option ℚ) {sol : List ℕ} (hs : DepotEnds sol) :
    TableOf D Dc d C sol ⟨(sol2routes sol).mapIdx fun i r => routeRow D Dc d C i r, twoDigits (objf sol Dc),
      twoDigits (objf sol D)⟩ := by
  have hrow : ∀ r ∈ (sol2routes sol).mapIdx (fun i r => routeRow D Dc d C i r), ∃ i q, r = routeRow D Dc d C i q := by
    intro r hr
    obtain ⟨i, hi, e⟩ := List.mem_mapIdx.1 hr
    exact ⟨_, _, e.symm⟩
  constructor
  · rw [← sol2routes_depotEnds sol hs]
    apply List.ext_getElem
    · simp
    · intro i h1 h2
      simp [routeRow]
  · have : (blocks sol).length = (sol2routes sol).length := by rw [sol2routes_depotEnds sol hs, List.length_map]
    rw [this]
    apply List.ext_getElem
    · simp
    · intro i h1 h2
      simp [routeRow, Nat.add_comm]
  · intro r hr
    obtain ⟨i, q, rfl⟩ := hrow r hr
    simp only [routeRow, objf_eq_cost]
    exact twoDigits_nearest _
  · intro r hr
    obtain ⟨i, q, rfl⟩ := hrow r hr
    simp only [routeRow, objf_eq_cost]
    exact twoDigits_nearest _
  · intro r hr x
    obtain ⟨i, q, rfl⟩ := hrow r hr
    rcases C with _ | c
    · simp [routeRow]
    · by_cases h : c = 0
      · simp [routeRow, h]
      · simp [routeRow, h, demand_eq_sum, eq_comm]
  · simp only [objf_eq_cost]; exact twoDigits_nearest _
  · simp only [objf_eq_cost]; exact twoDigits_nearest _

theorem tour_count {sol : List ℕ} (h : sol = tour (blocks sol)) : sol.count 0 - 1 = (blocks sol).length := by
  have := count_depots (us := blocks sol) fun u hu x hx => (mem_blocks sol u hu).2 x hx
  rw [← h] at this
  omega

/-- C85. For every solution without empty routes the table has a row for each route, with its cost, its length and
its load, the totals are those of the solution, and the number of routes printed above is the number of rows. -/
theorem C85_table {N : ℕ} {D Dc : ℕ → ℕ → ℚ} {d : ℕ → ℚ} {C L : Option ℚ} (hp : PlainData Dc d C L) {sol : List ℕ}
    (hs : DepotEnds sol) (ht : sol = tour (blocks sol)) (hN : ∀ x ∈ sol, x < N) :
    ∃ s t, print_route_statistics N sol D Dc d C L = .ok (s, t) ∧ Shows N D Dc d C L True sol s ∧
      TableOf D Dc d C sol t ∧ s.K = t.rows.length := by
  obtain ⟨s, e, h⟩ := statistics_ok (D := D) hp hs (tour_count ht) hN true
  have hT := rows_table D Dc d C hs
  refine ⟨s, _, by simp only [print_route_statistics, e], by simpa using h, hT, ?_⟩
  have := congrArg List.length hT.routes
  simp only [List.length_map] at this
  rw [h.routes, this]

/-- C85. The verdicts can be read off the rows: each customer is on exactly one of the routes shown, no load is over the
capacity, no route is longer than the limit. -/
theorem C85_verdicts {N : ℕ} {D Dc : ℕ → ℕ → ℚ} {d : ℕ → ℚ} {C L : Option ℚ} (hp : PlainData Dc d C L) {sol : List ℕ}
    (hs : DepotEnds sol) (ht : sol = tour (blocks sol)) (hN : ∀ x ∈ sol, x < N) {s : Stats} {t : RouteTable}
    (h : print_route_statistics N sol D Dc d C L = .ok (s, t)) :
    (s.served = true ↔ ((t.rows.map RouteRow.route).flatMap customers).Perm (List.range' 1 (N - 1))) ∧
    (s.capacity_ok = true ↔ ∀ r ∈ t.rows, ∀ x, r.load = some x → ∀ c, C = some c → x ≤ c + C_EPS) ∧
    (s.length_ok = true ↔ ∀ r ∈ t.rows, Within L S_EPS (cost Dc r.route)) := by
  obtain ⟨s', t', e, hS, hT, -⟩ := C85_table (D := D) hp hs ht hN
  obtain ⟨rfl, rfl⟩ : s = s' ∧ t = t' := by rw [h] at e; simpa using e
  have hb : ∀ b ∈ blocks sol, ∃ r ∈ t.rows, r.route = wrap b := by
    intro b hb
    have : wrap b ∈ t.rows.map RouteRow.route := by rw [hT.routes]; exact List.mem_map_of_mem hb
    simpa using this
  have hr : ∀ r ∈ t.rows, ∃ b ∈ blocks sol, r.route = wrap b := by
    intro r hr
    have : r.route ∈ (blocks sol).map wrap := by rw [← hT.routes]; exact List.mem_map_of_mem hr
    obtain ⟨b, h1, h2⟩ := List.mem_map.1 this
    exact ⟨b, h1, h2.symm⟩
  refine ⟨?_, ?_, ?_⟩
  · rw [hS.served, hT.routes, ← sol2routes_depotEnds sol hs, (C01_sol2routes sol hs).2]; rfl
  · rw [hS.capacity]
    constructor
    · intro hc r hr' x hx c eC
      obtain ⟨b, b1, b2⟩ := hr r hr'
      obtain ⟨rfl, c', e1, e2⟩ := (hT.load r hr' x).1 hx
      rw [b2, rs_demand_wrap hp.depot]
      rw [eC] at e1
      obtain rfl := Option.some.inj e1
      exact hc b b1 c eC e2
    · intro hc b b1 c eC hc0
      obtain ⟨r, r1, r2⟩ := hb b b1
      have := hc r r1 _ ((hT.load r r1 _).2 ⟨rfl, c, eC, hc0⟩) c eC
      rwa [r2, rs_demand_wrap hp.depot] at this
  · rw [hS.length]
    constructor
    · intro hl r hr'
      obtain ⟨b, b1, b2⟩ := hr r hr'
      rw [b2]; exact hl b b1
    · intro hl b b1
      obtain ⟨r, r1, r2⟩ := hb b b1
      rw [← r2]; exact hl r r1

theorem nearest_sum_exact {α : Type*} {f g : α → ℚ} {l : List α} (h : ∀ a ∈ l, Nearest (f a) (g a))
    (hi : ∀ a ∈ l, ∃ n : ℤ, f a = n / 100) : (l.map g).sum = (l.map f).sum := by
  congr 1
  apply List.map_congr_left
  intro a ha
  obtain ⟨n, hn⟩ := hi a ha
  exact nearest_exact (h a ha) n hn

theorem cost_digits {D : ℕ → ℕ → ℚ} (hD : ∀ i j, ∃ n : ℤ, D i j = n / 100) : ∀ l, ∃ n : ℤ, cost D l = n / 100
  | [] => ⟨0, by simp [cost]⟩
  | [a] => ⟨0, by simp [cost]⟩
  | a :: b :: t => by
    obtain ⟨n, hn⟩ := hD a b
    obtain ⟨m, hm⟩ := cost_digits hD (b :: t)
    exact ⟨n + m, by simp only [cost, hn, hm]; push_cast; ring⟩

theorem table_sum {D Dc : ℕ → ℕ → ℚ} {d : ℕ → ℚ} {C : Option ℚ} {sol : List ℕ} {t : RouteTable} (ht : sol = tour (blocks sol))
    (h : TableOf D Dc d C sol t) (E : ℕ → ℕ → ℚ) : (t.rows.map fun r => cost E r.route).sum = cost E sol := by
  have : (t.rows.map fun r => cost E r.route) = (t.rows.map RouteRow.route).map (cost E) := by simp
  rw [this, h.routes]
  conv_rhs => rw [ht, cost_tour_sum]
  simp [Function.comp_def]

/-- C85. The columns add up to the totals but for the digits that are not shown: half a hundredth for each row and for the total.
If the distances have two digits the columns add up. Missing: they need not add up else (`C85_totals_false`). -/
theorem C85_totals_partial {N : ℕ} {D Dc : ℕ → ℕ → ℚ} {d : ℕ → ℚ} {C L : Option ℚ} (hp : PlainData Dc d C L) {sol : List ℕ}
    (hs : DepotEnds sol) (ht : sol = tour (blocks sol)) (hN : ∀ x ∈ sol, x < N) {s : Stats} {t : RouteTable}
    (h : print_route_statistics N sol D Dc d C L = .ok (s, t)) :
    |(t.rows.map RouteRow.cost).sum - t.total_cost| ≤ (t.rows.length + 1) / 200 ∧
    |(t.rows.map RouteRow.length).sum - t.total_length| ≤ (t.rows.length + 1) / 200 ∧
    ((∀ i j, ∃ n : ℤ, Dc i j = n / 100) → (t.rows.map RouteRow.cost).sum = t.total_cost ∧ t.total_cost = cost Dc sol) ∧
    ((∀ i j, ∃ n : ℤ, D i j = n / 100) → (t.rows.map RouteRow.length).sum = t.total_length ∧ t.total_length = cost D sol) := by
  obtain ⟨s', t', e, hS, hT, -⟩ := C85_table (D := D) hp hs ht hN
  obtain ⟨rfl, rfl⟩ : s = s' ∧ t = t' := by rw [h] at e; simpa using e
  refine ⟨?_, ?_, fun hD => ?_, fun hD => ?_⟩
  · have h1 := nearest_sum hT.cost
    have h2 := nearest_close hT.total_cost
    rw [table_sum ht hT] at h1
    rw [abs_le] at *
    constructor <;> linarith [h1.1, h1.2, h2.1, h2.2]
  · have h1 := nearest_sum hT.length
    have h2 := nearest_close hT.total_length
    rw [table_sum ht hT] at h1
    rw [abs_le] at *
    constructor <;> linarith [h1.1, h1.2, h2.1, h2.2]
  · have h1 := nearest_sum_exact hT.cost fun r _ => cost_digits hD _
    obtain ⟨n, hn⟩ := cost_digits hD sol
    have h2 := nearest_exact hT.total_cost n hn
    exact ⟨by rw [h2, ← table_sum ht hT]; exact h1, h2⟩
  · have h1 := nearest_sum_exact hT.length fun r _ => cost_digits hD _
    obtain ⟨n, hn⟩ := cost_digits hD sol
    have h2 := nearest_exact hT.total_length n hn
    exact ⟨by rw [h2, ← table_sum ht hT]; exact h1, h2⟩

/-- C85. With a capacity the loads add up to the demand of all customers if each of them is served. -/
theorem C85_loads {N : ℕ} {D Dc : ℕ → ℕ → ℚ} {d : ℕ → ℚ} {c : ℚ} (hc : c ≠ 0) {L : Option ℚ}
    (hp : PlainData Dc d (some c) L) {sol : List ℕ} (hs : DepotEnds sol) (ht : sol = tour (blocks sol))
    (hN : ∀ x ∈ sol, x < N) {s : Stats} {t : RouteTable}
    (h : print_route_statistics N sol D Dc d (some c) L = .ok (s, t)) (hv : s.served = true) :
    ∃ ls : List ℚ, t.rows.map RouteRow.load = ls.map some ∧ ls.sum = demand d (List.range' 1 (N - 1)) := by
  obtain ⟨s', t', e, hS, hT, -⟩ := C85_table (D := D) hp hs ht hN
  obtain ⟨rfl, rfl⟩ : s = s' ∧ t = t' := by rw [h] at e; simpa using e
  refine ⟨t.rows.map fun r => demand d r.route, ?_, ?_⟩
  · rw [List.map_map]
    exact List.map_congr_left fun r hr => (hT.load r hr _).2 ⟨rfl, c, rfl, hc⟩
  · have h1 : (t.rows.map fun r => demand d r.route) = (t.rows.map RouteRow.route).map (demand d) := by simp
    rw [h1, hT.routes, List.map_map]
    have h2 : (demand d ∘ wrap) = demand d := funext fun b => rs_demand_wrap hp.depot b
    rw [h2, ← demand_flatten, demand_eq_sum, demand_eq_sum]
    have h3 : (blocks sol).flatten = customers sol := blocks_flatten sol
    rw [h3]
    exact ((hS.served.1 hv).map d).sum_eq

/-! ## Examples -/

/-- Five points on a line, a service time of half a unit. -/
def rsD : ℕ → ℕ → ℚ := fun i j => if i ≤ j then j - i else i - j
def rsDc : ℕ → ℕ → ℚ := fun i j => if i = j then 0 else rsD i j + (if i = 0 then 0 else 1 / 4) + (if j = 0 then 0 else 1 / 4)
def rsd : ℕ → ℚ := fun i => if i = 0 then 0 else 2

theorem rsPlain : PlainData rsDc rsd (some 5) (some 9) :=
  ⟨by decide +kernel, by decide +kernel, fun c h => by obtain rfl := Option.some.inj h; norm_num,
    fun c h => by obtain rfl := Option.some.inj h; norm_num⟩

example : PlainData rsDc rsd (some 5) (some 9) ∧ DepotEnds [0, 1, 2, 0, 3, 4, 0] ∧
    [0, 1, 2, 0, 3, 4, 0] = tour (blocks [0, 1, 2, 0, 3, 4, 0]) ∧ (∀ x ∈ [0, 1, 2, 0, 3, 4, 0], x < 5) ∧
    print_route_statistics 5 [0, 1, 2, 0, 3, 4, 0] rsD rsDc rsd (some 5) (some 9) =
      .ok (⟨[0, 1, 2, 0, 3, 4, 0], true, true, true, 2, some 14, some 12⟩,
        ⟨[⟨1, 5, 4, some 4, [0, 1, 2, 0]⟩, ⟨2, 9, 8, some 4, [0, 3, 4, 0]⟩], 14, 12⟩) :=
  ⟨rsPlain, by decide, by decide, by decide, by decide +kernel⟩

/-- C85 fails for the totals: each row shows 0.67 and the total of three rows is 2.00. -/
theorem C85_totals_false : ∃ (D : ℕ → ℕ → ℚ) (sol : List ℕ) (s : Stats) (t : RouteTable),
    PlainData D (fun _ => 0) none none ∧ DepotEnds sol ∧ sol = tour (blocks sol) ∧ (∀ x ∈ sol, x < 4) ∧
    print_route_statistics 4 sol D D (fun _ => 0) none none = .ok (s, t) ∧ (t.rows.map RouteRow.cost).sum ≠ t.total_cost :=
  ⟨fun i j => if i = j then 0 else 1 / 3, [0, 1, 0, 2, 0, 3, 0], ⟨[0, 1, 0, 2, 0, 3, 0], true, true, true, 3, none, some 2⟩,
    ⟨[⟨1, 67 / 100, 67 / 100, none, [0, 1, 0]⟩, ⟨2, 67 / 100, 67 / 100, none, [0, 2, 0]⟩,
      ⟨3, 67 / 100, 67 / 100, none, [0, 3, 0]⟩], 2, 2⟩,
    ⟨by decide +kernel, rfl, by simp, by simp⟩, by decide, by decide, by decide, by decide +kernel, by decide +kernel⟩

/-- C85 fails for a depot with a demand: it is counted twice in each load, but not in the verdict. The load shown
is over the capacity and the capacity is said to be kept. -/
theorem C85_depot_false : ∃ (D : ℕ → ℕ → ℚ) (d : ℕ → ℚ) (c : ℚ) (s : Stats) (t : RouteTable),
    print_route_statistics 2 [0, 1, 0] D D d (some c) none = .ok (s, t) ∧ s.capacity_ok = true ∧
      ∃ r ∈ t.rows, ∃ x, r.load = some x ∧ c + C_EPS < x :=
  ⟨fun i j => if i = j then 0 else 1, fun _ => 1, 2, ⟨[0, 1, 0], true, true, true, 1, none, some 2⟩,
    ⟨[⟨1, 2, 2, some 3, [0, 1, 0]⟩], 2, 2⟩, by decide +kernel, rfl, _, List.mem_singleton_self _, 3, rfl, by decide +kernel⟩

/-- C85 fails for empty routes: they are counted above the table and have no row. -/
theorem C85_empty_false : ∃ (D : ℕ → ℕ → ℚ) (sol : List ℕ) (s : Stats) (t : RouteTable),
    PlainData D (fun _ => 0) none none ∧ DepotEnds sol ∧ (∀ x ∈ sol, x < 3) ∧
    print_route_statistics 3 sol D D (fun _ => 0) none none = .ok (s, t) ∧ s.K ≠ t.rows.length :=
  ⟨fun i j => if i = j then 0 else 1, [0, 1, 0, 0, 2, 0], ⟨[0, 1, 0, 0, 2, 0], true, true, true, 3, none, some 4⟩,
    ⟨[⟨1, 2, 2, none, [0, 1, 0]⟩, ⟨2, 2, 2, none, [0, 2, 0]⟩], 4, 4⟩,
    ⟨by decide +kernel, rfl, by simp, by simp⟩, by decide, by decide, by decide +kernel, by decide⟩

end Verif
