import Verif.Lemmas.Cmt
import Verif.Props.Util
import Verif.Props.Rfcs
import Mathlib.Logic.Relation
import Mathlib.Tactic.IntervalCases

/-! # C38 and C42: the two phase heuristic of Christofides, Mingozzi and Toth -/

namespace Verif
open Spec

theorem cmtOneInit_inv {N : ℕ} (D : ℕ → ℕ → ℚ) (d : ℕ → ℚ) (C L : Option ℚ) (P : Prop) {order : List ℕ}
    (ho : order.Perm (List.range' 1 (N - 1))) : CmtOneInv N D d C L P [] ⟨order, [], [], 0⟩ :=
  ⟨rfl, by simpa using ho, rfl, by simp, by simp, rfl, by simp, by simp⟩

theorem blocks_tour_perm {N : ℕ} {us : List (List ℕ)} (hp : us.flatten.Perm (List.range' 1 (N - 1)))
    (hne : ∀ u ∈ us, u ≠ []) : blocks (tour us) = us := by
  refine blocks_tour_of_routes us fun u hu => ⟨hne u hu, fun x hx => ?_⟩
  have := hp.mem_iff.1 (List.mem_flatten.2 ⟨u, hu, hx⟩)
  rw [List.mem_range'_1] at this
  omega

theorem phase_one_general {N : ℕ} (D : ℕ → ℕ → ℚ) (d : ℕ → ℚ) (C L : Option ℚ) {tsp : CmtTsp}
    (ht : TspRoutine D tsp) (lam : ℚ) {m : CmtSeed} (hm : m ≠ .other) {order : List ℕ}
    (ho : order.Perm (List.range' 1 (N - 1))) :
    ∃ seeds sol, Solves N D d none none sol ∧ (NoWorse D tsp → Solves N D d C L sol) ∧ seeds.Nodup ∧
      (∀ k ∈ seeds, 1 ≤ k ∧ k < N) ∧ seeds.length = (blocks sol).length ∧
      ∀ fuel > order.length, cmt_phase_one D d C L tsp lam m order fuel = .ok (some (seeds, sol, cost D sol)) := by
  obtain ⟨us, s, h1, h2, h3⟩ := cmtOneLoop_spec (P := Serviceable N D d C L ∧ NoWorse D tsp) ht (fun h => h.1)
    (fun h => h.2) lam hm (cmtOneInit_inv D d C L _ ho)
  have hp : us.flatten.Perm (List.range' 1 (N - 1)) := by have := h2.perm; rwa [h1, List.append_nil] at this
  refine ⟨s.seeds, tour us, ?_, fun hw => ?_, h2.nodup, fun k hk => ?_, ?_, fun fuel hf => ?_⟩
  · exact solves_good hp fun u hu => ⟨h2.ne u hu, fun _ =>
      ⟨fun c (hc : none = some c) => (by cases hc), fun c (hc : none = some c) => (by cases hc)⟩⟩
  · exact solves_good hp fun u hu => ⟨h2.ne u hu, fun hs => h2.ok ⟨hs, hw⟩ u hu⟩
  · have := hp.mem_iff.1 (h2.sub k hk)
    rw [List.mem_range'_1] at this
    omega
  · rw [blocks_tour_perm hp h2.ne]; exact h2.len
  · unfold cmt_phase_one
    rw [h3 fuel hf]
    simp only
    rw [h2.sol, h2.total, cmt_tour_flatMap, cost_tour_sum]

/-- **C38**: the first phase of the two phase heuristic, with any routine that gives a closed tour over its
nodes with its true cost, no worse than the order it is given, any rule for the seeds, any order of the
customers and any multiplier: it ends with a complete solution that keeps the limits if every customer alone
does, and its cost. There is one seed for each route and no seed twice. -/
theorem C38_phase_one {N : ℕ} (D : ℕ → ℕ → ℚ) (d : ℕ → ℚ) (C L : Option ℚ) {tsp : CmtTsp}
    (ht : TspRoutine D tsp) (hw : NoWorse D tsp) (lam : ℚ) {m : CmtSeed} (hm : m ≠ .other) {order : List ℕ}
    (ho : order.Perm (List.range' 1 (N - 1))) :
    ∃ seeds sol, Solves N D d C L sol ∧ seeds.Nodup ∧ (∀ k ∈ seeds, 1 ≤ k ∧ k < N) ∧
      seeds.length = (blocks sol).length ∧
      ∀ fuel > order.length, cmt_phase_one D d C L tsp lam m order fuel = .ok (some (seeds, sol, cost D sol)) := by
  obtain ⟨seeds, sol, _, h2, h3, h4, h5, h6⟩ := phase_one_general D d C L ht lam hm ho
  exact ⟨seeds, sol, h2 hw, h3, h4, h5, h6⟩

/-- **C38**: with a routine that may be worse than the order it is given the solution is still complete. -/
theorem C38_complete {N : ℕ} (D : ℕ → ℕ → ℚ) (d : ℕ → ℚ) (C L : Option ℚ) {tsp : CmtTsp}
    (ht : TspRoutine D tsp) (lam : ℚ) {m : CmtSeed} (hm : m ≠ .other) {order : List ℕ}
    (ho : order.Perm (List.range' 1 (N - 1))) :
    ∃ seeds sol, DepotEnds sol ∧ Covers N sol ∧ squeeze sol = sol ∧
      ∀ fuel > order.length, cmt_phase_one D d C L tsp lam m order fuel = .ok (some (seeds, sol, cost D sol)) := by
  obtain ⟨seeds, sol, h1, _, _, _, _, h6⟩ := phase_one_general D d C L ht lam hm ho
  exact ⟨seeds, sol, h1.ends, h1.covers, h1.noEmpty, h6⟩

/-- An instance on a line. -/
def cmtLine (i j : ℕ) : ℚ := if i ≤ j then ((j - i : ℕ) : ℚ) else ((i - j : ℕ) : ℚ)

/-- A routine that turns the nodes round in pairs: it gives closed tours and true costs. -/
def cmtWorst (r : List ℕ) : List ℕ × ℚ :=
  match r with
  | [0, a, b, c] => (wrap [b, a, c], cost cmtLine (wrap [b, a, c]))
  | _ => (r ++ [0], cost cmtLine (r ++ [0]))

theorem cmtWorst_ok : TspRoutine cmtLine cmtWorst := by
  intro t h1 h2
  unfold cmtWorst
  split
  · rename_i a b c e
    injection e with _ e
    subst e
    exact ⟨[b, a, c], List.Perm.swap _ _ _, rfl⟩
  · exact ⟨t, List.Perm.refl _, rfl⟩

/-- **C38 needs a routine that is no worse**: the limit is not tested after the last call of the routine. -/
theorem C38_worse_false :
    TspRoutine cmtLine cmtWorst ∧ Serviceable 4 cmtLine (fun _ => 1) none (some 6) ∧
    cmt_phase_one cmtLine (fun _ => 1) none (some 6) cmtWorst 2 .closest [1, 2, 3] 5 =
      .ok (some ([1], [0, 2, 1, 3, 0], 8)) ∧
    ¬ Feasible cmtLine (fun _ => 1) none (some 6) [0, 2, 1, 3, 0] := by
  refine ⟨cmtWorst_ok, ?_, by decide +kernel, ?_⟩
  · intro i h1 h2
    refine ⟨fun c hc => (by cases hc), ?_⟩
    rw [← exceeds_iff]
    interval_cases i <;> decide +kernel
  · intro h
    have := (h [2, 1, 3] (by decide)).2
    rw [← exceeds_iff] at this
    revert this
    decide +kernel

/-! ## Interrupts of the first phase -/

/-- The state is reached by rounds of the first phase. -/
def CmtOneReach (D : ℕ → ℕ → ℚ) (d : ℕ → ℚ) (C L : Option ℚ) (tsp : CmtTsp) (lam : ℚ) (m : CmtSeed)
    (a b : CmtOne) : Prop :=
  Relation.ReflTransGen (fun x y => x.unrouted ≠ [] ∧ cmtOneStep D d C L tsp lam m x = .ok y) a b

theorem singles_tour (xs : List ℕ) (hz : ∀ x ∈ xs, x ≠ 0) :
    (xs.map fun n => [n]).foldl routes2sol_step [0] = tour (xs.map fun n => [n]) := by
  have := singles_fold xs hz []
  simpa [tour] using this

theorem flatten_singles (xs : List ℕ) : (xs.map fun n => [n]).flatten = xs := by
  induction xs with
  | nil => rfl
  | cons x t ih => simp [ih]

/-- A solution that lacks some customers, completed by routes with one customer each. -/
theorem completed_solves {N : ℕ} {D : ℕ → ℕ → ℚ} {d : ℕ → ℚ} {C L : Option ℚ} {us : List (List ℕ)} {un : List ℕ}
    (hp : (us.flatten ++ un).Perm (List.range' 1 (N - 1))) (h : ∀ u ∈ us, NNGood N D d C L u) {rs : List ℕ}
    (hrs : ∀ x, x ≠ 0 → (x ∈ rs ↔ x ∈ us.flatten)) :
    Solves N D d C L ((us.flatMap fun u => 0 :: u) ++
      ((un.filter fun n => ! decide (n ∈ rs)).map fun n => [n]).foldl routes2sol_step [0]) := by
  have hnd : (us.flatten ++ un).Nodup := hp.nodup_iff.2 List.nodup_range'
  obtain ⟨_, n2, n3⟩ := List.nodup_append.1 hnd
  have hrng : ∀ x ∈ un, 1 ≤ x ∧ x < N := by
    intro x hx
    have := hp.mem_iff.1 (List.mem_append.2 (.inr hx))
    rw [List.mem_range'_1] at this
    omega
  have hf : un.filter (fun n => ! decide (n ∈ rs)) = un := by
    rw [List.filter_eq_self]
    intro x hx
    have h1 := hrng x hx
    simp only [Bool.not_eq_true', decide_eq_false_iff_not]
    rw [hrs x (by omega)]
    exact fun hh => n3 x hh x hx rfl
  rw [hf, singles_tour un (fun x hx => by have := hrng x hx; omega)]
  have e : (us.flatMap fun u => 0 :: u) ++ tour (un.map fun n => [n]) = tour (us ++ un.map fun n => [n]) := by
    rw [← cmt_tour_flatMap, ← cmt_tour_flatMap, List.flatMap_append, List.append_assoc]
  rw [e]
  refine solves_good ?_ ?_
  · rw [List.flatten_append, flatten_singles]; exact hp
  · intro u hu
    rcases List.mem_append.1 hu with hu | hu
    · exact h u hu
    · obtain ⟨x, hx, rfl⟩ := List.mem_map.1 hu
      have := hrng x hx
      exact ⟨by simp, fun hs => hs x this.1 this.2⟩

/-- **C38**: an interrupt before a seed is removed hands out a complete solution that keeps the limits. -/
theorem C38_interrupted {N : ℕ} (D : ℕ → ℕ → ℚ) (d : ℕ → ℚ) (C L : Option ℚ) {tsp : CmtTsp}
    (ht : TspRoutine D tsp) (hw : NoWorse D tsp) (lam : ℚ) {m : CmtSeed} (hm : m ≠ .other) {order : List ℕ}
    (ho : order.Perm (List.range' 1 (N - 1))) {s : CmtOne}
    (hr : CmtOneReach D d C L tsp lam m ⟨order, [], [], 0⟩ s) :
    Solves N D d C L (cmtOneInterrupted s.sol s.unrouted) := by
  have : ∃ us, CmtOneInv N D d C L (Serviceable N D d C L) us s := by
    induction hr with
    | refl => exact ⟨[], cmtOneInit_inv D d C L _ ho⟩
    | tail _ hs ih =>
      obtain ⟨us, ih⟩ := ih
      obtain ⟨u, s', g1, g2, _⟩ := cmtOneStep_spec ht (fun h => h) (fun _ => hw) lam hm ih hs.1
      rw [g1] at hs
      have e := hs.2
      injection e with e
      exact ⟨_, e ▸ g2⟩
  obtain ⟨us, h⟩ := this
  unfold cmtOneInterrupted
  rw [h.sol]
  refine completed_solves h.perm (fun u hu => ⟨h.ne u hu, fun hs => h.ok hs u hu⟩) fun x hx => ?_
  rw [List.mem_flatMap, List.mem_flatten]
  constructor
  · rintro ⟨u, hu, h1⟩
    rcases List.mem_cons.1 h1 with h1 | h1
    · exact absurd h1 hx
    · exact ⟨u, hu, h1⟩
  · rintro ⟨u, hu, h1⟩
    exact ⟨u, hu, List.mem_cons_of_mem _ h1⟩

/-- **C38**: an interrupt at any other time loses the customers of the route that is being built: the solution
is the one without them. -/
theorem C38_interrupted_false :
    cmtSeed cmtLine (fun _ => 1) .farthest [1, 2, 3] = .ok 3 ∧ cmtRemove [1, 2, 3] 3 = .ok [1, 2] ∧
      cmtOneInterrupted [] [1, 2] = [0, 1, 0, 2, 0] := by
  decide +kernel

/-! ## C42: the second phase -/

/-- **C42** (the second phase): for any seeds (distinct customers, at least one), any order of the customers,
any shuffles, any multiplier and both ways of choosing the route, it ends; it fails, or gives a complete
solution with its cost that keeps the limits if every customer alone does, with one route for each seed. -/
theorem C42_phase_two {N : ℕ} (D : ℕ → ℕ → ℚ) (d : ℕ → ℚ) (C L : Option ℚ) {tsp : CmtTsp}
    (ht : TspRoutine D tsp) (hw : NoWorse D tsp) {p : CmtParams} (hs : p.ShuffleOk) (hK : p.seeds ≠ [])
    (hd : p.seeds.Nodup) (hr : ∀ k ∈ p.seeds, 1 ≤ k ∧ k < N) {order : List ℕ}
    (ho : order.Perm (List.range' 1 (N - 1))) :
    ∃ F, (∀ fuel ≥ F, cmt_phase_two D d C L tsp p order fuel = .ok (some none)) ∨
      ∃ sol, Solves N D d C L sol ∧ (blocks sol).length = p.seeds.length ∧
        ∀ fuel ≥ F, cmt_phase_two D d C L tsp p order fuel = .ok (some (some (sol, cost D sol))) := by
  obtain ⟨s, h1, F, h2⟩ := cmtTwoLoop_spec (P := Serviceable N D d C L) (C := C) (L := L) ht hs hK
    (cmtTwoInit_inv (fun h => h) hd hr ho)
  by_cases hu : s.unrouted = []
  · have hp : (cmtCusts s.routes).Perm (List.range' 1 (N - 1)) := by
      have := h1.perm; rwa [hu, List.append_nil] at this
    obtain ⟨us, e1, e2, e3, e4⟩ := cmtSolution_spec (N := N) ht (fun _ => hw) h1.routes
      (hp.nodup_iff.2 List.nodup_range') (fun x hx => by
        have := hp.mem_iff.1 hx
        rw [List.mem_range'_1] at this
        omega)
    refine ⟨F, .inr ⟨tour us, solves_good (e2.trans hp) e4, ?_, fun fuel hf => ?_⟩⟩
    · rw [blocks_tour_perm (e2.trans hp) fun u hu => (e4 u hu).1, e3, h1.len]
    · unfold cmt_phase_two
      rw [h2 fuel hf]
      simp only
      rw [if_neg (by simpa using hu), e1]
  · refine ⟨F, .inl fun fuel hf => ?_⟩
    unfold cmt_phase_two
    rw [h2 fuel hf]
    simp only
    rw [if_pos hu]

/-- The state is reached by rounds of the second phase. -/
def CmtTwoReach (D : ℕ → ℕ → ℚ) (d : ℕ → ℚ) (C L : Option ℚ) (tsp : CmtTsp) (p : CmtParams)
    (a b : CmtTwo) : Prop :=
  Relation.ReflTransGen (fun x y => ∃ z, cmtRefill p x = some z ∧ cmtTwoStep D d C L tsp p z = .ok y) a b

/-- **C42**: an interrupt before a customer is inserted in a route hands out a complete solution that keeps
the limits. -/
theorem C42_interrupted_partial {N : ℕ} (D : ℕ → ℕ → ℚ) (d : ℕ → ℚ) (C L : Option ℚ) {tsp : CmtTsp}
    (ht : TspRoutine D tsp) (hw : NoWorse D tsp) {p : CmtParams} (hs : p.ShuffleOk) (hK : p.seeds ≠ [])
    (hd : p.seeds.Nodup) (hr : ∀ k ∈ p.seeds, 1 ≤ k ∧ k < N) {order : List ℕ}
    (ho : order.Perm (List.range' 1 (N - 1))) {s : CmtTwo}
    (hreach : CmtTwoReach D d C L tsp p (cmtTwoInit D d C p order) s) :
    Solves N D d C L (cmtTwoInterrupted tsp s) := by
  have h : CmtTwoInv N p.seeds.length D d C L (Serviceable N D d C L) s := by
    induction hreach with
    | refl => exact cmtTwoInit_inv (fun h => h) hd hr ho
    | tail _ hst ih =>
      obtain ⟨z, h1, h2⟩ := hst
      obtain ⟨g1, g2, _⟩ := cmtRefill_spec hs hK ih h1
      obtain ⟨s', k1, k2, _⟩ := cmtTwoStep_spec ht (p := p) g1 g2
      rw [k1] at h2
      injection h2 with h2
      exact h2 ▸ k2
  have hnd : (cmtCusts s.routes ++ s.unrouted).Nodup := h.perm.nodup_iff.2 List.nodup_range'
  obtain ⟨us, e1, e2, _, e4⟩ := cmtSolution_spec (N := N) ht (fun _ => hw) h.routes (List.nodup_append.1 hnd).1
    (fun x hx => by
      have := h.perm.mem_iff.1 (List.mem_append.2 (.inl hx))
      rw [List.mem_range'_1] at this
      omega)
  unfold cmtTwoInterrupted
  simp only
  rw [e1]
  simp only
  rw [show (tour us).dropLast = us.flatMap fun u => 0 :: u by rw [← cmt_tour_flatMap, List.dropLast_concat]]
  refine completed_solves ((e2.append_right _).trans h.perm) e4 fun x hx => ?_
  rw [mem_tour]
  exact ⟨fun hh => hh.resolve_left hx, .inr⟩

/-! ## The heuristic -/

/-- What the shuffles may give. -/
structure CmtLuck.Ok (N : ℕ) (l : CmtLuck) : Prop where
  order1 : l.order1.Perm (List.range' 1 (N - 1))
  order2 : l.order2.Perm (List.range' 1 (N - 1))
  shuffle : ∀ s : CmtTwo, (l.shuffle s).Perm (List.range s.routes.length)

/-- The cost and the number of routes of a solution. -/
def rank (D : ℕ → ℕ → ℚ) (sol : List ℕ) : ℚ × ℚ := (cost D sol, ((blocks sol).length : ℚ))

/-- An attempt went well: its solutions are complete, keep the limits, and are recorded with their cost. -/
structure AttemptOk (N : ℕ) (D : ℕ → ℕ → ℚ) (d : ℕ → ℚ) (C L : Option ℚ) (t : CmtAttempt) : Prop where
  one : Solves N D d C L t.sol1
  rank1 : (t.f1, (t.K1 : ℚ)) = rank D t.sol1
  two : ∀ s f, t.second = some (s, f) → Solves N D d C L s ∧ (f, (t.K1 : ℚ)) = rank D s

theorem cmtAttempt_spec {N : ℕ} (hN : 2 ≤ N) {a : CmtArgs} (ht : TspRoutine a.D a.tsp) (hw : NoWorse a.D a.tsp)
    (hm : a.seed ≠ .other) {l : CmtLuck} (hl : l.Ok N) :
    ∃ t, AttemptOk N a.D a.d a.C a.L t ∧ ∃ F, ∀ fuel ≥ F, cmtAttempt a l fuel = .ok (some t) := by
  obtain ⟨seeds, sol, h1, h2, h3, h4, h5⟩ := C38_phase_one a.D a.d a.C a.L ht hw a.lam hm hl.order1
  have hne : seeds ≠ [] := by
    intro e
    rw [e] at h4
    have h0 : blocks sol = [] := List.length_eq_zero_iff.1 h4.symm
    rw [blocks_eq_nil_iff] at h0
    have : customers sol = [] := by
      unfold customers
      rw [List.filter_eq_nil_iff]
      intro x hx
      simp [h0 x hx]
    have hc := h1.covers
    rw [Covers, this] at hc
    have := hc.length_eq
    simp at this
    omega
  obtain ⟨F, hF⟩ := C42_phase_two a.D a.d a.C a.L ht hw
    (p := ⟨seeds, a.mu, a.most, cmtRep a.rep seeds.length, l.shuffle, l.partition⟩)
    (fun s hs => by have := hl.shuffle s; rw [hs] at this; exact this) hne h2 h3 hl.order2
  have hr1 : (cost a.D sol, (seeds.length : ℚ)) = rank a.D sol := by rw [rank, h4]
  rcases hF with hF | ⟨sol2, g1, g2, g3⟩
  · refine ⟨⟨sol, cost a.D sol, seeds.length, none⟩, ⟨h1, hr1, by simp⟩, max F (l.order1.length + 1), fun fuel hf => ?_⟩
    unfold cmtAttempt
    rw [h5 fuel (by have := le_max_right F (l.order1.length + 1); omega)]
    simp only
    rw [hF fuel (by have := le_max_left F (l.order1.length + 1); omega)]
  · refine ⟨⟨sol, cost a.D sol, seeds.length, some (sol2, cost a.D sol2)⟩, ⟨h1, hr1, fun s f e => ?_⟩,
      max F (l.order1.length + 1), fun fuel hf => ?_⟩
    · simp only [Option.some.injEq, Prod.mk.injEq] at e
      obtain ⟨rfl, rfl⟩ := e
      exact ⟨g1, by rw [rank, g2]⟩
    unfold cmtAttempt
    rw [h5 fuel (by have := le_max_right F (l.order1.length + 1); omega)]
    simp only
    rw [g3 fuel (by have := le_max_left F (l.order1.length + 1); omega)]

/-- The solution is recorded as the best one. -/
def CmtBest.Is (D : ℕ → ℕ → ℚ) (sol : List ℕ) (b : CmtBest) : Prop :=
  b = ⟨some sol, some (rank D sol).1, some (rank D sol).2⟩

/-- One of the solutions of an attempt. -/
def CmtAttempt.Has (t : CmtAttempt) (s : List ℕ) : Prop := s = t.sol1 ∨ ∃ f, t.second = some (s, f)

theorem better_neg_trans (m : Bool) {a b c : ℚ × ℚ} (h1 : ¬ Better m a b) (h2 : ¬ Better m b c) : ¬ Better m a c := by
  cases m
  · simp [Better] at *; exact h2.trans h1
  · simp only [Better, if_true, not_or, not_lt, not_and] at *
    refine ⟨h2.1.trans h1.1, fun e => ?_⟩
    have e1 : a.2 = b.2 := le_antisymm (e ▸ h2.1) h1.1
    have e2 : b.2 = c.2 := e1.symm.trans e
    exact (h2.2 e2).trans (h1.2 e1)

theorem cmtPick_spec {N : ℕ} {D : ℕ → ℕ → ℚ} {d : ℕ → ℚ} {C L : Option ℚ} (mk : Bool) {t : CmtAttempt}
    (h : AttemptOk N D d C L t) {b : CmtBest} {o : Option (List ℕ)}
    (hb : b = match o with | none => ⟨none, none, none⟩ | some s => ⟨some s, some (rank D s).1, some (rank D s).2⟩) :
    ∃ s, CmtBest.Is D s (cmtPick mk t b) ∧ (t.Has s ∨ o = some s) ∧ (∀ s', t.Has s' → ¬ Better mk (rank D s') (rank D s)) ∧
      ∀ s', o = some s' → ¬ Better mk (rank D s') (rank D s) := by
  have key : ∀ f K, is_better_sol b.f b.K (some f) (some K) mk = true ↔ ∀ s, o = some s → Better mk (f, K) (rank D s) := by
    intro f K
    cases o with
    | none => subst hb; simp [is_better_sol]
    | some s => subst hb; simp only [C04_decides]; simp [rank]
  have asym : ∀ {x y : ℚ × ℚ}, Better mk x y → ¬ Better mk y x := fun h1 h2 => better_irrefl mk _ (better_trans mk h1 h2)
  have keep : ∀ {s1 : List ℕ}, (∀ s, o = some s → Better mk (rank D s1) (rank D s)) →
      ∀ s', o = some s' → ¬ Better mk (rank D s') (rank D s1) := fun hh s' e => asym (hh s' e)
  cases h2 : t.second with
  | none =>
    have hall : ∀ s', t.Has s' → s' = t.sol1 := by
      rintro s' (rfl | ⟨f, e⟩)
      · rfl
      · rw [h2] at e; cases e
    have hp1 : is_better_sol (t.second.map (·.2)) (some (if t.second.isSome then (t.K1 : ℚ) else 0)) (some t.f1)
        (some (t.K1 : ℚ)) mk = true := by rw [h2]; rfl
    unfold cmtPick
    simp only
    rw [hp1]
    simp only [Bool.true_and, Bool.not_true, Bool.false_and, Bool.false_eq_true, if_false]
    by_cases hb1 : is_better_sol b.f b.K (some t.f1) (some (t.K1 : ℚ)) mk = true
    · rw [if_pos hb1]
      refine ⟨t.sol1, ?_, .inl (.inl rfl), fun s' hs' => ?_, ?_⟩
      · unfold CmtBest.Is; rw [← h.rank1]
      · rw [hall s' hs']; exact better_irrefl _ _
      · rw [key, h.rank1] at hb1
        exact keep hb1
    · rw [if_neg hb1]
      rw [key] at hb1
      push Not at hb1
      obtain ⟨s, hs, hb1⟩ := hb1
      rw [h.rank1] at hb1
      refine ⟨s, ?_, .inr hs, fun s' hs' => by rw [hall s' hs']; exact hb1, fun s' hs' => ?_⟩
      · unfold CmtBest.Is; rw [hb, hs]
      · rw [hs] at hs'; injection hs' with e; rw [e]; exact better_irrefl _ _
  | some p =>
    obtain ⟨s2, f2⟩ := p
    obtain ⟨_, hr2⟩ := h.two s2 f2 h2
    have hall : ∀ s', t.Has s' → s' = t.sol1 ∨ s' = s2 := by
      rintro s' (rfl | ⟨f, e⟩)
      · exact .inl rfl
      · rw [h2] at e
        simp only [Option.some.injEq, Prod.mk.injEq] at e
        exact .inr e.1.symm
    unfold cmtPick
    simp only [h2, Option.map_some, Option.isSome_some, if_true]
    by_cases hp1 : is_better_sol (some f2) (some (t.K1 : ℚ)) (some t.f1) (some (t.K1 : ℚ)) mk = true
    · have hp1' := (C04_decides _ _ _ _ _).1 hp1
      rw [h.rank1, hr2] at hp1'
      rw [hp1]
      simp only [Bool.true_and, Bool.not_true, Bool.false_and, Bool.false_eq_true, if_false]
      by_cases hb1 : is_better_sol b.f b.K (some t.f1) (some (t.K1 : ℚ)) mk = true
      · rw [if_pos hb1]
        refine ⟨t.sol1, ?_, .inl (.inl rfl), fun s' hs' => ?_, ?_⟩
        · unfold CmtBest.Is; rw [← h.rank1]
        · rcases hall s' hs' with rfl | rfl
          · exact better_irrefl _ _
          · exact asym hp1'
        · rw [key, h.rank1] at hb1
          exact keep hb1
      · rw [if_neg hb1]
        rw [key] at hb1
        push Not at hb1
        obtain ⟨s, hs, hb1⟩ := hb1
        rw [h.rank1] at hb1
        refine ⟨s, ?_, .inr hs, fun s' hs' => ?_, fun s' hs' => ?_⟩
        · unfold CmtBest.Is; rw [hb, hs]
        · rcases hall s' hs' with rfl | rfl
          · exact hb1
          · exact better_neg_trans mk (asym hp1') hb1
        · rw [hs] at hs'; injection hs' with e; rw [e]; exact better_irrefl _ _
    · have hp1' : ¬ Better mk (rank D t.sol1) (rank D s2) := by
        rw [← h.rank1, ← hr2, ← C04_decides]; exact hp1
      have hp1f : is_better_sol (some f2) (some (t.K1 : ℚ)) (some t.f1) (some (t.K1 : ℚ)) mk = false := by simpa using hp1
      rw [hp1f]
      simp only [Bool.false_and, Bool.false_eq_true, if_false, Bool.not_false, Bool.true_and]
      by_cases hb1 : is_better_sol b.f b.K (some f2) (some (t.K1 : ℚ)) mk = true
      · rw [if_pos hb1]
        refine ⟨s2, ?_, .inl (.inr ⟨f2, h2⟩), fun s' hs' => ?_, ?_⟩
        · unfold CmtBest.Is; rw [← hr2]
        · rcases hall s' hs' with rfl | rfl
          · exact hp1'
          · exact better_irrefl _ _
        · rw [key, hr2] at hb1
          exact keep hb1
      · rw [if_neg hb1]
        rw [key] at hb1
        push Not at hb1
        obtain ⟨s, hs, hb1⟩ := hb1
        rw [hr2] at hb1
        refine ⟨s, ?_, .inr hs, fun s' hs' => ?_, fun s' hs' => ?_⟩
        · unfold CmtBest.Is; rw [hb, hs]
        · rcases hall s' hs' with rfl | rfl
          · exact better_neg_trans mk hp1' hb1
          · exact hb1
        · rw [hs] at hs'; injection hs' with e; rw [e]; exact better_irrefl _ _

theorem attempt_solves {N : ℕ} {D : ℕ → ℕ → ℚ} {d : ℕ → ℚ} {C L : Option ℚ} {t : CmtAttempt}
    (h : AttemptOk N D d C L t) {s : List ℕ} (hs : t.Has s) : Solves N D d C L s := by
  rcases hs with rfl | ⟨f, e⟩
  · exact h.one
  · exact (h.two s f e).1

/-- **C42**: the heuristic without retries ends with the better one of the solutions of the two phases; it is
complete and keeps the limits if every customer alone does. -/
theorem C42_init {N : ℕ} (hN : 2 ≤ N) {a : CmtArgs} (ht : TspRoutine a.D a.tsp) (hw : NoWorse a.D a.tsp)
    (hm : a.seed ≠ .other) (luck : ℕ → CmtLuck) :
    ∃ (t : CmtAttempt) (sol : List ℕ), Solves N a.D a.d a.C a.L sol ∧ t.Has sol ∧
      (∀ s, t.Has s → ¬ Better a.minimize_K (rank a.D s) (rank a.D sol)) ∧
      ∃ F, ∀ fuel ≥ F, cmtAttempt a ⟨pyRange 1 N, pyRange 1 N, fun s => List.range s.routes.length, (luck 0).partition⟩
          fuel = .ok (some t) ∧ cmt_2phase_init a N none luck fuel = .ok (some (some sol)) := by
  obtain ⟨t, h1, F, h2⟩ := cmtAttempt_spec hN ht hw hm
    (l := ⟨pyRange 1 N, pyRange 1 N, fun s => List.range s.routes.length, (luck 0).partition⟩)
    ⟨List.Perm.refl _, List.Perm.refl _, fun s => List.Perm.refl _⟩
  obtain ⟨s, g1, g2, g3, _⟩ := cmtPick_spec a.minimize_K h1 (b := ⟨none, none, none⟩) (o := none) rfl
  have g2 := g2.resolve_right (by simp)
  refine ⟨t, s, attempt_solves h1 g2, g2, g3, F, fun fuel hf => ⟨h2 fuel hf, ?_⟩⟩
  unfold cmt_2phase_init
  simp only
  rw [h2 fuel hf]
  simp only
  rw [g1]

theorem cmtRetry_spec {N : ℕ} {a : CmtArgs} {luck : ℕ → CmtLuck} {fuel : ℕ} {t : ℕ → CmtAttempt} {r : ℕ}
    (h : ∀ j < r, AttemptOk N a.D a.d a.C a.L (t j) ∧ cmtAttempt a (luck j) fuel = .ok (some (t j)))
    {b : CmtBest} {o : Option (List ℕ)}
    (hb : b = match o with | none => ⟨none, none, none⟩ | some s => ⟨some s, some (rank a.D s).1, some (rank a.D s).2⟩)
    (hr : o ≠ none ∨ r ≠ 0) :
    ∃ s b' stop, cmtRetry a luck fuel r b = .ok (some b') ∧ CmtBest.Is a.D s b' ∧ stop ≤ r ∧
      (stop = 0 ∨ (t stop).second.isSome = true ∧ stop < r) ∧ (∀ j < r, stop < j → (t j).second = none) ∧
      ((∃ j, stop ≤ j ∧ j < r ∧ (t j).Has s) ∨ o = some s) ∧
      (∀ j, stop ≤ j → j < r → ∀ s', (t j).Has s' → ¬ Better a.minimize_K (rank a.D s') (rank a.D s)) ∧
      ∀ s', o = some s' → ¬ Better a.minimize_K (rank a.D s') (rank a.D s) := by
  induction r generalizing b o with
  | zero =>
    obtain ⟨s, hs⟩ : ∃ s, o = some s := Option.ne_none_iff_exists'.1 (hr.resolve_right (by simp))
    refine ⟨s, b, 0, rfl, by unfold CmtBest.Is; rw [hb, hs], le_refl _, .inl rfl, by simp, .inr hs, by simp, fun s' hs' => ?_⟩
    rw [hs] at hs'; injection hs' with e; rw [e]; exact better_irrefl _ _
  | succ r ih =>
    obtain ⟨h1, h2⟩ := h r (by omega)
    obtain ⟨s1, g1, g2, g3, g4⟩ := cmtPick_spec a.minimize_K h1 hb
    unfold cmtRetry
    rw [h2]
    simp only
    by_cases hsec : (t r).second.isSome = true
    · rw [if_pos hsec]
      refine ⟨s1, _, r, rfl, g1, by omega, .inr ⟨hsec, by omega⟩, fun j hj hjr => by omega, ?_, fun j hj hj' s' hs' => ?_, g4⟩
      · rcases g2 with g2 | g2
        · exact .inl ⟨r, le_refl _, by omega, g2⟩
        · exact .inr g2
      · obtain rfl : j = r := by omega
        exact g3 s' hs'
    · rw [if_neg hsec]
      obtain ⟨s, b', stop, k1, k2, k3, k4, k5, k6, k7, k8⟩ := ih (fun j hj => h j (by omega)) (o := some s1) g1 (.inl (by simp))
      have hnone : (t r).second = none := by
        cases hh : (t r).second with
        | none => rfl
        | some x => rw [hh] at hsec; simp at hsec
      have hs1 := k8 s1 rfl
      refine ⟨s, b', stop, k1, k2, by omega, ?_, fun j hj hjs => ?_, ?_, fun j hj hj' s' hs' => ?_, fun s' hs' => ?_⟩
      · rcases k4 with k4 | ⟨k4, k4'⟩
        · exact .inl k4
        · exact .inr ⟨k4, by omega⟩
      · by_cases e : j = r
        · rw [e]; exact hnone
        · exact k5 j (by omega) hjs
      · rcases k6 with ⟨j, j1, j2, j3⟩ | e
        · exact .inl ⟨j, j1, by omega, j3⟩
        · injection e with e
          subst e
          rcases g2 with g2 | g2
          · exact .inl ⟨r, k3, by omega, g2⟩
          · exact .inr g2
      · by_cases e : j = r
        · subst e
          exact better_neg_trans _ (g3 s' hs') hs1
        · exact k7 j hj (by omega) s' hs'
      · exact better_neg_trans _ (g4 s' hs') hs1

/-- **C42**: the heuristic with `r ≥ 1` retries, whatever the shuffles give, ends with a solution that is
complete and keeps the limits if every customer alone does; it is the best one of all the attempts, which go on
until the second phase does not fail or the retries are used up (the attempts are numbered downwards). -/
theorem C42_retries {N : ℕ} (hN : 2 ≤ N) {a : CmtArgs} (ht : TspRoutine a.D a.tsp) (hw : NoWorse a.D a.tsp)
    (hm : a.seed ≠ .other) {luck : ℕ → CmtLuck} (hl : ∀ j, (luck j).Ok N) {r : ℕ} (hr : 1 ≤ r) :
    ∃ (t : ℕ → CmtAttempt) (sol : List ℕ) (stop F : ℕ), Solves N a.D a.d a.C a.L sol ∧
      (∀ fuel ≥ F, ∀ j < r, cmtAttempt a (luck j) fuel = .ok (some (t j))) ∧
      (stop = 0 ∨ (t stop).second.isSome = true ∧ stop < r) ∧ (∀ j < r, stop < j → (t j).second = none) ∧
      (∃ j, stop ≤ j ∧ j < r ∧ (t j).Has sol) ∧
      (∀ j, stop ≤ j → j < r → ∀ s, (t j).Has s → ¬ Better a.minimize_K (rank a.D s) (rank a.D sol)) ∧
      ∀ fuel ≥ F, cmt_2phase_init a N (some r) luck fuel = .ok (some (some sol)) := by
  choose t h1 F h2 using fun j => cmtAttempt_spec hN ht hw hm (hl j)
  obtain ⟨M, hM⟩ : ∃ M, ∀ j < r, F j ≤ M := by
    clear hr
    induction r with
    | zero => exact ⟨0, by simp⟩
    | succ r ih =>
      obtain ⟨M, hM⟩ := ih
      refine ⟨max M (F r), fun j hj => ?_⟩
      by_cases e : j = r
      · rw [e]; exact le_max_right _ _
      · exact (hM j (by omega)).trans (le_max_left _ _)
  have hat : ∀ fuel ≥ M, ∀ j < r, AttemptOk N a.D a.d a.C a.L (t j) ∧ cmtAttempt a (luck j) fuel = .ok (some (t j)) :=
    fun fuel hf j hj => ⟨h1 j, h2 j fuel ((hM j hj).trans hf)⟩
  obtain ⟨s, b', stop, k1, k2, k3, k4, k5, k6, k7, _⟩ := cmtRetry_spec (hat M (le_refl _)) (b := ⟨none, none, none⟩) (o := none) rfl
    (.inr (by omega))
  have k6 := k6.resolve_right (by simp)
  have hsame : ∀ fuel ≥ M, ∀ q ≤ r, ∀ b, cmtRetry a luck fuel q b = cmtRetry a luck M q b := by
    intro fuel hf q
    induction q with
    | zero => intro _ b; rfl
    | succ q ih =>
      intro hq b
      unfold cmtRetry
      rw [(hat fuel hf q (by omega)).2, (hat M (le_refl _) q (by omega)).2]
      simp only
      split_ifs
      · rfl
      · exact ih (by omega) _
  obtain ⟨j, j1, j2, j3⟩ := k6
  refine ⟨t, s, stop, M, attempt_solves (h1 j) j3, fun fuel hf j hj => (hat fuel hf j hj).2, k4, k5, ⟨j, j1, j2, j3⟩, k7,
    fun fuel hf => ?_⟩
  unfold cmt_2phase_init
  simp only
  rw [hsame fuel hf r (le_refl _), k1]
  simp only
  rw [k2]

/-- **C42**: with zero retries there is no solution at all. -/
theorem C42_no_retries (a : CmtArgs) (N : ℕ) (luck : ℕ → CmtLuck) (fuel : ℕ) :
    cmt_2phase_init a N (some 0) luck fuel = .ok (some none) := rfl

/-- The routine that tries all orders meets the contract. -/
theorem allOrders_noWorse (D : ℕ → ℕ → ℚ) : NoWorse D (rfAllOrders D) := by
  intro t _ _
  exact (rfAllOrders_ok D).2 t t (List.Perm.refl t)

/-- Distances of the customer 4 from the seeds 1, 2 and 3. -/
def cmtNthD (i j : ℕ) : ℚ := if i = 4 ∧ j = 1 then 3 else if i = 4 ∧ j = 3 then 2 else 1

/-- **C42**: "the second best route is tried" does not hold: with the order of the routes by their scores at
hand (`np.argpartition`), the code takes the rank of the second route, not the second in rank. The scores are
3, 1 and 2; the first route is the worst one, and it is the one taken. -/
theorem C42_nth_false :
    ([0, 1, 2].map fun k => cmtEps cmtNthD 1 ([1, 2, 3].getD k 0) 4) = [3, 1, 2] ∧
    cmtStar cmtNthD ⟨[1, 2, 3], 1, true, some 2, fun _ => [0, 1, 2], fun _ _ => [1, 2, 0]⟩ 2 [0, 1, 2] 4 = .ok 0 := by
  decide +kernel

/-- **C42**: an interrupt after an insertion loses the customer, as the route is recorded later than the
customer is removed: here customer 1 was inserted in the route of 2. -/
theorem C42_interrupted_false :
    ∃ s, cmtTwoInit cmtLine (fun _ => 1) none ⟨[2], 1, true, some 1, fun _ => [0], fun _ _ => []⟩ [1, 2] = s ∧
      cmtInsert cmtLine (fun _ => 1) none none (fun r => (r ++ [0], 0)) ⟨[0, 2], 0, 4, true⟩ 1 =
        .ok (.accepted ⟨[0, 2, 1], 0, 4, false⟩) ∧
      cmtTwoInterrupted (fun r => (r ++ [0], 0)) { s with unrouted := s.unrouted.erase 1 } = [0, 2, 0] :=
  ⟨_, rfl, by decide +kernel, by decide +kernel⟩

/-- Two routes on a line; both phases succeed. -/
example : cmt_2phase_init ⟨cmtLine, fun n => if n = 0 then 0 else 1, some 2, some 8, fun r => (r ++ [0], cost cmtLine (r ++ [0])),
    false, 2, 1, .farthest, true, .times 1⟩ 5 none (fun _ => ⟨[], [], fun _ => [], fun _ _ => []⟩) 20 =
    .ok (some (some [0, 4, 3, 0, 2, 1, 0])) := by
  decide +kernel

example : Serviceable 5 cmtLine (fun n => if n = 0 then 0 else 1) (some 2) (some 8) := by
  intro i h1 h2
  rw [RouteOk, ← exceeds_iff, ← exceeds_iff]
  interval_cases i <;> decide +kernel

/-- The contract of the routine can be met, also by one that does nothing. -/
example (D : ℕ → ℕ → ℚ) : TspRoutine D (fun r => (r ++ [0], cost D (r ++ [0]))) ∧
    NoWorse D (fun r => (r ++ [0], cost D (r ++ [0]))) :=
  ⟨fun t _ _ => ⟨t, List.Perm.refl _, rfl⟩, fun _ _ _ => le_refl _⟩

example : TspRoutine cmtLine (rfAllOrders cmtLine) ∧ NoWorse cmtLine (rfAllOrders cmtLine) :=
  ⟨(rfAllOrders_ok cmtLine).1, allOrders_noWorse cmtLine⟩

end Verif
