import Mathlib.Data.List.Forall2
import Mathlib.Data.List.Permutation
import Mathlib.Data.List.MinMax
import Verif.Lemmas.TspEdges
import Verif.Spec.TspSolver
import Verif.Spec.Construct

/-! # C71: the exact routine for the travelling salesman problem -/

namespace Verif
open Spec

/-- **C71**, the callback: at values that are not a single tour, a cycle through some of the nodes is found, the constraint that is added
is broken by these values, and every tour through all the nodes keeps it. Otherwise the cycle that is found is a tour through all. -/
theorem C71_callback {n : ℕ} (hn : 3 ≤ n) {Z : EdgeVars} (h : TwoEach n Z) :
    ∃ t, subtour n Z = .ok (some t) ∧ t.Nodup ∧ (∀ e ∈ steps t, Z e.1 e.2 = true) ∧
      (t.length < n → ¬ cutSum Z t ≤ t.length - 1 ∧
        ∀ p : List ℕ, p.Perm (List.range n) → KeepsCut n Z (tourVars p)) ∧
      (¬ t.length < n → t.Perm (List.range n) ∧ t.head? = some 0) := by
  obtain ⟨t, h1, h2, h3, h4⟩ := subtour_spec (by omega) h
  refine ⟨t, h1, h2.nodup, cycle_steps h2, fun hlt => ⟨?_, fun p hp t' ht' hl => ?_⟩, fun hge => ⟨?_, h4 (by omega)⟩⟩
  · rw [(cutSum_closed h h2.nodup h2.range).2.2 h2.closed]
    have := h2.three
    omega
  · rw [h1] at ht'
    injection ht' with ht'
    injection ht' with ht'
    subst ht'
    refine tour_keeps hn hp h2.nodup h2.range ?_ hl
    rintro rfl
    have := h2.three
    simp at this
  · have hsub : t.Subperm (List.range n) := List.subperm_of_subset h2.nodup fun x hx => List.mem_range.2 (h2.range x hx)
    exact hsub.perm_of_length_le (by simp; omega)

/-- What the solver answers is a tour of least cost. -/
theorem solved_tour {n : ℕ} (hn : 3 ≤ n) {w : ℕ → ℕ → ℚ} (hw : ∀ i j, w i j = w j i) {X : EdgeVars} (h : EdgeSolved n w X) :
    ∃ l, subtour n X = .ok (some (0 :: l)) ∧ (0 :: l).Perm (List.range n) ∧ edgeObj n w X = cost w (0 :: l ++ [0]) ∧
      ∀ l', (0 :: l').Perm (List.range n) → cost w (0 :: l ++ [0]) ≤ cost w (0 :: l' ++ [0]) := by
  obtain ⟨Zs, z1, z2, z3, z4⟩ := h.best
  obtain ⟨t, h1, h2, h3, h4, h5⟩ := C71_callback hn h.two
  have hge : ¬ t.length < n := fun hlt => (h4 hlt).1 (z3 X z1 t h1 hlt)
  obtain ⟨k1, k2⟩ := h5 hge
  cases t with
  | nil => simp at k2
  | cons a l =>
    simp at k2
    subst k2
    have ho := edgeObj_tour h.two hn k1 h3 hw
    refine ⟨l, h1, k1, ho, fun l' hl' => ?_⟩
    have h2' := tourVars_two hn hl'
    have ho' := edgeObj_tour h2' hn hl' (fun e he => by simp only [tourVars, decide_eq_true_eq]; exact .inl he) hw
    rw [← ho, ← ho']
    refine z4 _ h2' fun Z hZ => ?_
    obtain ⟨t', q1, _, _, q4, _⟩ := C71_callback hn (z2 Z hZ)
    intro t'' ht'' hl
    have : t'' = t' := by
      rw [q1] at ht''
      injection ht'' with e
      injection e with e
      exact e.symm
    subst this
    exact (q4 hl).2 _ hl' t'' ht'' hl

theorem solved_exists {n : ℕ} (hn : 3 ≤ n) {w : ℕ → ℕ → ℚ} (hw : ∀ i j, w i j = w j i) : ∃ X, EdgeSolved n w X := by
  obtain ⟨m, rfl⟩ : ∃ m, n = m + 1 := ⟨n - 1, by omega⟩
  -- the tours as permutations of the other nodes
  obtain ⟨l, hl, hmin⟩ : ∃ l, (0 :: l).Perm (List.range (m + 1)) ∧
      ∀ l', (0 :: l').Perm (List.range (m + 1)) → cost w (0 :: l ++ [0]) ≤ cost w (0 :: l' ++ [0]) := by
    have hne : ((List.range m).map (· + 1)).permutations.toFinset.Nonempty := ⟨(List.range m).map (· + 1), by simp⟩
    obtain ⟨l, h1, h2⟩ := Finset.exists_min_image _ (fun l => cost w (0 :: l ++ [0])) hne
    have hr : ∀ l : List ℕ, (0 :: l).Perm (List.range (m + 1)) ↔ l ∈ ((List.range m).map (· + 1)).permutations.toFinset := by
      intro l
      rw [List.mem_toFinset, List.mem_permutations, List.range_succ_eq_map, List.perm_cons]
    exact ⟨l, (hr l).2 h1, fun l' hl' => h2 l' ((hr l').1 hl')⟩
  have h2 := tourVars_two hn hl
  have ho := edgeObj_tour h2 hn hl (fun e he => by simp only [tourVars, decide_eq_true_eq]; exact .inl he) hw
  refine ⟨tourVars (0 :: l), h2, fun Z => TwoEach (m + 1) Z, h2, fun Z hZ => hZ, fun Z hZ => ?_, fun Y hY hk => ?_⟩
  · obtain ⟨t', q1, _, _, q4, _⟩ := C71_callback hn hZ
    intro t'' ht'' hlt
    rw [q1] at ht''
    injection ht'' with e
    injection e with e
    subst e
    exact (q4 hlt).2 _ hl _ q1 hlt
  · obtain ⟨t, h1, _, h3, h4, h5⟩ := C71_callback hn hY
    have hge : ¬ t.length < m + 1 := fun hlt => (h4 hlt).1 (hk Y hY t h1 hlt)
    obtain ⟨k1, k2⟩ := h5 hge
    cases t with
    | nil => simp at k2
    | cons a l' =>
      simp at k2
      subst k2
      rw [ho, edgeObj_tour hY hn k1 h3 hw]
      exact hmin l' k1

/-- The costs below the diagonal for both directions. -/
def lowerCosts (w : ℕ → ℕ → ℚ) (i j : ℕ) : ℚ := w (max i j) (min i j)

theorem edgeObj_lower (n : ℕ) (w : ℕ → ℕ → ℚ) (X : EdgeVars) : edgeObj n (lowerCosts w) X = edgeObj n w X := by
  unfold edgeObj
  congr 1
  apply List.map_congr_left
  intro i _
  congr 1
  apply List.map_congr_left
  intro j hj
  have : j ≤ i := by have := List.mem_range.1 hj; omega
  rw [lowerCosts, max_eq_left this, min_eq_right this]

theorem solved_lower {n : ℕ} {w : ℕ → ℕ → ℚ} {X : EdgeVars} : EdgeSolved n (lowerCosts w) X ↔ EdgeSolved n w X := by
  constructor
  · rintro ⟨h1, Zs, h2, h3, h4, h5⟩
    exact ⟨h1, Zs, h2, h3, h4, fun Y a b => by have := h5 Y a b; rwa [edgeObj_lower, edgeObj_lower] at this⟩
  · rintro ⟨h1, Zs, h2, h3, h4, h5⟩
    exact ⟨h1, Zs, h2, h3, h4, fun Y a b => by rw [edgeObj_lower, edgeObj_lower]; exact h5 Y a b⟩

theorem lowerCosts_symm (w : ℕ → ℕ → ℚ) (i j : ℕ) : lowerCosts w i j = lowerCosts w j i := by
  rw [lowerCosts, lowerCosts, max_comm, min_comm]

/-- **C71**: a solver as it is asked for exists. -/
theorem C71_solver_exists : ∃ solver, EdgeSolver solver ∧ ∀ n w, 4 ≤ n → ∃ X, solver n w = .values X := by
  classical
  refine ⟨fun n w => if h : 3 ≤ n then .values (solved_exists h (lowerCosts_symm w)).choose else .timeout, ?_, ?_⟩
  · intro n w X hn hx
    dsimp only at hx
    rw [dif_pos (by omega)] at hx
    injection hx with hx
    rw [← hx, ← solved_lower]
    exact (solved_exists (by omega : 3 ≤ n) (lowerCosts_symm w)).choose_spec
  · intro n w hn
    exact ⟨_, dif_pos (by omega)⟩

theorem perm_positions {l l' : List ℕ} (h : l'.Perm l) : ∃ p : List ℕ, p.Perm (List.range l.length) ∧ p.map (picked l) = l' := by
  have hl : l = (List.range l.length).map (picked l) := by
    apply List.ext_getElem
    · simp
    · intro i h1 h2
      simp [picked, h1]
  have hf : List.Forall₂ (fun a i => a = picked l i) l (List.range l.length) := by
    have : List.Forall₂ (fun a i => a = picked l i) ((List.range l.length).map (picked l)) (List.range l.length) := by
      rw [List.forall₂_map_left_iff]
      exact List.forall₂_same.2 fun _ _ => rfl
    rwa [← hl] at this
  obtain ⟨p, hp1, hp2⟩ := List.perm_comp_forall₂ h hf
  refine ⟨p, hp2, ?_⟩
  clear hp2 hf hl h
  induction hp1 with
  | nil => rfl
  | cons h _ ih => rw [List.map_cons, ih, h]

theorem picked_closed (a b : ℕ) (l : List ℕ) (i : ℕ) (hi : i < (a :: l).length) : picked (a :: l ++ [b]) i = picked (a :: l) i := by
  unfold picked
  rw [List.getD_eq_getElem?_getD, List.getD_eq_getElem?_getD, List.getElem?_append_left hi]

/-- The same, positions starting with the first. -/
theorem perm_positions_cons {a : ℕ} {l v : List ℕ} (h : v.Perm l) :
    ∃ p, (0 :: p).Perm (List.range (a :: l).length) ∧ (0 :: p).map (picked (a :: l)) = a :: v := by
  obtain ⟨p, hp1, hp2⟩ := perm_positions h
  refine ⟨p.map (· + 1), ?_, ?_⟩
  · rw [List.length_cons, List.range_succ_eq_map]
    exact (hp1.map Nat.succ).cons 0
  · rw [List.map_cons, List.map_map]
    have e : (picked (a :: l) ∘ fun x => x + 1) = picked l := funext fun i => by simp [picked]
    rw [e, hp2]
    rfl

/-- **C71**: the exact routine, for a symmetric matrix and a solver that answers right. Given a node and others, open or closed by the
first node again, it returns a closed tour from the first node that visits each of the others once. The cost is that of the tour, and no
other tour costs less. It ends otherwise only if the solver runs out of time or is interrupted. -/
theorem C71_optimal {D : ℕ → ℕ → ℚ} (hD : ∀ i j, D i j = D j i) {solver : ℕ → (ℕ → ℕ → ℚ) → EdgeAnswer} (hs : EdgeSolver solver)
    {a : ℕ} {l : List ℕ} (hl : l ≠ []) (ha : a ∉ l) {idxs : List ℕ} (hi : idxs = a :: l ∨ idxs = a :: l ++ [a]) :
    (∃ sol, solve_tsp_gurobi solver D idxs = .tour sol (cost D sol) ∧ LeastTour D a l sol) ∨
    3 ≤ l.length ∧ ∃ w, (solver (l.length + 1) w = .timeout ∧ solve_tsp_gurobi solver D idxs = .timeout ∨
      solver (l.length + 1) w = .interrupted ∧ solve_tsp_gurobi solver D idxs = .interrupted) := by
  have hc : idxs.getLast? = some a ↔ idxs = a :: l ++ [a] := by
    rcases hi with rfl | rfl
    · constructor
      · intro h
        rw [List.getLast?_cons_of_ne_nil hl] at h
        exact absurd (List.mem_of_getLast? h) ha
      · intro h
        have := congrArg List.length h
        simp at this
    · exact ⟨fun _ => rfl, fun _ => List.getLast?_concat⟩
  have hn : (if idxs.getLast? = some a then idxs.length - 1 else idxs.length) = l.length + 1 := by
    rcases hi with h | h
    · rw [if_neg fun e => ?_, h]
      · rfl
      · rw [hc, h] at e
        have := congrArg List.length e
        simp at this
    · rw [if_pos (hc.2 h), h]; simp
  obtain ⟨b, t, hb⟩ : ∃ b t, idxs = b :: t := by rcases hi with rfl | rfl <;> exact ⟨_, _, rfl⟩
  have hba : b = a := by
    rcases hi with h | h <;> (rw [hb] at h; injection h with h)
  subst hba
  have hunf : ∀ n, (if idxs.getLast? = some b then idxs.length - 1 else idxs.length) = n → solve_tsp_gurobi solver D idxs =
      (if n ≤ 3 then
        if 1 < n then .tour (if idxs.getLast? = some b then idxs else idxs ++ [b])
          (objf (if idxs.getLast? = some b then idxs else idxs ++ [b]) D) else .nothing
      else
        match solver n fun i j => D (picked idxs i) (picked idxs j) with
        | .timeout => .timeout
        | .interrupted => .interrupted
        | .values X =>
          match subtour n X with
          | .error e => .raised e
          | .ok none => .stuck
          | .ok (some cycle) =>
            if cycle.length = n then .tour (cycle.map (picked idxs) ++ [b]) (edgeObj n (fun i j => D (picked idxs i) (picked idxs j)) X)
            else .assertion) := by
    rintro n rfl
    rw [hb]
    rfl
  rw [hunf _ hn]
  have hpos : 0 < l.length := List.length_pos_iff.2 hl
  by_cases h3 : l.length + 1 ≤ 3
  · left
    rw [if_pos h3, if_pos (by omega)]
    have hsol : (if idxs.getLast? = some b then idxs else idxs ++ [b]) = b :: l ++ [b] := by
      rcases hi with h | h
      · rw [if_neg fun e => ?_, h]
        rw [hc, h] at e
        have := congrArg List.length e
        simp at this
      · rw [if_pos (hc.2 h), h]
    rw [hsol, objf_eq_cost]
    refine ⟨_, rfl, ⟨l, List.Perm.refl _, rfl⟩, fun v hv => ?_⟩
    match l, hv, hpos, h3 with
    | [x], hv, _, _ => rw [List.perm_singleton.1 hv]
    | [x, y], hv, _, _ =>
      have hv2 := hv.length_eq
      obtain ⟨p, q, rfl⟩ := List.length_eq_two.1 hv2
      have hp : p = x ∧ q = y ∨ p = y ∧ q = x := by
        have hpm := hv.mem_iff.1 (List.mem_cons_self (a := p))
        simp only [List.mem_cons, List.not_mem_nil, or_false] at hpm
        rcases hpm with rfl | rfl
        · exact .inl ⟨rfl, by simpa using hv⟩
        · refine .inr ⟨rfl, ?_⟩
          have := hv.trans (List.Perm.swap p x [])
          simpa using this
      rcases hp with ⟨rfl, rfl⟩ | ⟨rfl, rfl⟩
      · exact le_rfl
      · simp only [List.cons_append, List.nil_append, cost]
        rw [hD b q, hD q p, hD p b]
        linarith
  · rw [if_neg h3]
    generalize hw : (fun i j => D (picked idxs i) (picked idxs j)) = w
    have hws : ∀ i j, w i j = w j i := fun i j => by rw [← hw]; exact hD _ _
    match hsv : solver (l.length + 1) w with
    | .timeout => exact .inr ⟨by omega, w, .inl ⟨hsv, rfl⟩⟩
    | .interrupted => exact .inr ⟨by omega, w, .inr ⟨hsv, rfl⟩⟩
    | .values X =>
      left
      obtain ⟨q, q1, q2, q3, q4⟩ := solved_tour (by omega) hws (hs _ w X (by omega) hsv)
      have hlen : (0 :: q).length = l.length + 1 := by rw [q2.length_eq]; simp
      dsimp only
      rw [q1]
      dsimp only
      rw [if_pos hlen, q3]
      have hp : ∀ p : List ℕ, p.Perm (List.range (l.length + 1)) → p.map (picked idxs) = p.map (picked (b :: l)) := by
        intro p hp
        apply List.map_congr_left
        intro i hi'
        have : i < (b :: l).length := by simpa using List.mem_range.1 (hp.mem_iff.1 hi')
        rcases hi with h | h
        · rw [h]
        · rw [h, picked_closed _ _ _ _ this]
      have h0 : picked idxs 0 = b := by rw [hb]; rfl
      have hcost : ∀ p : List ℕ, (0 :: p).Perm (List.range (l.length + 1)) →
          cost w (0 :: p ++ [0]) = cost D ((0 :: p).map (picked (b :: l)) ++ [b]) := by
        intro p hp'
        rw [← hp _ hp', ← h0, show (0 :: p).map (picked idxs) ++ [picked idxs 0] = (0 :: p ++ [0]).map (picked idxs) by simp, cost_map,
          hw]
      have hq : (0 :: q).map (picked (b :: l)) = b :: q.map (picked (b :: l)) := rfl
      have hqp : (q.map (picked (b :: l))).Perm l := by
        have := q2.map (picked (b :: l))
        have e : (List.range (l.length + 1)).map (picked (b :: l)) = b :: l := by
          apply List.ext_getElem
          · simp
          · intro i h1 h2
            simp only [List.getElem_map, List.getElem_range, picked]
            rw [List.getD_eq_getElem?_getD, List.getElem?_eq_getElem h2]; rfl
        rw [e, hq, List.perm_cons] at this
        exact this
      refine ⟨_, ?_, ⟨q.map (picked (b :: l)), hqp, rfl⟩, fun v hv => ?_⟩
      · rw [hp _ q2, hcost q q2, hq]
      · obtain ⟨p, p1, p2⟩ := perm_positions_cons (a := b) hv
        have := q4 p p1
        rw [hcost q q2, hcost p p1, p2, hq] at this
        exact this

/-- The routine as the heuristics use it, for a solver that always answers. -/
def gurobiRoutine (solver : ℕ → (ℕ → ℕ → ℚ) → EdgeAnswer) (D : ℕ → ℕ → ℚ) (idxs : List ℕ) : List ℕ × ℚ :=
  match solve_tsp_gurobi solver D idxs with
  | .tour sol f => (sol, f)
  | _ => ([], 0)

/-- **C71**: on symmetric matrices the exact routine is one as the heuristics need it (in the theorems about them), no worse than any
order of the customers. -/
theorem C71_routine {D : ℕ → ℕ → ℚ} (hD : ∀ i j, D i j = D j i) {solver : ℕ → (ℕ → ℕ → ℚ) → EdgeAnswer} (hs : EdgeSolver solver)
    (ha : ∀ n w, 4 ≤ n → ∃ X, solver n w = .values X) : TspRoutine D (gurobiRoutine solver D) ∧ NoWorse D (gurobiRoutine solver D) := by
  have key : ∀ t : List ℕ, t ≠ [] → (0 :: t).Nodup → ∃ sol, gurobiRoutine solver D (0 :: t) = (sol, cost D sol) ∧ LeastTour D 0 t sol := by
    intro t ht hnd
    rcases C71_optimal hD hs ht (List.nodup_cons.1 hnd).1 (.inl rfl) with ⟨sol, h1, h2⟩ | ⟨h3, w, ⟨h1, -⟩ | ⟨h1, -⟩⟩
    · exact ⟨sol, by rw [gurobiRoutine, h1], h2⟩
    · obtain ⟨X, hX⟩ := ha (t.length + 1) w (by omega)
      rw [hX] at h1; cases h1
    · obtain ⟨X, hX⟩ := ha (t.length + 1) w (by omega)
      rw [hX] at h1; cases h1
  constructor
  · intro t ht hnd
    obtain ⟨sol, h1, ⟨u, h2, rfl⟩, -⟩ := key t ht hnd
    exact ⟨u, h2, h1⟩
  · intro t ht hnd
    obtain ⟨sol, h1, -, h2⟩ := key t ht hnd
    rw [h1]
    exact h2 t (List.Perm.refl _)

/-- **C71**: for one node there is no tour, and the empty list raises. -/
theorem C71_single (solver : ℕ → (ℕ → ℕ → ℚ) → EdgeAnswer) (D : ℕ → ℕ → ℚ) (a : ℕ) :
    solve_tsp_gurobi solver D [a] = .nothing ∧ solve_tsp_gurobi solver D [a, a] = .nothing ∧
      solve_tsp_gurobi solver D [] = .raised .indexError := by
  refine ⟨?_, ?_, rfl⟩ <;> simp [solve_tsp_gurobi]

theorem three_orders {a b c : ℕ} {q : List ℕ} (h : q.Perm [a, b, c]) :
    q ∈ [[a, b, c], [a, c, b], [b, a, c], [b, c, a], [c, a, b], [c, b, a]] := by
  have := List.mem_permutations.2 h
  simp only [List.permutations, List.permutationsAux_cons, List.permutationsAux_nil] at this
  simp [List.permutationsAux2] at this
  simp only [List.mem_cons, List.not_mem_nil, or_false]
  tauto

/-- Nodes in a row, cheap in one direction only. -/
def oneWay (i j : ℕ) : ℚ := if i < j then 100 else 1

/-- **C71 is false** for matrices that are not symmetric: with four nodes or more only the entries below the diagonal are read, and the
cost that is returned is not that of the tour; with three nodes the tour is the order that was given, which need not be the best. -/
theorem C71_asymmetric_false {solver : ℕ → (ℕ → ℕ → ℚ) → EdgeAnswer} (hs : EdgeSolver solver) :
    (∀ sol f, solve_tsp_gurobi solver oneWay [0, 1, 2, 3] = .tour sol f → f = 4 ∧ 100 < cost oneWay sol) ∧
    (∃ D : ℕ → ℕ → ℚ, solve_tsp_gurobi solver D [0, 1, 2] = .tour [0, 1, 2, 0] 300 ∧ cost D [0, 2, 1, 0] = 3) := by
  constructor
  · intro sol f h
    have hun : solve_tsp_gurobi solver oneWay [0, 1, 2, 3] =
        match solver 4 fun i j => oneWay (picked [0, 1, 2, 3] i) (picked [0, 1, 2, 3] j) with
        | .timeout => .timeout
        | .interrupted => .interrupted
        | .values X =>
          match subtour 4 X with
          | .error e => .raised e
          | .ok none => .stuck
          | .ok (some cycle) =>
            if cycle.length = 4 then .tour (cycle.map (picked [0, 1, 2, 3]) ++ [0])
              (edgeObj 4 (fun i j => oneWay (picked [0, 1, 2, 3] i) (picked [0, 1, 2, 3] j)) X)
            else .assertion := by
      rfl
    rw [hun] at h
    generalize hw : (fun i j => oneWay (picked [0, 1, 2, 3] i) (picked [0, 1, 2, 3] j)) = w at h
    match hsv : solver 4 w with
    | .timeout => rw [hsv] at h; cases h
    | .interrupted => rw [hsv] at h; cases h
    | .values X =>
      obtain ⟨q, q1, q2, q3, q4⟩ := solved_tour (by omega) (lowerCosts_symm w) (solved_lower.2 (hs 4 w X le_rfl hsv))
      rw [hsv] at h
      dsimp only at h
      rw [q1] at h
      dsimp only at h
      rw [if_pos (by rw [q2.length_eq]; rfl)] at h
      injection h with h1 h2
      rw [← h2, ← h1, ← edgeObj_lower, q3, ← hw]
      have hq := three_orders ((List.perm_cons 0).1 q2 : q.Perm [1, 2, 3])
      revert hq
      clear q1 q2 q3 q4 h1 h2 hw hsv hun
      revert q
      decide +kernel
  · refine ⟨fun i j => if (i = 0 ∧ j = 2) ∨ (i = 2 ∧ j = 1) ∨ (i = 1 ∧ j = 0) then 1 else 100, ?_, by decide +kernel⟩
    simp [solve_tsp_gurobi, objf]
    norm_num

/-! ## An instance -/

/-- Two triangles: the callback finds the first. -/
def twoTriangles : EdgeVars := fun i j => decide (i ≠ j ∧ (i < 3 ↔ j < 3))

example : TwoEach 6 twoTriangles ∧ subtour 6 twoTriangles = .ok (some [0, 1, 2]) ∧ cutSum twoTriangles [0, 1, 2] = 3 ∧
    cutSum (tourVars [0, 1, 2, 3, 4, 5]) [0, 1, 2] = 2 :=
  ⟨⟨by decide, by decide, by decide⟩, by decide, by decide, by decide⟩

/-- The theorems apply to a square. -/
example : ∃ solver, EdgeSolver solver ∧ solve_tsp_gurobi solver (fun i j => if (i + j) % 2 = 0 then 2 else 1) [0, 2, 1, 3] ≠ .nothing ∧
    LeastTour (fun i j => if (i + j) % 2 = 0 then 2 else 1) 0 [2, 1, 3] [0, 1, 2, 3, 0] := by
  obtain ⟨solver, h1, h2⟩ := C71_solver_exists
  refine ⟨solver, h1, ?_, ⟨[1, 2, 3], by decide, rfl⟩, ?_⟩
  · rcases C71_optimal (D := fun i j => if (i + j) % 2 = 0 then 2 else 1) (fun i j => by rw [add_comm]) h1 (a := 0) (l := [2, 1, 3])
      (by simp) (by simp) (.inl rfl) with ⟨sol, e, -⟩ | ⟨-, w, ⟨-, e⟩ | ⟨-, e⟩⟩ <;> rw [e] <;> simp
  · intro v hv
    have := three_orders hv
    revert this
    clear hv
    revert v
    decide +kernel

end Verif
