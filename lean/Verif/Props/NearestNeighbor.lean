import Verif.Lemmas.NearestNeighborLoop
import Mathlib.Logic.Relation
import Mathlib.Tactic.IntervalCases

/-! # C29: the nearest neighbour heuristic -/

namespace Verif
open Spec

/-- The state is reached by rounds of the main loop. -/
def NNReach (D : ℕ → ℕ → ℚ) (d : ℕ → ℚ) (C L : Option ℚ) (N count : ℕ) (mode : NNSeedMode) (endOnly : Bool)
    (forbidden : List ℕ) (s : NNState) : Prop :=
  Relation.ReflTransGen (fun a b => nnStep D d C L count mode endOnly a = .ok b) (nnInit D N count forbidden) s

theorem nnReach_inv {N : ℕ} {D : ℕ → ℕ → ℚ} {d : ℕ → ℚ} {C L : Option ℚ} {count : ℕ} {mode : NNSeedMode}
    {endOnly : Bool} {Fb : List ℕ} (hN : 1 ≤ N) (hD : DistinctCustomers N D) (hm : mode ≠ .other) (hc : 1 ≤ count)
    (hn : mode = .nearest → count = 1 ∧ allowed N Fb ≠ []) {s : NNState}
    (h : NNReach D d C L N count mode endOnly Fb s) : ∃ done, NNInv N D d C L count mode Fb done s := by
  induction h with
  | refl =>
    refine ⟨[], nnInit_inv hD hc fun e ha => (hn e).2 ?_⟩
    refine List.eq_nil_iff_forall_not_mem.2 fun x hx => ?_
    simp only [allowed, List.mem_filter, List.mem_range'_1, Bool.not_eq_true', decide_eq_false_iff_not] at hx
    have := ha x (by omega) (by omega)
    simp only [List.mem_cons] at this
    rcases this with e | e
    · omega
    · exact hx.2 e
  | tail _ hs ih =>
    obtain ⟨done, hi⟩ := ih
    rcases nnStep_spec endOnly hN hm (fun e => (hn e).1) hi with ⟨e1, _⟩ | ⟨s', done', e1, e2, _⟩
    · rw [e1] at hs; cases hs
    · rw [e1] at hs; injection hs with hs; exact ⟨done', hs ▸ e2⟩

/-- **C29** with forbidden customers: the loop ends, every customer that is not forbidden is in exactly one
route, no forbidden one is in any, and each route keeps the limits if every customer alone does. Without any
customer to route the result is `None`. -/
theorem C29_forbidden {N : ℕ} {D : ℕ → ℕ → ℚ} (d : ℕ → ℚ) (C L : Option ℚ) {count : ℕ} {mode : NNSeedMode}
    (endOnly : Bool) {Fb : List ℕ} (hN : 1 ≤ N) (hD : DistinctCustomers N D) (hm : mode ≠ .other) (hc : 1 ≤ count)
    (hn : mode = .nearest → count = 1 ∧ allowed N Fb ≠ []) :
    ∃ us : List (List ℕ), us.flatten.Perm (allowed N Fb) ∧ [] ∉ us ∧
      (Serviceable N D d C L → ∀ u ∈ us, RouteOk D d C L u) ∧
      ∃ F, ∀ fuel ≥ F, nearest_neighbor_init D d C L N count mode endOnly Fb fuel =
        .ok (some (if us = [] then none else some (tour us))) := by
  obtain ⟨done, hi⟩ := nnReach_inv (endOnly := endOnly) (d := d) (C := C) (L := L) hN hD hm hc hn Relation.ReflTransGen.refl
  obtain ⟨s', done', h1, h2, h3⟩ := nnLoop_spec endOnly hN hm (fun e => (hn e).1) hi
  have hg := nnRoutes_good h2
  refine ⟨nnRoutes done' s', nn_allowed h2 h3, fun hh => (hg _ hh).1 rfl, fun hs u hu => (hg u hu).2 hs,
    nnMeasure N (nnInit D N count Fb) + 1, fun fuel hf => ?_⟩
  unfold nearest_neighbor_init
  rw [h1 fuel (by omega)]
  simp only
  rw [nnClose_eq h2.sol]
  simp only [tour_length_one]

/-- **C29** (partial: customers at the same place, the seed mode "nearest" with several routes at once, and
the optional callback for improving routes are left out; the first two are shown to fail below). The
heuristic ends with a complete solution that keeps the limits if every customer alone does. -/
theorem C29_partial {N : ℕ} {D : ℕ → ℕ → ℚ} (d : ℕ → ℚ) (C L : Option ℚ) {count : ℕ} {mode : NNSeedMode}
    (endOnly : Bool) (hN : 2 ≤ N) (hD : DistinctCustomers N D) (hm : mode ≠ .other) (hc : 1 ≤ count)
    (hn : mode = .nearest → count = 1) :
    ∃ sol, Solves N D d C L sol ∧ ∃ F, ∀ fuel ≥ F, nearest_neighbor_init D d C L N count mode endOnly [] fuel =
      .ok (some (some sol)) := by
  have ha : allowed N [] = List.range' 1 (N - 1) := by simp [allowed]
  have hne : List.range' 1 (N - 1) ≠ [] := by
    intro e; have := congrArg List.length e; simp at this; omega
  obtain ⟨us, h1, h2, h3, F, h4⟩ := C29_forbidden d C L endOnly (Fb := []) (by omega) hD hm hc
    (fun e => ⟨hn e, by rw [ha]; exact hne⟩)
  rw [ha] at h1
  refine ⟨tour us, solves_good h1 fun u hu => ⟨fun e => h2 (e ▸ hu), fun hs => h3 hs u hu⟩, F, fun fuel hf => ?_⟩
  rw [h4 fuel hf, if_neg]
  rintro rfl
  exact hne h1.symm.eq_nil

/-- **C29**: a round that has a route to extend considers the customer nearest to the one added last, at the
cheaper end of the route (unless only the end may be used). It is added if the route then keeps the limits,
otherwise the route is stored. -/
theorem C29_nearest {N : ℕ} {D : ℕ → ℕ → ℚ} (d : ℕ → ℚ) (C L : Option ℚ) {count : ℕ} {mode : NNSeedMode}
    (endOnly : Bool) {Fb : List ℕ} (hN : 1 ≤ N) (hD : DistinctCustomers N D) (hm : mode ≠ .other) (hc : 1 ≤ count)
    (hn : mode = .nearest → count = 1 ∧ allowed N Fb ≠ []) {s s' : NNState}
    (hr : NNReach D d C L N count mode endOnly Fb s) {r : NNRoute} (hk : s.routes[s.k]? = some (some r))
    (hs : nnStep D d C L count mode endOnly s = .ok s') :
    ∃ x u, 1 ≤ x ∧ x < N ∧ x ∉ s.served ∧ (∀ j, 1 ≤ j → j < N → j ∉ s.served → D r.prev x ≤ D r.prev j) ∧
      (u = r.nodes ++ [x] ∨ (endOnly = false ∧ u = x :: r.nodes)) ∧
      (endOnly = false → cost D (wrap u) ≤ cost D (wrap (r.nodes ++ [x])) ∧
        cost D (wrap u) ≤ cost D (wrap (x :: r.nodes))) ∧
      ((¬ RouteOk D d C L u ∧ s'.sol = s.sol ++ (r.nodes ++ [0]) ∧ s'.routes = s.routes.set s.k none ∧
          s'.served = s.served) ∨
        ∃ r', RouteOk D d C L u ∧ r'.nodes = u ∧ r'.prev = x ∧
          s'.routes = s.routes.set s.k (some r') ∧ s'.served = x :: s.served ∧ s'.sol = s.sol) := by
  obtain ⟨done, hi⟩ := nnReach_inv hN hD hm hc hn hr
  obtain ⟨g1, g2, g3, g4, g5, g6⟩ := hi.liveOk r (List.mem_of_getElem? hk)
  have hql : r.prev < s.queues.length := by rw [hi.q.len]; exact g3
  have hq : s.queues[r.prev]? = some s.queues[r.prev] := List.getElem?_eq_getElem hql
  generalize s.queues[r.prev] = q at hq
  unfold nnStep at hs
  rw [show idx s.routes s.k = .ok (some r) by rw [idx, hk]] at hs
  simp only at hs
  rw [show idx s.queues r.prev = .ok q by rw [idx, hq]] at hs
  simp only at hs
  cases hp : seedPop s.served q with
  | none => rw [hp] at hs; cases hs
  | some p =>
    obtain ⟨nn, q'⟩ := p
    obtain ⟨p1, pre, p2, p3⟩ := seedPop_some hp
    obtain ⟨first, last, hf, hl⟩ := ends g1.1
    rw [hp, show idx r.nodes 0 = .ok first by rw [idx, ← List.head?_eq_getElem?, hf],
      show idx r.nodes (r.nodes.length - 1) = .ok last by rw [idx, ← List.getLast?_eq_getElem?, hl]] at hs
    simp only [Except.ok.injEq] at hs
    obtain ⟨w1, w2⟩ := wrap_extended (D := D) hf hl nn
    generalize hst : (!endOnly && decide (D 0 nn + D nn first + D last 0 < D 0 first + D last nn + D nn 0)) = atStart
    refine ⟨nn, if atStart = true then nn :: r.nodes else r.nodes ++ [nn],
      Nat.one_le_iff_ne_zero.2 fun e => p1 ((hi.served nn).2 (.inl e)),
      nnQueue_lt ((hi.q.sub _ q hq).mem (by rw [p2]; simp)), p1, fun j h1 h2 h3 =>
        seed_nearest hi.q hq hp j h1 h2 (fun e => h3 (e ▸ g4)) h3, ?_, ?_, ?_⟩
    · cases atStart with
      | true =>
        right
        cases endOnly
        · exact ⟨rfl, rfl⟩
        · cases hst
      | false => exact .inl rfl
    · intro e
      rw [e] at hst
      cases atStart with
      | true =>
        simp only [Bool.not_false, Bool.true_and, decide_eq_true_eq] at hst
        rw [if_pos rfl, w1, w2]
        constructor <;> linarith
      | false =>
        simp only [Bool.not_false, Bool.true_and, decide_eq_false_iff_not, not_lt] at hst
        rw [if_neg (by simp), w1, w2]
        constructor <;> linarith
    · have hdem : demand d (if atStart = true then nn :: r.nodes else r.nodes ++ [nn]) = demand d r.nodes + d nn := by
        split_ifs
        · rw [demand_cons]; ring
        · rw [demand_append]; simp
      have hcost : cost D (wrap (if atStart = true then nn :: r.nodes else r.nodes ++ [nn])) = cost D r.nodes +
          if atStart = true then D 0 nn + D nn first + D last 0 else D 0 first + D last nn + D nn 0 := by
        cases atStart
        · simp only [Bool.false_eq_true, if_false]; rw [w2]; ring
        · simp only [if_true]; rw [w1]; ring
      have hok : (exceeds C C_EPS (r.demand + d nn) || exceeds L S_EPS (r.cost +
          if atStart = true then D 0 nn + D nn first + D last 0 else D 0 first + D last nn + D nn 0)) = false ↔
          RouteOk D d C L (if atStart = true then nn :: r.nodes else r.nodes ++ [nn]) := by
        rw [Bool.or_eq_false_iff, exceeds_iff, exceeds_iff, RouteOk, hdem, hcost]
        refine and_congr ?_ ?_
        · by_cases hC : truthy C = true
          · rw [g5 hC]
          · constructor <;> exact fun _ c hc hc0 => absurd (by simp [truthy, hc, hc0]) hC
        · by_cases hL : truthy L = true
          · rw [g6 hL]
          · constructor <;> exact fun _ c hc hc0 => absurd (by simp [truthy, hc, hc0]) hL
      subst hs
      unfold nnExtend
      simp only
      rw [hst]
      by_cases hv : (exceeds C C_EPS (r.demand + d nn) || exceeds L S_EPS (r.cost +
          if atStart = true then D 0 nn + D nn first + D last 0 else D 0 first + D last nn + D nn 0)) = true
      · rw [if_pos hv]
        exact .inl ⟨fun h => (by rw [hok.2 h] at hv; cases hv), rfl, rfl, rfl⟩
      · rw [if_neg hv]
        refine .inr ⟨_, hok.1 (by simpa using hv), ?_, ?_, rfl, rfl, rfl⟩
        · split_ifs <;> rfl
        · split_ifs <;> rfl

/-- **C29**: an interrupt between two rounds, as long as some customer is not in a route, gives a complete
solution too. Forbidden customers are then served by routes of their own. -/
theorem C29_interrupted_partial {N : ℕ} {D : ℕ → ℕ → ℚ} (d : ℕ → ℚ) (C L : Option ℚ) {count : ℕ} {mode : NNSeedMode}
    (endOnly : Bool) {Fb : List ℕ} (hN : 1 ≤ N) (hD : DistinctCustomers N D) (hm : mode ≠ .other) (hc : 1 ≤ count)
    (hn : mode = .nearest → count = 1 ∧ allowed N Fb ≠ []) {s : NNState}
    (hr : NNReach D d C L N count mode endOnly Fb s) (hleft : ∃ j, 1 ≤ j ∧ j < N ∧ j ∉ nnClose s) :
    ∃ sol, nnInterrupted N s = .ok (some sol) ∧ Solves N D d C L sol := by
  obtain ⟨done, hi⟩ := nnReach_inv hN hD hm hc hn hr
  exact nnInterrupted_spec hi hleft

/-! ## The queue -/

/-- The entries a queue still has. -/
def PeekQueue.rest (q : PeekQueue) : List ℕ := (q.l.drop q.left).take (q.l.length - q.left - q.right)

/-- **C29**: the queue class keeps exactly the entries that are not taken: its length is their number, and
looking at or taking an entry at either end gives the first or last of them, or `IndexError` if there is
none. -/
theorem C29_queue (q : PeekQueue) (h : q.left + q.right ≤ q.l.length) :
    q.len = q.rest.length ∧
      (q.rest = [] → q.peekleft = .error .indexError ∧ q.peekright = .error .indexError ∧
        (∀ r, q.popleft ≠ .ok r) ∧ (∀ r, q.popright ≠ .ok r)) ∧
      (∀ x t, q.rest = x :: t → q.peekleft = .ok x ∧
        ∃ q', q.popleft = .ok (x, q') ∧ q'.rest = t ∧ q'.left + q'.right ≤ q'.l.length) ∧
      (∀ x t, q.rest = t ++ [x] → q.peekright = .ok x ∧
        ∃ q', q.popright = .ok (x, q') ∧ q'.rest = t ∧ q'.left + q'.right ≤ q'.l.length) := by
  obtain ⟨l, a, b⟩ := q
  simp only at h
  have hlen : (PeekQueue.mk l a b).rest.length = l.length - a - b := by
    simp [PeekQueue.rest]
  have hl0 : (PeekQueue.mk l a b).len = ((l.length - a - b : ℕ) : ℤ) := by
    simp only [PeekQueue.len]; omega
  refine ⟨by rw [hl0, hlen], ?_, ?_, ?_⟩
  · intro e
    have : (PeekQueue.mk l a b).len = 0 := by
      rw [hl0]; rw [e] at hlen; simp at hlen; omega
    simp [PeekQueue.peekleft, PeekQueue.peekright, PeekQueue.popleft, PeekQueue.popright, this]
  · intro x t e
    have hn : ¬ (PeekQueue.mk l a b).len = 0 := by
      rw [hl0]; rw [e] at hlen; simp at hlen; omega
    have hpos : 0 < l.length - a - b := by rw [← hlen, e]; simp
    have hx : l[a]? = some x := by
      have : (PeekQueue.mk l a b).rest[0]? = some x := by rw [e]; rfl
      simp only [PeekQueue.rest] at this
      rw [List.getElem?_take_of_lt hpos, List.getElem?_drop] at this
      simpa using this
    have hi : idx l a = .ok x := by rw [idx, hx]
    have ht : (PeekQueue.mk l (a + 1) b).rest = t := by
      have : (PeekQueue.mk l a b).rest.tail = t := by rw [e]; rfl
      rw [← this]
      simp only [PeekQueue.rest]
      rw [← List.drop_one, List.drop_take, List.drop_drop]
      congr 1
      omega
    refine ⟨?_, ⟨l, a + 1, b⟩, ?_, ht, by simp only; omega⟩
    · unfold PeekQueue.peekleft; rw [if_neg hn]; exact hi
    · unfold PeekQueue.popleft; rw [if_neg hn]; simp [hi]
  · intro x t e
    have hn : ¬ (PeekQueue.mk l a b).len = 0 := by
      rw [hl0]; rw [e] at hlen; simp at hlen; omega
    have hpos : 0 < l.length - a - b := by rw [← hlen, e]; simp
    have hx : l[l.length - (b + 1)]? = some x := by
      have : (PeekQueue.mk l a b).rest[l.length - a - b - 1]? = some x := by
        rw [← hlen, e]; simp
      simp only [PeekQueue.rest] at this
      rw [List.getElem?_take_of_lt (by omega), List.getElem?_drop] at this
      rw [← this]
      congr 1
      omega
    have hi : idxNeg l (b + 1) = .ok x := by
      unfold idxNeg
      rw [if_neg (by omega), idx, hx]
    have ht : (PeekQueue.mk l a (b + 1)).rest = t := by
      have : (PeekQueue.mk l a b).rest.dropLast = t := by rw [e]; simp
      rw [← this, List.dropLast_eq_take, hlen]
      simp only [PeekQueue.rest]
      rw [List.take_take]
      congr 1
      omega
    refine ⟨?_, ⟨l, a, b + 1⟩, ?_, ht, by simp only; omega⟩
    · unfold PeekQueue.peekright; rw [if_neg hn]; exact hi
    · unfold PeekQueue.popright; rw [if_neg hn]; simp [hi]

/-! ## Where it fails -/

/-- Two customers at the same place. -/
def coincident (i j : ℕ) : ℚ := if i = 0 ∧ j = 0 then 0 else if i = 0 ∨ j = 0 then 1 else 0

/-- **C29 is false** for customers at the same place: the nearest neighbours of the second one leave out the
first entry, which is the other customer, and so customer 1 is never served. -/
theorem C29_coincident_false : nearest_neighbor_init coincident (fun _ => 1) none none 3 1 .closest false [] 20 =
      .ok (some (some [0, 2, 0])) ∧
    ¬ Covers 3 [0, 2, 0] := by
  refine ⟨by decide +kernel, fun h => ?_⟩
  have := h.length_eq
  revert this
  decide +kernel

/-- **C29 is false** for the seed mode "nearest" with several routes at once: if the routes that are built
take all customers before each route has a seed, the call ends with a `TypeError`. -/
theorem C29_nearest_false :
    nearest_neighbor_init (fun i j => if i = j then 0 else (i + j : ℕ)) (fun _ => 1) none none 3 3 .nearest false [] 20 =
      .error .typeError := by
  decide +kernel

/-- An interrupt when all customers are routed raises a `TypeError` in place of the solution. -/
theorem C29_interrupted_false :
    NNReach coincident (fun _ => 1) none none 2 1 .farthest false [] ⟨[[], [0]], [1, 0], [0], [some ⟨[1], 1, 0, 0⟩], 0⟩ ∧
      nnInterrupted 2 ⟨[[], [0]], [1, 0], [0], [some ⟨[1], 1, 0, 0⟩], 0⟩ = .error .typeError :=
  ⟨.single (by decide +kernel), by decide +kernel⟩

/-! ## Instances -/

/-- Five points on a line, the depot at 0. -/
def nnLine (i j : ℕ) : ℚ := if i ≤ j then (j - i : ℕ) else (i - j : ℕ)

example : DistinctCustomers 5 nnLine := by
  refine ⟨?_, ?_, ?_⟩
  · intro i j h1 h2 h3 h4 h5
    interval_cases i <;> interval_cases j <;> first | omega | decide +kernel
  · intro i h1 h2; interval_cases i <;> decide +kernel
  · intro i h1 h2; interval_cases i <;> decide +kernel

example : Serviceable 5 nnLine (fun _ => 1) (some 2) (some 8) := by
  intro i h1 h2
  interval_cases i <;> constructor <;> intro c hc _ <;> cases hc <;> decide +kernel

example : nearest_neighbor_init nnLine (fun _ => 1) (some 2) (some 8) 5 1 .farthest false [] 20 =
    .ok (some (some [0, 1, 2, 0, 3, 4, 0])) := by decide +kernel

example : nearest_neighbor_init nnLine (fun _ => 1) (some 2) (some 8) 5 2 .closest true [3] 20 =
    .ok (some (some [0, 4, 2, 0, 1, 0])) := by decide +kernel

example : (⟨[4, 5, 6, 7], 1, 1⟩ : PeekQueue).rest = [5, 6] := by decide +kernel

end Verif
