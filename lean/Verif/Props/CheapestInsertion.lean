import Verif.Lemmas.CheapestInsertion
import Verif.Spec.CheapestInsertion
import Mathlib.Logic.Relation
import Mathlib.Tactic.IntervalCases

/-! # C28: the cheapest insertion heuristic -/

namespace Verif
open Spec

theorem ciLoop_solves {N : ℕ} {D : ℕ → ℕ → ℚ} {d : ℕ → ℚ} {C L : Option ℚ} {P Q R : Prop} {s : CIState}
    (h : CIInv N D d C L P Q R s) (he : s.unrouted = []) (hP : Serviceable N D d C L → P) :
    Solves N D d C L (ciResult s) ∧ (Q → cost D (ciResult s) ≤ cost D (trivialSol N)) := by
  rw [ciResult_eq h]
  have hp : (ciRoutes s).flatten.Perm (List.range' 1 (N - 1)) := by
    rw [ciRoutes_flatten]
    have := h.perm
    rwa [he, List.append_nil] at this
  refine ⟨solves_good hp fun u hu => ⟨(ciRoutes_ok h u hu).1, fun hs => (ciRoutes_ok h u hu).2 (hP hs)⟩, fun q => ?_⟩
  have e1 : cost D (tour (ciRoutes s)) ≤ sepCost D (ciRoutes s).flatten := by
    rw [cost_tour_sum]
    have : ∀ u ∈ ciRoutes s, cost D (wrap u) ≤ sepCost D u := by
      intro u hu
      obtain ⟨rd, hrd, rfl⟩ := List.mem_map.1 hu
      have hk : CIRouteOk D d C L P Q rd := (List.mem_append.1 hrd).elim (h.routes rd) (h.complete rd)
      rw [← hk.shape, ← hk.cost]
      exact hk.sep q
    generalize ciRoutes s = us at this
    induction us with
    | nil => simp [sepCost]
    | cons u us ih =>
      rw [List.map_cons, List.sum_cons, List.flatten_cons, sepCost_append]
      exact add_le_add (this u (by simp)) (ih fun v hv => this v (by simp [hv]))
  refine e1.trans (le_of_eq ?_)
  rw [sepCost_perm D hp, trivialSol, cost_tour_sum]
  simp [sepCost, wrap, cost, Function.comp_def]

/-- **C28** (partial: the seeds of the mode "strain" need more, see `C28_strain` and `C28_strain_false`, and
the callbacks for seeds and insertions are left out). For the seeds "farthest" and "closest", any number of
routes at once up to the number of customers, any strain function and any order in which the heap gives its
entries, the heuristic ends with a complete solution that keeps the limits if every customer alone does.
When the number of routes is not minimised it costs no more than serving each customer on its own. -/
theorem C28_partial {N : ℕ} (D : ℕ → ℕ → ℚ) {d : ℕ → ℚ} (C L : Option ℚ) (mk : Bool) {count : ℕ} {mode : CIMode}
    (strain : ℕ → ℕ → ℕ → ℚ × ℚ) {pick : List Ins → ℕ} (hpick : PickOk pick) (h0 : d 0 = 0)
    (hm : mode = .farthest ∨ mode = .closest) (hc1 : 1 ≤ count) (hc2 : count ≤ N - 1) :
    ∃ sol, Solves N D d C L sol ∧ (mk = false → cost D sol ≤ cost D (trivialSol N)) ∧
      ∃ F, ∀ fuel ≥ F, cheapest_insertion_init D d C L N mk count mode strain pick fuel = .ok (some sol) := by
  have hm' : mode ≠ .other ∧ mode ≠ .strain := by rcases hm with rfl | rfl <;> simp
  have hS : SeedsOk N D d C L (Serviceable N D d C L) (mk = false) True := ⟨h0, fun _ => trivial, fun h => h⟩
  obtain ⟨i1, -, -, i4⟩ := ciInit_inv hS strain hm'.1 (fun _ seeds hs => by
    obtain ⟨seeds', h1, _, h3⟩ := ciSeeds_spec (N := N) D strain hm'.1
    rw [h1] at hs; injection hs with hs
    exact hs ▸ h3 hm'.2) count
  obtain ⟨s, hs⟩ := i1 ⟨.inl trivial, hc2⟩
  obtain ⟨j1, j2, j3⟩ := i4 s hs
  obtain ⟨s', k1, k2, k3⟩ := ciLoop_spec strain hpick (fun h => h) hS j1 (by omega)
  obtain ⟨r1, r2⟩ := ciLoop_solves k2 k3 fun h => h
  refine ⟨_, r1, r2, s.unrouted.length + 1, fun fuel hf => ?_⟩
  unfold cheapest_insertion_init
  rw [hs]
  simp only
  rw [k1 fuel (by omega)]

/-- **C28** for the seeds "strain" with any strain function: if the routes can be started (with one route at a
time they can), a solution comes out that serves every customer exactly once. -/
theorem C28_strain {N : ℕ} (D : ℕ → ℕ → ℚ) {d : ℕ → ℚ} (C L : Option ℚ) (mk : Bool) {count : ℕ}
    (strain : ℕ → ℕ → ℕ → ℚ × ℚ) {pick : List Ins → ℕ} (hpick : PickOk pick) (h0 : d 0 = 0)
    (hc1 : 1 ≤ count) (hN : 2 ≤ N) :
    (1 < count ∧ ∀ fuel, cheapest_insertion_init D d C L N mk count .strain strain pick fuel = .error .indexError) ∨
      ∃ sol, DepotEnds sol ∧ Covers N sol ∧ squeeze sol = sol ∧
        ∃ F, ∀ fuel ≥ F, cheapest_insertion_init D d C L N mk count .strain strain pick fuel = .ok (some sol) := by
  have hS : SeedsOk N D d none none False False False := ⟨h0, by simp, fun h => h.elim⟩
  have hS' : SeedsOk N D d C L False False False := ⟨h0, by simp, fun h => h.elim⟩
  obtain ⟨i1, -, i3, i4⟩ := ciInit_inv hS' strain (mode := .strain) (by simp) (fun h => h.elim) count
  cases hs : ciInit D d N count strain .strain with
  | error e =>
    left
    refine ⟨?_, fun fuel => ?_⟩
    · by_contra hh
      obtain ⟨s, e1⟩ := i1 ⟨.inr (by omega), by omega⟩
      rw [hs] at e1; cases e1
    · unfold cheapest_insertion_init
      rw [hs, i3 e hs]
  | ok s =>
    right
    obtain ⟨j1, j2, j3⟩ := i4 s hs
    obtain ⟨s', k1, k2, k3⟩ := ciLoop_spec (mk := mk) strain hpick (fun h => h.elim) hS' j1 (by omega)
    have hp : (ciRoutes s').flatten.Perm (List.range' 1 (N - 1)) := by
      rw [ciRoutes_flatten]
      have := k2.perm
      rwa [k3, List.append_nil] at this
    have hsol : Solves N D d none none (tour (ciRoutes s')) := solves_good hp fun u hu =>
      ⟨(ciRoutes_ok k2 u hu).1, fun _ => ⟨fun c (hc : none = some c) => (by cases hc), fun c (hc : none = some c) => (by cases hc)⟩⟩
    refine ⟨tour (ciRoutes s'), hsol.ends, hsol.covers, hsol.noEmpty, s.unrouted.length + 1, fun fuel hf => ?_⟩
    unfold cheapest_insertion_init
    rw [hs]
    simp only
    rw [k1 fuel (by omega)]
    simp only
    rw [ciResult_eq k2]

/-- **C28** for the seeds "strain" with the criterion of the code and the triangle inequality: a pair of
customers is never used as a seed, and so all the claims hold. -/
theorem C28_strain_triangle {N : ℕ} {D : ℕ → ℕ → ℚ} {d : ℕ → ℚ} (C L : Option ℚ) (mk : Bool) {count : ℕ} {lm mm : ℚ}
    {pick : List Ins → ℕ} (hpick : PickOk pick) (h0 : d 0 = 0) (hc1 : 1 ≤ count) (hc2 : count ≤ N - 1)
    (hlm : 0 ≤ lm) (hmm : 0 ≤ mm) (hnn : ∀ i j, 0 ≤ D i j) (hd : ∀ i, D i i = 0) (hsym : Symm D)
    (htri : ∀ i j k, D i k ≤ D i j + D j k) :
    ∃ sol, Solves N D d C L sol ∧ (mk = false → cost D sol ≤ cost D (trivialSol N)) ∧
      ∃ F, ∀ fuel ≥ F, cheapest_insertion_init D d C L N mk count .strain (parametrized_insertion_criteria D lm mm)
        pick fuel = .ok (some sol) := by
  have hS : SeedsOk N D d C L (Serviceable N D d C L) (mk = false) True := ⟨h0, fun _ => trivial, fun h => h⟩
  obtain ⟨i1, -, -, i4⟩ := ciInit_inv hS (parametrized_insertion_criteria D lm mm) (mode := .strain) (by simp)
    (fun _ seeds hs => strain_goodSeeds hlm hmm hnn hd (.inr ⟨fun i j => htri 0 i j,
      fun i j => by have := htri 0 j i; rwa [hsym j i] at this⟩) hs _) count
  obtain ⟨s, hs⟩ := i1 ⟨.inl trivial, hc2⟩
  obtain ⟨j1, j2, j3⟩ := i4 s hs
  obtain ⟨s', k1, k2, k3⟩ := ciLoop_spec (parametrized_insertion_criteria D lm mm) hpick (fun h => h) hS j1 (by omega)
  obtain ⟨r1, r2⟩ := ciLoop_solves k2 k3 fun h => h
  refine ⟨_, r1, r2, s.unrouted.length + 1, fun fuel hf => ?_⟩
  unfold cheapest_insertion_init
  rw [hs]
  simp only
  rw [k1 fuel (by omega)]

/-- More routes at once than customers: the call ends with an `IndexError`. -/
theorem C28_too_many {N : ℕ} (D : ℕ → ℕ → ℚ) {d : ℕ → ℚ} (C L : Option ℚ) (mk : Bool) {count : ℕ} {mode : CIMode}
    (strain : ℕ → ℕ → ℕ → ℚ × ℚ) (pick : List Ins → ℕ) (h0 : d 0 = 0) (hm : mode ≠ .other) (hc : N - 1 < count)
    (fuel : ℕ) : cheapest_insertion_init D d C L N mk count mode strain pick fuel = .error .indexError := by
  have hS : SeedsOk N D d C L False False False := ⟨h0, by simp, fun h => h.elim⟩
  obtain ⟨-, i2, -, -⟩ := ciInit_inv hS strain hm (fun h => h.elim) count
  unfold cheapest_insertion_init
  rw [i2 hc]

/-! ## The choice of the insertion -/

/-- The choice of the heap is one of its least entries. -/
def PickLeast (pick : List Ins → ℕ) : Prop :=
  PickOk pick ∧ ∀ h x, h[pick h]? = some x → ∀ y ∈ h, keyLe x.key y.key

theorem usable_iff {D : ℕ → ℕ → ℚ} {d : ℕ → ℚ} {C L : Option ℚ} {P Q : Prop} {mk : Bool} {rd : CIRoute} {ins : Ins}
    {un : List ℕ} (h : CIRouteOk D d C L P Q rd) (hi : InsOk D d C rd.route ins) :
    (ciValid d C ins rd un = true ∧ ciTry D L mk ins rd ≠ none) ↔ Usable D d C L mk rd un ins := by
  unfold ciValid ciTry
  constructor
  · rintro ⟨hv, ht⟩
    by_cases v1 : ins.customer ∉ un
    · rw [if_pos v1] at hv; cases hv
    rw [if_neg v1] at hv
    by_cases v2 : (ciNext rd.route ins.after.id).map (·.id) ≠ some ins.before.id
    · rw [if_pos v2] at hv; cases hv
    rw [if_neg v2] at hv
    by_cases v3 : exceeds C C_EPS (rd.used + d ins.customer) = true
    · rw [if_pos v3] at hv; cases hv
    by_cases t1 : mk = false ∧ ins.cost_delta - D 0 ins.customer - D ins.customer 0 > 0
    · rw [if_pos t1] at ht; exact absurd rfl ht
    rw [if_neg t1] at ht
    by_cases t2 : exceeds L S_EPS (rd.cost + ins.cost_delta) = true
    · rw [if_pos t2] at ht; exact absurd rfl ht
    simp only [not_not] at v1 v2
    obtain ⟨b, hb1, hb2⟩ := Option.map_eq_some_iff.1 v2
    obtain ⟨l, a, r, hr, ha⟩ := ciNext_spec hb1
    have hae : a = ins.after := node_eq h.ids (by rw [hr]; simp) hi.after ha
    have hbe : b = ins.before := node_eq h.ids (by rw [hr]; simp) hi.before hb2
    subst hae hbe
    refine ⟨v1, ⟨l, r, hr⟩, (exceeds_iff _ _ _).1 (by simpa using v3), fun e => ?_,
      (exceeds_iff _ _ _).1 (by simpa using t2)⟩
    by_contra hh
    exact t1 ⟨e, by linarith⟩
  · rintro ⟨u1, ⟨l, r, u2⟩, u3, u4, u5⟩
    have hnext : ciNext rd.route ins.after.id = some ins.before := by
      have hids := h.ids
      rw [u2] at hids ⊢
      clear u2
      induction l with
      | nil => simp [ciNext]
      | cons x l ih =>
        have hx : x.id ≠ ins.after.id := by
          intro e
          simp only [List.cons_append, List.map_cons, List.nodup_cons] at hids
          exact hids.1 (by rw [e]; simp)
        have hids' : ((l ++ ins.after :: ins.before :: r).map (·.id)).Nodup := by
          simp only [List.cons_append, List.map_cons, List.nodup_cons] at hids
          exact hids.2
        rw [← ih hids']
        cases l with
        | nil => simp [ciNext, hx]
        | cons y l => simp [ciNext, hx]
    rw [if_neg (by simpa using u1), hnext, if_neg (by simp), if_neg, if_neg, if_neg]
    · simp
    · rw [(exceeds_iff _ _ _).2 u5]; simp
    · rintro ⟨e, hh⟩
      have := u4 e
      linarith
    · rw [(exceeds_iff _ _ _).2 u3]; simp

/-- **C28**: the heuristic is greedy. A round tries the entries of the heap of a route; it makes the
insertion that is the least one of those that can be made, between the two nodes it is meant for, and makes
none only if there is none. -/
theorem C28_greedy {D : ℕ → ℕ → ℚ} {d : ℕ → ℚ} {C L : Option ℚ} {P Q : Prop} {mk : Bool}
    (strain : ℕ → ℕ → ℕ → ℚ × ℚ) {pick : List Ins → ℕ} (hpick : PickLeast pick) (un : List ℕ) (rd : CIRoute)
    (h : CIRouteOk D d C L P Q rd) :
    ∃ rd' un', ciPopLoop D d C L strain mk pick un rd.heap.length rd = .ok (rd', un') ∧
      ((un' = un ∧ rd'.route = rd.route ∧ ∀ ins ∈ rd.heap, ¬ Usable D d C L mk rd un ins) ∨
        ∃ ins ∈ rd.heap, Usable D d C L mk rd un ins ∧ un' = un.erase ins.customer ∧
          (∀ y ∈ rd.heap, Usable D d C L mk rd un y → keyLe ins.key y.key) ∧
          ∃ A B, rd.vals = A ++ ins.after.val :: ins.before.val :: B ∧
            rd'.vals = A ++ ins.after.val :: ins.customer :: ins.before.val :: B) := by
  generalize hn : rd.heap.length = n
  induction n generalizing rd with
  | zero =>
    refine ⟨rd, un, rfl, .inl ⟨rfl, rfl, ?_⟩⟩
    rw [List.length_eq_zero_iff.1 hn]; simp
  | succ n ih =>
    have hlt := hpick.1 rd.heap (by intro e; rw [e] at hn; simp at hn)
    have hget : rd.heap[pick rd.heap]? = some rd.heap[pick rd.heap] := List.getElem?_eq_getElem hlt
    generalize hins : rd.heap[pick rd.heap] = ins at hget
    have hmem : ins ∈ rd.heap := List.mem_of_getElem? hget
    have hiok := h.heap ins hmem
    have hs : ∀ x ∈ rd.heap.eraseIdx (pick rd.heap), x ∈ rd.heap := fun x hx => List.mem_of_mem_eraseIdx hx
    have h' := h.shrink hs
    have hl' : (rd.heap.eraseIdx (pick rd.heap)).length = n := by
      rw [List.length_eraseIdx_of_lt hlt, hn]; rfl
    have hsplit : ∀ y ∈ rd.heap, y = ins ∨ y ∈ rd.heap.eraseIdx (pick rd.heap) := by
      intro y hy
      obtain ⟨i, hi⟩ := List.mem_iff_getElem?.1 hy
      by_cases e : i = pick rd.heap
      · left; rw [e, hget] at hi; injection hi with hi; exact hi.symm
      · right; exact List.mem_eraseIdx_iff_getElem?.2 ⟨i, e, hi⟩
    have huse := usable_iff (mk := mk) (un := un) (L := L) h' hiok
    have husame : ∀ y, Usable D d C L mk { rd with heap := rd.heap.eraseIdx (pick rd.heap) } un y ↔
        Usable D d C L mk rd un y := fun y => ⟨fun u => ⟨u.1, u.2, u.3, u.4, u.5⟩, fun u => ⟨u.1, u.2, u.3, u.4, u.5⟩⟩
    rw [husame] at huse
    unfold ciPopLoop
    rw [show idx rd.heap (pick rd.heap) = .ok ins by rw [idx, hget]]
    simp only
    have hrest : ¬ Usable D d C L mk rd un ins →
        ∃ rd' un', ciPopLoop D d C L strain mk pick un n { rd with heap := rd.heap.eraseIdx (pick rd.heap) } =
          .ok (rd', un') ∧ ((un' = un ∧ rd'.route = rd.route ∧ ∀ ins ∈ rd.heap, ¬ Usable D d C L mk rd un ins) ∨
        ∃ ins ∈ rd.heap, Usable D d C L mk rd un ins ∧ un' = un.erase ins.customer ∧
          (∀ y ∈ rd.heap, Usable D d C L mk rd un y → keyLe ins.key y.key) ∧
          ∃ A B, rd.vals = A ++ ins.after.val :: ins.before.val :: B ∧
            rd'.vals = A ++ ins.after.val :: ins.customer :: ins.before.val :: B) := by
      intro hnot
      obtain ⟨rd', un', i1, i2⟩ := ih _ h' hl'
      refine ⟨rd', un', i1, ?_⟩
      rcases i2 with ⟨j1, j2, j3⟩ | ⟨x, j1, j2, j3, j4, A, B, j5, j6⟩
      · refine .inl ⟨j1, j2, fun y hy hu => ?_⟩
        rcases hsplit y hy with rfl | hy'
        · exact hnot hu
        · exact j3 y hy' ((husame y).2 hu)
      · refine .inr ⟨x, hs x j1, (husame x).1 j2, j3, fun y hy hu => ?_, A, B, j5, j6⟩
        rcases hsplit y hy with rfl | hy'
        · exact absurd hu hnot
        · exact j4 y hy' ((husame y).2 hu)
    by_cases hv : ciValid d C ins { rd with heap := rd.heap.eraseIdx (pick rd.heap) } un = true
    · rw [if_pos hv]
      cases ht : ciTry D L mk ins { rd with heap := rd.heap.eraseIdx (pick rd.heap) } with
      | none => exact hrest fun hu => (huse.2 hu).2 ht
      | some p =>
        obtain ⟨rd2, nw⟩ := p
        have hu := huse.1 ⟨hv, by rw [ht]; simp⟩
        refine ⟨_, _, rfl, .inr ⟨ins, hmem, hu, rfl, fun y hy _ => hpick.2 _ _ hget y hy, ?_⟩⟩
        obtain ⟨l, r, hr⟩ := hu.neighbours
        refine ⟨l.map (·.val), r.map (·.val), by rw [CIRoute.vals, hr]; simp, ?_⟩
        unfold ciTry at ht
        split_ifs at ht
        simp only [Option.some.injEq, Prod.mk.injEq] at ht
        obtain ⟨rfl, rfl⟩ := ht
        have hnb : ∀ y ∈ l ++ [ins.after], y.id ≠ ins.before.id := by
          intro y hy e
          have hids := h.ids
          have e' : rd.route = (l ++ [ins.after]) ++ ins.before :: r := by rw [hr]; simp
          rw [e', List.map_append, List.map_cons] at hids
          exact (List.nodup_append.1 hids).2.2 _ (List.mem_map_of_mem hy) _ (by simp) e
        have hroute : ciInsertBefore ⟨rd.route.length, ins.customer⟩ ins.before.id rd.route =
            l ++ ins.after :: ⟨rd.route.length, ins.customer⟩ :: ins.before :: r := by
          conv_lhs => arg 3; rw [hr]
          have := ciInsertBefore_eq ⟨rd.route.length, ins.customer⟩ ins.before (l ++ [ins.after]) r hnb
          simpa using this
        show (ciInsertBefore ⟨rd.route.length, ins.customer⟩ ins.before.id rd.route).map (·.val) = _
        rw [hroute]; simp
    · rw [if_neg hv]
      exact hrest fun hu => hv (huse.2 hu).1

/-! ## Interrupts -/

/-- The state is reached by rounds of the main loop. -/
def CIReach (D : ℕ → ℕ → ℚ) (d : ℕ → ℚ) (C L : Option ℚ) (strain : ℕ → ℕ → ℕ → ℚ × ℚ) (mk : Bool)
    (pick : List Ins → ℕ) (s0 s : CIState) : Prop :=
  Relation.ReflTransGen (fun a b => a.unrouted ≠ [] ∧ ciStep D d C L strain mk pick a = .ok b) s0 s

theorem ciReach_inv {N : ℕ} {D : ℕ → ℕ → ℚ} {d : ℕ → ℚ} {C L : Option ℚ} {P Q R : Prop} {mk : Bool}
    {strain : ℕ → ℕ → ℕ → ℚ × ℚ} {pick : List Ins → ℕ} (hpick : PickOk pick) (hQ : Q → mk = false)
    (hS : SeedsOk N D d C L P Q R) {s0 s : CIState} (h : CIInv N D d C L P Q R s0) (hk : s0.k < s0.routes.length)
    (hr : CIReach D d C L strain mk pick s0 s) : CIInv N D d C L P Q R s ∧ s.k < s.routes.length := by
  induction hr with
  | refl => exact ⟨h, hk⟩
  | tail _ hs ih =>
    obtain ⟨s', e1, e2, e3, _⟩ := ciStep_spec strain hpick hQ hS ih.1 ih.2 hs.1
    rw [e1] at hs
    have := hs.2
    injection this with this
    exact this ▸ ⟨e2, e3⟩

theorem ciInterrupted_solves {N : ℕ} {D : ℕ → ℕ → ℚ} {d : ℕ → ℚ} {C L : Option ℚ} {Q : Prop} {s : CIState}
    (h : ∀ rd ∈ s.routes ++ s.complete, CIRouteOk D d C L (Serviceable N D d C L) Q rd)
    (hnd : (allCusts (s.routes ++ s.complete)).Nodup) (hun : s.unrouted.Nodup)
    (hmem : ∀ x, (x ∈ allCusts (s.routes ++ s.complete) ∨ x ∈ s.unrouted) ↔ 1 ≤ x ∧ x < N) :
    Solves N D d C L (ciInterrupted s) := by
  have hres : ciResult s = tour (ciRoutes s) := by
    unfold ciResult ciRoutes
    rw [ciExport_eq _ fun r hr => h r (by simp [hr]), ciExport_eq _ fun r hr => h r (by simp [hr])]
    have := tour_append_flatMap [] ((s.routes ++ s.complete).map (·.custs))
    simp only [List.nil_append, tour] at this
    rw [this]
    simp
  unfold ciInterrupted
  simp only
  rw [hres]
  set us := ciRoutes s with hus
  have hfl : us.flatten = allCusts (s.routes ++ s.complete) := ciRoutes_flatten s
  set xs := s.unrouted.filter fun n => ! decide (n ∈ tour us) with hxs
  have hmx : ∀ x, x ∈ xs ↔ x ∈ s.unrouted ∧ x ∉ us.flatten := by
    intro x
    simp only [hxs, List.mem_filter, Bool.not_eq_true', decide_eq_false_iff_not, mem_tour, not_or]
    constructor
    · rintro ⟨h1, h2, h3⟩; exact ⟨h1, h3⟩
    · rintro ⟨h1, h3⟩
      have := (hmem x).1 (.inr h1)
      exact ⟨h1, by omega, h3⟩
  have hz : ∀ x ∈ xs, x ≠ 0 := fun x hx => by have := (hmem x).1 (.inr ((hmx x).1 hx).1); omega
  have hfold := singles_fold xs hz []
  simp only [tour, List.nil_append] at hfold
  rw [hfold, ← tour_append]
  refine solves_good ?_ ?_
  · rw [List.flatten_append]
    have e : (xs.map fun n => [n]).flatten = xs := by
      generalize xs = ys
      induction ys with
      | nil => rfl
      | cons x t ih => simp [ih]
    rw [e]
    refine (List.perm_ext_iff_of_nodup ?_ (List.nodup_range' (step := 1))).2 fun x => ?_
    · refine List.nodup_append.2 ⟨hfl ▸ hnd, hun.filter _, fun a ha b hb e => ?_⟩
      subst e
      exact ((hmx a).1 hb).2 ha
    · rw [List.mem_append, hmx, List.mem_range'_1]
      constructor
      · rintro (hx | hx)
        · have := (hmem x).1 (.inl (hfl ▸ hx)); omega
        · have := (hmem x).1 (.inr hx.1); omega
      · rintro hx
        by_cases hu : x ∈ us.flatten
        · exact .inl hu
        · exact .inr ⟨((hmem x).2 (by omega)).resolve_left (hfl ▸ hu), hu⟩
  · intro u hu
    rcases List.mem_append.1 hu with hu | hu
    · obtain ⟨rd, hrd, rfl⟩ := List.mem_map.1 hu
      exact ⟨(h rd hrd).ne, (h rd hrd).ok⟩
    · obtain ⟨x, hx, rfl⟩ := List.mem_map.1 hu
      have := (hmem x).1 (.inr ((hmx x).1 hx).1)
      exact ⟨by simp, fun hs => hs x this.1 this.2⟩

/-- **C28**: an interrupt hands out a complete solution that keeps the limits too, if it comes before a
round, or at any time while the entries of the heap are tried (the routes and unrouted customers are the same
then), or right after an insertion, before the customer is taken from the unrouted ones. -/
theorem C28_interrupted_partial {N : ℕ} (D : ℕ → ℕ → ℚ) {d : ℕ → ℚ} (C L : Option ℚ) (mk : Bool) {count : ℕ} {mode : CIMode}
    (strain : ℕ → ℕ → ℕ → ℚ × ℚ) {pick : List Ins → ℕ} (hpick : PickOk pick) (h0 : d 0 = 0)
    (hm : mode = .farthest ∨ mode = .closest) (hc1 : 1 ≤ count) {s0 s : CIState}
    (hs0 : ciInit D d N count strain mode = .ok s0) (hr : CIReach D d C L strain mk pick s0 s) :
    Solves N D d C L (ciInterrupted s) ∧
      ∀ rd, s.routes[s.k]? = some rd → ∀ ins ∈ (ciGenerate D d C L strain s.unrouted rd).heap,
        ∀ rd' nw, ciValid d C ins rd s.unrouted = true → ciTry D L mk ins rd = some (rd', nw) →
          Solves N D d C L (ciInterrupted { s with routes := s.routes.set s.k rd' }) := by
  have hm' : mode ≠ .other ∧ mode ≠ .strain := by rcases hm with rfl | rfl <;> simp
  have hS : SeedsOk N D d C L (Serviceable N D d C L) (mk = false) True := ⟨h0, fun _ => trivial, fun h => h⟩
  obtain ⟨-, -, -, i4⟩ := ciInit_inv hS strain hm'.1 (fun _ seeds hs => by
    obtain ⟨seeds', h1, _, h3⟩ := ciSeeds_spec (N := N) D strain hm'.1
    rw [h1] at hs; injection hs with hs
    exact hs ▸ h3 hm'.2) count
  obtain ⟨j1, j2, j3⟩ := i4 s0 hs0
  obtain ⟨k1, k2⟩ := ciReach_inv hpick (fun h => h) hS j1 (by omega) hr
  have hnd := k1.perm.nodup_iff.2 List.nodup_range'
  have hnd1 := (List.nodup_append.1 hnd)
  have hmem : ∀ x, (x ∈ allCusts (s.routes ++ s.complete) ∨ x ∈ s.unrouted) ↔ 1 ≤ x ∧ x < N := by
    intro x
    rw [← List.mem_append, k1.perm.mem_iff, List.mem_range'_1]
    omega
  refine ⟨ciInterrupted_solves (fun rd hrd => (List.mem_append.1 hrd).elim (k1.routes rd) (k1.complete rd))
    hnd1.1 hnd1.2.1 hmem, ?_⟩
  intro rd hrd ins hins rd' nw hv ht
  have hrd0 := k1.routes rd (List.mem_of_getElem? hrd)
  obtain ⟨g1, g2⟩ := ciGenerate_ok strain s.unrouted hrd0
  obtain ⟨t1, t2, t3, -, -, -⟩ := ciTry_spec hrd0 (g2 ▸ g1.heap ins hins) (fun h => h) hv ht
  have hset := allCusts_set hrd rd'
  have hp : (allCusts (s.routes.set s.k rd' ++ s.complete)).Perm
      (ins.customer :: allCusts (s.routes ++ s.complete)) := by
    have h2 := hset.trans (t2.append_right _)
    rw [allCusts_append, allCusts_append]
    rw [List.perm_iff_count] at h2 ⊢
    intro x
    have a1 := h2 x
    simp only [List.count_append, List.count_cons] at a1 ⊢
    omega
  refine ciInterrupted_solves (Q := mk = false) ?_ ?_ hnd1.2.1 ?_
  · intro r hr'
    rcases List.mem_append.1 hr' with hr' | hr'
    · rcases List.mem_or_eq_of_mem_set hr' with hr' | rfl
      · exact k1.routes r hr'
      · exact t1
    · exact k1.complete r hr'
  · refine hp.nodup_iff.2 (List.nodup_cons.2 ⟨fun hx => ?_, hnd1.1⟩)
    exact hnd1.2.2 _ hx _ t3 rfl
  · intro x
    simp only
    rw [hp.mem_iff, List.mem_cons, ← hmem x]
    constructor
    · rintro ((rfl | h) | h)
      exacts [.inr t3, .inl h, .inr h]
    · rintro (h | h)
      exacts [.inl (.inr h), .inr h]

/-! ## Instances, and where it fails -/

/-- The first one of the least entries. -/
def leastKey (h : List Ins) : ℕ := h.findIdx fun x => h.all fun y => decide (keyLe x.key y.key)

theorem keyLe_total (a b : ℚ × ℚ × ℚ) : keyLe a b ∨ keyLe b a := by
  unfold keyLe
  rcases lt_trichotomy a.1 b.1 with h | h | h
  · exact .inl (.inl h)
  · rcases lt_trichotomy a.2.1 b.2.1 with g | g | g
    · exact .inl (.inr ⟨h, .inl g⟩)
    · rcases le_total a.2.2 b.2.2 with f | f
      · exact .inl (.inr ⟨h, .inr ⟨g, f⟩⟩)
      · exact .inr (.inr ⟨h.symm, .inr ⟨g.symm, f⟩⟩)
    · exact .inr (.inr ⟨h.symm, .inl g⟩)
  · exact .inr (.inl h)

theorem keyLe_trans {a b c : ℚ × ℚ × ℚ} (h1 : keyLe a b) (h2 : keyLe b c) : keyLe a c := by
  unfold keyLe at *
  rcases h1 with h1 | ⟨h1, g1⟩
  · rcases h2 with h2 | ⟨h2, g2⟩
    · exact .inl (h1.trans h2)
    · exact .inl (h2 ▸ h1)
  · rcases h2 with h2 | ⟨h2, g2⟩
    · exact .inl (h1 ▸ h2)
    · refine .inr ⟨h1.trans h2, ?_⟩
      rcases g1 with g1 | ⟨g1, f1⟩
      · rcases g2 with g2 | ⟨g2, f2⟩
        · exact .inl (g1.trans g2)
        · exact .inl (g2 ▸ g1)
      · rcases g2 with g2 | ⟨g2, f2⟩
        · exact .inl (g1 ▸ g2)
        · exact .inr ⟨g1.trans g2, f1.trans f2⟩

theorem exists_least (h : List Ins) (hne : h ≠ []) : ∃ x ∈ h, ∀ y ∈ h, keyLe x.key y.key := by
  induction h with
  | nil => exact absurd rfl hne
  | cons a t ih =>
    by_cases ht : t = []
    · subst ht
      exact ⟨a, by simp, fun y hy => by rw [List.mem_singleton.1 hy]; exact (keyLe_total _ _).elim id id⟩
    · obtain ⟨x, h1, h2⟩ := ih ht
      rcases keyLe_total a.key x.key with h3 | h3
      · refine ⟨a, by simp, fun y hy => ?_⟩
        rcases List.mem_cons.1 hy with rfl | hy
        · exact (keyLe_total _ _).elim id id
        · exact keyLe_trans h3 (h2 y hy)
      · refine ⟨x, by simp [h1], fun y hy => ?_⟩
        rcases List.mem_cons.1 hy with rfl | hy
        · exact h3
        · exact h2 y hy

theorem findIdx_some {p : Ins → Bool} {l : List Ins} {x : Ins} (h : l[l.findIdx p]? = some x) : p x = true := by
  obtain ⟨w, e⟩ := List.getElem?_eq_some_iff.1 h
  rw [← e]
  exact List.findIdx_getElem (w := w)

/-- The hypotheses about the heap can be met. -/
theorem leastKey_ok : PickLeast leastKey := by
  constructor
  · intro h hne
    obtain ⟨x, h1, h2⟩ := exists_least h hne
    exact List.findIdx_lt_length_of_exists ⟨x, h1, by simpa using h2⟩
  · intro h x hx y hy
    have := findIdx_some hx
    simp only [List.all_eq_true, decide_eq_true_eq] at this
    exact this y hy

/-- Two customers; their distance breaks the triangle inequality. -/
def ciBad (i j : ℕ) : ℚ := if i = j then 0 else if i + j = 2 then 10 else 1

/-- **C28 is false** for the seeds "strain" without the triangle inequality: with the minimum strain criterion
the pair of both customers is the first seed, whatever their demands. -/
theorem C28_strain_false :
    Serviceable 3 ciBad (fun n => if n = 0 then 0 else 1) (some 1) none ∧
    cheapest_insertion_init ciBad (fun n => if n = 0 then 0 else 1) (some 1) none 3 false 1 .strain
      (parametrized_insertion_criteria ciBad 0 1) leastKey 10 = .ok (some [0, 1, 2, 0]) ∧
    ¬ Feasible ciBad (fun n => if n = 0 then 0 else 1) (some 1) none [0, 1, 2, 0] := by
  refine ⟨?_, by decide +kernel, ?_⟩
  · intro i h1 h2
    refine ⟨?_, fun c hc => (by cases hc)⟩
    rw [← exceeds_iff]
    interval_cases i <;> decide +kernel
  · intro h
    have := (h [1, 2] (by decide)).1
    rw [← exceeds_iff] at this
    revert this
    decide +kernel

/-- Customers on a line. -/
def ciLine (i j : ℕ) : ℚ := if i ≤ j then (j - i : ℕ) else (i - j : ℕ)

/-- **C28**: an interrupt between lines 385 and 403, while a new route is started, hands out a solution where
the customers of the completed route are served twice, and before line 403 the seed of the new route is lost. -/
theorem C28_interrupted_false :
    ∃ s rd un seeds, ciInit ciLine (fun n => if n = 0 then 0 else 1) 3 1 (fun _ _ _ => (0, 0)) .farthest = .ok s ∧
      ciNewRoute ciLine (fun n => if n = 0 then 0 else 1) s.unrouted s.seeds = .ok (rd, un, seeds) ∧
      ciStep ciLine (fun n => if n = 0 then 0 else 1) (some 1) none (fun _ _ _ => (0, 0)) false leastKey s =
        .ok { s with routes := [rd], complete := s.routes, unrouted := un, seeds := seeds } ∧
      ciInterrupted { s with complete := s.routes } = [0, 2, 0, 2, 0, 1, 0] ∧
      ciInterrupted { s with complete := s.routes, unrouted := un, seeds := seeds } = [0, 2, 0, 2, 0] :=
  ⟨⟨[[1]], [1], [⟨[⟨0, 0⟩, ⟨1, 2⟩, ⟨2, 0⟩], 4, 1, []⟩], [], 0⟩, ⟨[⟨0, 0⟩, ⟨1, 1⟩, ⟨2, 0⟩], 2, 1, []⟩, [], [],
    by decide +kernel, by decide +kernel, by decide +kernel, by decide +kernel, by decide +kernel⟩

example : cheapest_insertion_init ciLine (fun n => if n = 0 then 0 else 1) (some 2) (some 10) 6 false 2 .farthest
    (parametrized_insertion_criteria ciLine 1 0) leastKey 20 = .ok (some [0, 1, 0, 2, 4, 0, 3, 5, 0]) := by
  decide +kernel

example : Serviceable 6 ciLine (fun n => if n = 0 then 0 else 1) (some 2) (some 10) := by
  intro i h1 h2
  rw [RouteOk, ← exceeds_iff, ← exceeds_iff]
  interval_cases i <;> decide +kernel

end Verif
