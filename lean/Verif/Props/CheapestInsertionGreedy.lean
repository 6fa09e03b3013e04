import Verif.Props.CheapestInsertion
import Verif.Lemmas.CheapestInsertionFull
import Verif.Lemmas.Cmt

/-! # C28: which insertion the cheapest insertion heuristic makes, when it closes a route, and with which
customer it starts one -/

namespace Verif
open Spec

theorem fitsN_iff {D : ℕ → ℕ → ℚ} {d : ℕ → ℚ} {C L : Option ℚ} {P Q : Prop} {mk : Bool} {rd : CIRoute}
    (h : CIRouteOk D d C L P Q rd) (a b c : ℕ) : InsertionFits D d C L mk rd.custs a c b ↔
      ∃ l x y r, rd.route = l ++ x :: y :: r ∧ x.val = a ∧ y.val = b ∧ FitsN D d C L mk rd x y c := by
  have hcap : Within C C_EPS (demand d rd.custs + d c) ↔ Within C C_EPS (rd.used + d c) := by
    by_cases hC : truthy C = true
    · rw [h.used hC]
    · exact ⟨fun _ => within_of_not_truthy hC _ _, fun _ => within_of_not_truthy hC _ _⟩
  constructor
  · rintro ⟨⟨A, B, e⟩, f1, f2, f3⟩
    rw [← h.shape] at e
    obtain ⟨l, t, e1, -, e3⟩ := List.map_eq_append_iff.1 e
    obtain ⟨x, t, rfl, e4, e5⟩ := List.map_eq_cons_iff.1 e3
    obtain ⟨y, t, rfl, e6, -⟩ := List.map_eq_cons_iff.1 e5
    rw [← h.shape, ← h.cost] at f3
    subst e4 e6
    exact ⟨l, x, y, t, e1, rfl, rfl, hcap.1 f1, f2, f3⟩
  · rintro ⟨l, x, y, r, e, rfl, rfl, f1, f2, f3⟩
    refine ⟨⟨l.map (·.val), r.map (·.val), ?_⟩, hcap.2 f1, f2, ?_⟩
    · rw [← h.shape, CIRoute.vals, e]; simp
    · rw [← h.shape, ← h.cost]; exact f3

/-- What is kept about the heaps and the closed routes. -/
structure CIHeaps (D : ℕ → ℕ → ℚ) (d : ℕ → ℚ) (C L : Option ℚ) (mk : Bool) (strain : ℕ → ℕ → ℕ → ℚ × ℚ)
    (s : CIState) : Prop where
  full : ∀ rd ∈ s.routes, rd.heap = [] ∨ HeapFull D d C L mk rd s.unrouted
  keys : ∀ rd ∈ s.routes, HeapKeys D d C strain rd
  closed : ∀ rd ∈ s.complete, ∀ c ∈ s.unrouted, ∀ a b, ¬ InsertionFits D d C L mk rd.custs a c b

theorem heapFull_sub {D : ℕ → ℕ → ℚ} {d : ℕ → ℚ} {C L : Option ℚ} {mk : Bool} {rd : CIRoute} {un un' : List ℕ}
    (h : HeapFull D d C L mk rd un) (hs : ∀ x ∈ un', x ∈ un) : HeapFull D d C L mk rd un' :=
  fun c hc => h c (hs c hc)

theorem not_fits {D : ℕ → ℕ → ℚ} {d : ℕ → ℚ} {C L : Option ℚ} {P Q : Prop} {mk : Bool} {rd : CIRoute} {un : List ℕ}
    (h : CIRouteOk D d C L P Q rd) (hf : HeapFull D d C L mk rd un) (he : rd.heap = []) :
    ∀ c ∈ un, ∀ a b, ¬ InsertionFits D d C L mk rd.custs a c b := by
  intro c hc a b hfit
  obtain ⟨l, x, y, r, e, -, -, hn⟩ := (fitsN_iff h a b c).1 hfit
  obtain ⟨ins, hi, -⟩ := hf c hc l x y r e hn
  rw [he] at hi
  simp at hi

theorem foldl_erase_sub (t : List ℕ) : ∀ (u : List ℕ), ∀ x ∈ t.foldl List.erase u, x ∈ u := by
  induction t with
  | nil => intro u x hx; exact hx
  | cons a t ih => intro u x hx; exact List.mem_of_mem_erase (ih _ x hx)

theorem ciNewRoute_heap {D : ℕ → ℕ → ℚ} {d : ℕ → ℚ} {un un' : List ℕ} {rd : CIRoute} :
    ∀ {seeds seeds' : List (List ℕ)}, ciNewRoute D d un seeds = .ok (rd, un', seeds') →
      rd.heap = [] ∧ ∀ x ∈ un', x ∈ un := by
  intro seeds
  induction seeds with
  | nil => intro seeds' h; simp [ciNewRoute] at h
  | cons c seeds ih =>
    intro seeds' h
    rw [ciNewRoute] at h
    by_cases hc : ciChoose un c [] = []
    · simp only [if_pos hc] at h; exact ih h
    · simp only [if_neg hc, Except.ok.injEq, Prod.mk.injEq] at h
      obtain ⟨rfl, rfl, -⟩ := h
      refine ⟨by unfold ciSeedRoute; simp only; split_ifs <;> rfl, ?_⟩
      exact foldl_erase_sub _ _
/-- A round of the main loop works on the route whose turn it is. -/
theorem ciStep_least {N : ℕ} {D : ℕ → ℕ → ℚ} {d : ℕ → ℚ} {C L : Option ℚ} {P Q R : Prop} {mk : Bool}
    {strain : ℕ → ℕ → ℕ → ℚ × ℚ} {pick : List Ins → ℕ} (hpick : PickLeast pick) (hQ : Q → mk = false)
    (hd : ∀ i, 0 ≤ d i) (htri : ∀ a c b, 0 ≤ detour D a c b) {s : CIState} (h : CIInv N D d C L P Q R s)
    (hne : s.unrouted ≠ []) (hh : CIHeaps D d C L mk strain s) {rd : CIRoute} (hget : s.routes[s.k]? = some rd)
    {s' : CIState} (hstep : ciStep D d C L strain mk pick s = .ok s') :
    CIHeaps D d C L mk strain s' ∧ ∃ rd1 : CIRoute,
      (((∀ c ∈ s.unrouted, ∀ a b, ¬ InsertionFits D d C L mk rd.custs a c b) ∧ rd1.custs = rd.custs ∧
          s'.complete = s.complete ++ [rd1]) ∨
        ∃ a c b A B, c ∈ s.unrouted ∧ InsertionFits D d C L mk rd.custs a c b ∧ wrap rd.custs = A ++ a :: b :: B ∧
          wrap rd1.custs = A ++ a :: c :: b :: B ∧
          (∀ c' ∈ s.unrouted, ∀ a' b', InsertionFits D d C L mk rd.custs a' c' b' →
            keyLe (insKey D strain a c b) (insKey D strain a' c' b')) ∧
          ((s'.complete = s.complete ∧ s'.routes[s.k]? = some rd1 ∧ s'.unrouted = s.unrouted.erase c) ∨
            (s'.complete = s.complete ++ [rd1] ∧
              ∀ c' ∈ s.unrouted.erase c, ∀ a' b', ¬ InsertionFits D d C L mk rd1.custs a' c' b'))) := by
  have hmemrd := List.mem_of_getElem? hget
  have hrd := h.routes rd hmemrd
  obtain ⟨g1, g2⟩ := ciGenerate_ok strain s.unrouted hrd
  obtain ⟨f1, f2⟩ := ciGenerate_full (L := L) (mk := mk) (hh.keys rd hmemrd) (hh.full rd hmemrd)
  have gc := custs_of_route g2
  obtain ⟨rd1, un1, p1, p2, p3⟩ := ciPopLoop_spec strain hpick.1 s.unrouted hQ _ _ rfl g1
  obtain ⟨q1, q2⟩ := ciPopLoop_full hpick.1 h.unNodup hd htri (fun rd ins a b c => (usable_iff a b).2 c) _ _ rfl g1
    f1 f2 _ _ p1
  obtain ⟨rd2, un2, t1, t2⟩ := C28_greedy (mk := mk) strain hpick s.unrouted _ g1
  rw [p1] at t1
  simp only [Except.ok.injEq, Prod.mk.injEq] at t1
  obtain ⟨rfl, rfl⟩ := t1
  unfold ciStep at hstep
  rw [show idx s.routes s.k = .ok rd by rw [idx, hget]] at hstep
  simp only at hstep
  rw [p1] at hstep
  simp only at hstep
  have hsub : ∀ x ∈ un1, x ∈ s.unrouted := by
    rcases p3 with ⟨_, rfl, _⟩ | ⟨c, _, rfl, _⟩
    · exact fun x hx => hx
    · exact fun x hx => List.mem_of_mem_erase hx
  have hlt : s.k < s.routes.length := (List.getElem?_eq_some_iff.1 hget).1
  -- the next state
  have hs' : CIHeaps D d C L mk strain s' ∧
      ((rd1.heap = [] ∧ un1 ≠ [] ∧ s'.complete = s.complete ++ [rd1]) ∨
        (¬ (rd1.heap = [] ∧ un1 ≠ []) ∧ s'.complete = s.complete ∧ s'.routes[s.k]? = some rd1 ∧ s'.unrouted = un1)) := by
    unfold ciRenew at hstep
    simp only at hstep
    by_cases hren : rd1.heap = [] ∧ un1 ≠ []
    · rw [if_pos hren] at hstep
      cases hn : ciNewRoute D d un1 s.seeds with
      | error e => rw [hn] at hstep; cases hstep
      | ok t =>
        obtain ⟨rd', un', seeds'⟩ := t
        rw [hn] at hstep
        simp only [Except.ok.injEq] at hstep
        subst hstep
        obtain ⟨n1, n2⟩ := ciNewRoute_heap hn
        refine ⟨⟨?_, ?_, ?_⟩, .inl ⟨hren.1, hren.2, rfl⟩⟩
        · intro r hr
          rcases List.mem_or_eq_of_mem_set hr with hr | rfl
          · exact (hh.full r hr).imp id fun hf => heapFull_sub hf fun x hx => hsub x (n2 x hx)
          · exact .inl n1
        · intro r hr
          rcases List.mem_or_eq_of_mem_set hr with hr | rfl
          · exact hh.keys r hr
          · intro x hx; rw [n1] at hx; simp at hx
        · intro r hr c hc
          rcases List.mem_append.1 hr with hr | hr
          · exact hh.closed r hr c (hsub c (n2 c hc))
          · rw [List.mem_singleton.1 hr]; exact not_fits p2 q1 hren.1 c (n2 c hc)
    · rw [if_neg hren] at hstep
      injection hstep with hstep
      subst hstep
      refine ⟨⟨?_, ?_, ?_⟩, .inr ⟨hren, rfl, by simp [hlt], rfl⟩⟩
      · intro r hr
        rcases List.mem_or_eq_of_mem_set hr with hr | rfl
        · exact (hh.full r hr).imp id fun hf => heapFull_sub hf hsub
        · exact .inr q1
      · intro r hr
        rcases List.mem_or_eq_of_mem_set hr with hr | rfl
        · exact hh.keys r hr
        · exact q2
      · intro r hr c hc
        exact hh.closed r hr c (hsub c hc)
  refine ⟨hs'.1, rd1, ?_⟩
  rcases t2 with ⟨j1, j2, j3⟩ | ⟨ins, j1, j2, j3, j4, A, B, j5, j6⟩
  · left
    subst j1
    refine ⟨?_, by rw [custs_of_route j2, gc], ?_⟩
    · intro c hc a b hfit
      rw [← gc] at hfit
      obtain ⟨l, x, y, r, e, -, -, hn⟩ := (fitsN_iff g1 a b c).1 hfit
      obtain ⟨ins, hi, rfl, rfl, rfl⟩ := f1 c hc l x y r e hn
      have hdl := (g1.heap ins hi).delta
      have hdelta : ins.cost_delta = detour D ins.after.val ins.customer ins.before.val := by rw [hdl, detour]; ring
      exact j3 ins hi ⟨hc, ⟨l, r, e⟩, hn.1, by rw [hdelta]; exact hn.2, by rw [hdelta]; exact hn.3⟩
    · rcases hs'.2 with ⟨_, _, e⟩ | ⟨e1, e2, e3, e4⟩
      · exact e
      · exfalso
        rcases p3 with ⟨e5, _, _⟩ | ⟨c, c1, c2, _⟩
        · exact e1 ⟨e5, hne⟩
        · have := List.length_erase_of_mem c1
          rw [← c2] at this
          have := List.length_pos_of_mem c1
          omega
  · right
    have hdl := (g1.heap ins j1).delta
    have hdelta : ins.cost_delta = detour D ins.after.val ins.customer ins.before.val := by rw [hdl, detour]; ring
    have hfitc : InsertionFits D d C L mk rd.custs ins.after.val ins.customer ins.before.val := by
      rw [← gc, fitsN_iff g1]
      obtain ⟨l, r, e⟩ := j2.neighbours
      refine ⟨l, _, _, r, e, rfl, rfl, j2.capacity, ?_, ?_⟩
      · rw [← hdelta]; exact j2.saving
      · rw [← hdelta]; exact j2.length
    refine ⟨ins.after.val, ins.customer, ins.before.val, A, B, j2.free, hfitc, ?_, ?_, ?_, ?_⟩
    · rw [← gc, ← g1.shape]; exact j5
    · rw [← p2.shape]; exact j6
    · intro c' hc' a' b' hfit
      rw [← gc] at hfit
      obtain ⟨l, x, y, r, e, rfl, rfl, hn⟩ := (fitsN_iff g1 a' b' c').1 hfit
      obtain ⟨i2, hi, rfl, rfl, rfl⟩ := f1 c' hc' l x y r e hn
      have hdl2 := (g1.heap i2 hi).delta
      have hdelta2 : i2.cost_delta = detour D i2.after.val i2.customer i2.before.val := by rw [hdl2, detour]; ring
      rw [← (f2 ins j1).1, ← (f2 i2 hi).1]
      exact j4 i2 hi ⟨hc', ⟨l, r, e⟩, hn.1, by rw [hdelta2]; exact hn.2, by rw [hdelta2]; exact hn.3⟩
    · rcases hs'.2 with ⟨e1, e2, e3⟩ | ⟨e1, e2, e3, e4⟩
      · right
        refine ⟨e3, ?_⟩
        rw [← j3]
        exact not_fits p2 q1 e1
      · left
        exact ⟨e2, e3, by rw [e4, j3]⟩

theorem ciStart_heaps {D : ℕ → ℕ → ℚ} {d : ℕ → ℚ} {C L : Option ℚ} {mk : Bool} {strain : ℕ → ℕ → ℕ → ℚ × ℚ} :
    ∀ (n : ℕ) {s s' : CIState}, (∀ rd ∈ s.routes, rd.heap = []) → s.complete = [] → ciStart D d n s = .ok s' →
      CIHeaps D d C L mk strain s' := by
  intro n
  induction n with
  | zero =>
    intro s s' h1 h2 h
    injection h with h
    subst h
    exact ⟨fun rd hrd => .inl (h1 rd hrd), fun rd hrd x hx => by rw [h1 rd hrd] at hx; simp at hx,
      fun rd hrd => by rw [h2] at hrd; simp at hrd⟩
  | succ n ih =>
    intro s s' h1 h2 h
    rw [ciStart] at h
    cases hn : ciNewRoute D d s.unrouted s.seeds with
    | error e => rw [hn] at h; cases h
    | ok t =>
      obtain ⟨rd', un', seeds'⟩ := t
      rw [hn] at h
      refine ih ?_ ?_ h
      · intro rd hrd
        rcases List.mem_append.1 hrd with hrd | hrd
        · exact h1 rd hrd
        · rw [List.mem_singleton.1 hrd]; exact (ciNewRoute_heap hn).1
      · exact h2

/-- Every state of a run, with all that is kept. -/
theorem ciReach_heaps {N : ℕ} {D : ℕ → ℕ → ℚ} {d : ℕ → ℚ} {C L : Option ℚ} {mk : Bool} {count : ℕ} {mode : CIMode}
    {strain : ℕ → ℕ → ℕ → ℚ × ℚ} {pick : List Ins → ℕ} (hpick : PickLeast pick) (h0 : d 0 = 0)
    (hd : ∀ i, 0 ≤ d i) (htri : ∀ a c b, 0 ≤ detour D a c b) (hm : mode ≠ .other) (hc : 1 ≤ count)
    {s0 s : CIState} (hs0 : ciInit D d N count strain mode = .ok s0) (hr : CIReach D d C L strain mk pick s0 s) :
    CIInv N D d C L False False False s ∧ s.k < s.routes.length ∧ CIHeaps D d C L mk strain s := by
  have hS : SeedsOk N D d C L False False False := ⟨h0, by simp, fun h => h.elim⟩
  obtain ⟨-, -, -, i4⟩ := ciInit_inv hS strain hm (fun h => h.elim) count
  obtain ⟨j1, j2, j3⟩ := i4 s0 hs0
  induction hr with
  | refl =>
    refine ⟨j1, by omega, ?_⟩
    unfold ciInit at hs0
    cases hseeds : ciSeeds D N strain mode with
    | error e => rw [hseeds] at hs0; cases hs0
    | ok seeds =>
      rw [hseeds] at hs0
      exact ciStart_heaps count (by simp) rfl hs0
  | tail _ hs ih =>
    obtain ⟨i1, i2, i3⟩ := ih
    obtain ⟨s', e1, e2, e3, _⟩ := ciStep_spec (mk := mk) strain hpick.1 (fun h => h.elim) hS i1 i2 hs.1
    rw [hs.2] at e1
    injection e1 with e1
    subst e1
    exact ⟨e2, e3, (ciStep_least hpick (fun h => h.elim) hd htri i1 hs.1 i3 (List.getElem?_eq_getElem i2) hs.2).1⟩

/-- **C28**: the heuristic really is a cheapest insertion. In each round, with the triangle inequality and
demands that are not negative, of all the ways to put a customer that is not yet routed between two
neighbours of the route whose turn it is, such that the limits hold, one with the least key is taken; and if
there is none, the route is closed as it is. A route is closed right after an insertion only if nothing
else fits. -/
theorem C28_least {N : ℕ} {D : ℕ → ℕ → ℚ} {d : ℕ → ℚ} {C L : Option ℚ} {mk : Bool} {count : ℕ} {mode : CIMode}
    {strain : ℕ → ℕ → ℕ → ℚ × ℚ} {pick : List Ins → ℕ} (hpick : PickLeast pick) (h0 : d 0 = 0)
    (hd : ∀ i, 0 ≤ d i) (htri : ∀ a c b, 0 ≤ detour D a c b) (hm : mode ≠ .other) (hc : 1 ≤ count)
    {s0 s s' : CIState} (hs0 : ciInit D d N count strain mode = .ok s0) (hr : CIReach D d C L strain mk pick s0 s)
    (hne : s.unrouted ≠ []) (hstep : ciStep D d C L strain mk pick s = .ok s') :
    ∃ rd rd1 : CIRoute, s.routes[s.k]? = some rd ∧
      (((∀ c ∈ s.unrouted, ∀ a b, ¬ InsertionFits D d C L mk rd.custs a c b) ∧ rd1.custs = rd.custs ∧
          s'.complete = s.complete ++ [rd1]) ∨
        ∃ a c b A B, c ∈ s.unrouted ∧ InsertionFits D d C L mk rd.custs a c b ∧ wrap rd.custs = A ++ a :: b :: B ∧
          wrap rd1.custs = A ++ a :: c :: b :: B ∧
          (∀ c' ∈ s.unrouted, ∀ a' b', InsertionFits D d C L mk rd.custs a' c' b' →
            keyLe (insKey D strain a c b) (insKey D strain a' c' b')) ∧
          ((s'.complete = s.complete ∧ s'.routes[s.k]? = some rd1 ∧ s'.unrouted = s.unrouted.erase c) ∨
            (s'.complete = s.complete ++ [rd1] ∧
              ∀ c' ∈ s.unrouted.erase c, ∀ a' b', ¬ InsertionFits D d C L mk rd1.custs a' c' b'))) := by
  obtain ⟨i1, i2, i3⟩ := ciReach_heaps hpick h0 hd htri hm hc hs0 hr
  have hget := List.getElem?_eq_getElem i2
  obtain ⟨-, rd1, h1⟩ := ciStep_least hpick (fun h => h.elim) hd htri i1 hne i3 hget hstep
  exact ⟨_, rd1, hget, h1⟩

/-- **C28**: a closed route is full. At any time, no customer that is still to be routed fits anywhere into a
route that has been closed. -/
theorem C28_closed {N : ℕ} {D : ℕ → ℕ → ℚ} {d : ℕ → ℚ} {C L : Option ℚ} {mk : Bool} {count : ℕ} {mode : CIMode}
    {strain : ℕ → ℕ → ℕ → ℚ × ℚ} {pick : List Ins → ℕ} (hpick : PickLeast pick) (h0 : d 0 = 0)
    (hd : ∀ i, 0 ≤ d i) (htri : ∀ a c b, 0 ≤ detour D a c b) (hm : mode ≠ .other) (hc : 1 ≤ count)
    {s0 s : CIState} (hs0 : ciInit D d N count strain mode = .ok s0) (hr : CIReach D d C L strain mk pick s0 s) :
    ∀ rd ∈ s.complete, ∀ c ∈ s.unrouted, ∀ a b, ¬ InsertionFits D d C L mk rd.custs a c b :=
  (ciReach_heaps hpick h0 hd htri hm hc hs0 hr).2.2.closed

/-! ## The seeds -/

/-- The seeds left are single customers in the order `R`, with all that are not yet routed. -/
def SeedOrder (R : ℕ → ℕ → Prop) (seeds : List (List ℕ)) (un : List ℕ) : Prop :=
  ∃ xs : List ℕ, seeds = xs.map (fun x => [x]) ∧ xs.Pairwise R ∧ ∀ x ∈ un, x ∈ xs

theorem SeedOrder.sub {R : ℕ → ℕ → Prop} {seeds : List (List ℕ)} {un un' : List ℕ} (h : SeedOrder R seeds un)
    (hs : ∀ x ∈ un', x ∈ un) : SeedOrder R seeds un' := by
  obtain ⟨xs, e1, e2, e3⟩ := h
  exact ⟨xs, e1, e2, fun x hx => e3 x (hs x hx)⟩

theorem ciNewRoute_order {D : ℕ → ℕ → ℚ} {d : ℕ → ℚ} {R : ℕ → ℕ → Prop} {un un' : List ℕ} {rd : CIRoute}
    (hun : un.Nodup) : ∀ {seeds seeds' : List (List ℕ)}, SeedOrder R seeds un →
      ciNewRoute D d un seeds = .ok (rd, un', seeds') →
      ∃ x ∈ un, rd.custs = [x] ∧ un' = un.erase x ∧ (∀ y ∈ un', R x y) ∧ SeedOrder R seeds' un' := by
  intro seeds
  induction seeds with
  | nil => intro seeds' _ h; simp [ciNewRoute] at h
  | cons c seeds ih =>
    intro seeds' ho h
    obtain ⟨xs, e1, e2, e3⟩ := ho
    match xs with
    | [] => simp at e1
    | x :: xs =>
      simp only [List.map_cons, List.cons.injEq] at e1
      obtain ⟨rfl, e1⟩ := e1
      obtain ⟨p1, p2⟩ := List.pairwise_cons.1 e2
      rw [ciNewRoute] at h
      by_cases hx : x ∈ un
      · have hch : ciChoose un [x] [] = [x] := by simp [ciChoose, hx]
        rw [hch] at h
        simp only [List.cons_ne_nil, if_false, Except.ok.injEq, Prod.mk.injEq, List.foldl_cons, List.foldl_nil] at h
        obtain ⟨rfl, rfl, rfl⟩ := h
        have hrest : ∀ y ∈ un.erase x, y ∈ xs := by
          intro y hy
          have hyne : y ≠ x := by rintro rfl; exact (List.Nodup.not_mem_erase hun) hy
          exact (List.mem_cons.1 (e3 y (List.mem_of_mem_erase hy))).resolve_left hyne
        refine ⟨x, hx, rfl, rfl, fun y hy => p1 y (hrest y hy), xs, e1, p2, hrest⟩
      · have hch : ciChoose un [x] [] = [] := by simp [ciChoose, hx]
        simp only [hch, if_true] at h
        refine ih ⟨xs, e1, p2, fun y hy => ?_⟩ h
        have hyne : y ≠ x := by rintro rfl; exact hx hy
        exact (List.mem_cons.1 (e3 y hy)).resolve_left hyne

/-- The order in which the customers become seeds. -/
def SeedRel (D : ℕ → ℕ → ℚ) : CIMode → ℕ → ℕ → Prop
  | .farthest => fun x y => D 0 y ≤ D 0 x
  | .closest => fun x y => D 0 x ≤ D 0 y
  | _ => fun _ _ => False

theorem ciSeedLe_total (D : ℕ → ℕ → ℚ) (a b : ℕ) : (ciSeedLe D a b || ciSeedLe D b a) = true := by
  simp only [ciSeedLe, Bool.or_eq_true, Bool.and_eq_true, decide_eq_true_eq]
  rcases lt_trichotomy (D 0 a) (D 0 b) with h | h | h
  · exact .inl (.inl h)
  · rcases le_total a b with g | g
    · exact .inl (.inr ⟨h, g⟩)
    · exact .inr (.inr ⟨h.symm, g⟩)
  · exact .inr (.inl h)

theorem ciSeedLe_trans (D : ℕ → ℕ → ℚ) (a b c : ℕ) (h1 : ciSeedLe D a b = true) (h2 : ciSeedLe D b c = true) :
    ciSeedLe D a c = true := by
  simp only [ciSeedLe, Bool.or_eq_true, Bool.and_eq_true, decide_eq_true_eq] at *
  rcases h1 with h1 | ⟨h1, g1⟩
  · rcases h2 with h2 | ⟨h2, g2⟩
    · exact .inl (h1.trans h2)
    · exact .inl (h2 ▸ h1)
  · rcases h2 with h2 | ⟨h2, g2⟩
    · exact .inl (h1 ▸ h2)
    · exact .inr ⟨h1.trans h2, g1.trans g2⟩

theorem ciSeeds_order {D : ℕ → ℕ → ℚ} {N : ℕ} {strain : ℕ → ℕ → ℕ → ℚ × ℚ} {mode : CIMode}
    (hm : mode = .farthest ∨ mode = .closest) {seeds : List (List ℕ)} (h : ciSeeds D N strain mode = .ok seeds) :
    SeedOrder (SeedRel D mode) seeds (pyRange 1 N) := by
  have hp := pySort_pairwise (ciSeedLe_trans D) (ciSeedLe_total D) (pyRange 1 N)
  have hle : ∀ a b, ciSeedLe D a b = true → D 0 a ≤ D 0 b := by
    intro a b h
    simp only [ciSeedLe, Bool.or_eq_true, Bool.and_eq_true, decide_eq_true_eq] at h
    rcases h with h | h
    exacts [h.le, h.1.le]
  rcases hm with rfl | rfl
  · injection h with h
    refine ⟨_, h.symm, ?_, fun x hx => by simpa [mem_pySort] using hx⟩
    rw [List.pairwise_reverse]
    exact hp.imp fun h => hle _ _ h
  · injection h with h
    exact ⟨_, h.symm, hp.imp fun h => hle _ _ h, fun x hx => by simpa [mem_pySort] using hx⟩

theorem ciStart_order {D : ℕ → ℕ → ℚ} {d : ℕ → ℚ} {R : ℕ → ℕ → Prop} :
    ∀ (n : ℕ) {s s' : CIState}, s.unrouted.Nodup → SeedOrder R s.seeds s.unrouted →
      (s.routes.map (·.custs)).Pairwise (fun u v => ∃ x y, u = [x] ∧ v = [y] ∧ R x y) →
      (∀ rd ∈ s.routes, ∃ x, rd.custs = [x] ∧ ∀ y ∈ s.unrouted, R x y) → ciStart D d n s = .ok s' →
      SeedOrder R s'.seeds s'.unrouted ∧
        (s'.routes.map (·.custs)).Pairwise (fun u v => ∃ x y, u = [x] ∧ v = [y] ∧ R x y) ∧
        ∀ rd ∈ s'.routes, ∃ x, rd.custs = [x] ∧ ∀ y ∈ s'.unrouted, R x y := by
  intro n
  induction n with
  | zero =>
    intro s s' _ h1 h2 h3 h
    injection h with h
    subst h
    exact ⟨h1, h2, h3⟩
  | succ n ih =>
    intro s s' hun h1 h2 h3 h
    rw [ciStart] at h
    cases hn : ciNewRoute D d s.unrouted s.seeds with
    | error e => rw [hn] at h; cases h
    | ok t =>
      obtain ⟨rd', un', seeds'⟩ := t
      rw [hn] at h
      obtain ⟨x, hx, c1, rfl, c3, c4⟩ := ciNewRoute_order hun h1 hn
      refine ih (hun.erase x) c4 ?_ ?_ h
      · simp only [List.map_append, List.map_cons, List.map_nil]
        rw [List.pairwise_append]
        refine ⟨h2, List.pairwise_singleton _ _, ?_⟩
        intro u hu v hv
        rw [List.mem_singleton] at hv
        obtain ⟨rd, hrd, rfl⟩ := List.mem_map.1 hu
        obtain ⟨z, z1, z2⟩ := h3 rd hrd
        exact ⟨z, x, z1, by rw [hv, c1], z2 x hx⟩
      · intro rd hrd
        rcases List.mem_append.1 hrd with hrd | hrd
        · obtain ⟨z, z1, z2⟩ := h3 rd hrd
          exact ⟨z, z1, fun y hy => z2 y (List.mem_of_mem_erase hy)⟩
        · rw [List.mem_singleton.1 hrd]; exact ⟨x, c1, c3⟩

/-- The seeds left stay in order. -/
theorem ciStep_order {N : ℕ} {D : ℕ → ℕ → ℚ} {d : ℕ → ℚ} {C L : Option ℚ} {P Q R : Prop} {mk : Bool} {Rel : ℕ → ℕ → Prop}
    {strain : ℕ → ℕ → ℕ → ℚ × ℚ} {pick : List Ins → ℕ} (hpick : PickOk pick) (hQ : Q → mk = false) {s s' : CIState}
    (h : CIInv N D d C L P Q R s) (ho : SeedOrder Rel s.seeds s.unrouted)
    (hstep : ciStep D d C L strain mk pick s = .ok s') :
    SeedOrder Rel s'.seeds s'.unrouted ∧ (s'.complete = s.complete ∨
      ∃ rd1 rd2 x, s'.complete = s.complete ++ [rd1] ∧ s'.routes[s.k]? = some rd2 ∧ rd2.custs = [x] ∧
        x ∈ s.unrouted ∧ ∀ y ∈ s'.unrouted, Rel x y) := by
  unfold ciStep at hstep
  cases hi : idx s.routes s.k with
  | error e => rw [hi] at hstep; cases hstep
  | ok rd =>
    have hget : s.routes[s.k]? = some rd := by
      rw [idx] at hi
      cases hg : s.routes[s.k]? with
      | none => rw [hg] at hi; cases hi
      | some r => rw [hg] at hi; injection hi with hi; rw [hi]
    have hlt : s.k < s.routes.length := (List.getElem?_eq_some_iff.1 hget).1
    have hrd := h.routes rd (List.mem_of_getElem? hget)
    obtain ⟨g1, g2⟩ := ciGenerate_ok strain s.unrouted hrd
    obtain ⟨rd1, un1, p1, p2, p3⟩ := ciPopLoop_spec strain hpick s.unrouted hQ _ _ rfl g1
    rw [hi] at hstep
    simp only at hstep
    rw [p1] at hstep
    simp only at hstep
    have hsub : un1.Nodup ∧ ∀ x ∈ un1, x ∈ s.unrouted := by
      rcases p3 with ⟨_, rfl, _⟩ | ⟨c, _, rfl, _⟩
      · exact ⟨h.unNodup, fun x hx => hx⟩
      · exact ⟨h.unNodup.erase c, fun x hx => List.mem_of_mem_erase hx⟩
    unfold ciRenew at hstep
    simp only at hstep
    by_cases hren : rd1.heap = [] ∧ un1 ≠ []
    · rw [if_pos hren] at hstep
      cases hn : ciNewRoute D d un1 s.seeds with
      | error e => rw [hn] at hstep; cases hstep
      | ok t =>
        obtain ⟨rd', un', seeds'⟩ := t
        rw [hn] at hstep
        simp only [Except.ok.injEq] at hstep
        subst hstep
        obtain ⟨x, x1, x2, rfl, x4, x5⟩ := ciNewRoute_order hsub.1 (ho.sub hsub.2) hn
        exact ⟨x5, .inr ⟨rd1, rd', x, rfl, by simp [hlt], x2, hsub.2 x x1, x4⟩⟩
    · rw [if_neg hren] at hstep
      injection hstep with hstep
      subst hstep
      exact ⟨ho.sub hsub.2, .inl rfl⟩

/-- **C28**: the seeds. With "farthest" ("closest") the routes at the start are for the farthest (closest)
customers, the first route for the first of them, and each route started later is for the farthest (closest)
of the customers that are not yet routed. -/
theorem C28_seeds {N : ℕ} {D : ℕ → ℕ → ℚ} {d : ℕ → ℚ} {C L : Option ℚ} {mk : Bool} {count : ℕ} {mode : CIMode}
    {strain : ℕ → ℕ → ℕ → ℚ × ℚ} {pick : List Ins → ℕ} (hpick : PickOk pick) (h0 : d 0 = 0)
    (hm : mode = .farthest ∨ mode = .closest) (hc : 1 ≤ count) {s0 : CIState}
    (hs0 : ciInit D d N count strain mode = .ok s0) :
    (s0.routes.map (·.custs)).Pairwise (fun u v => ∃ x y, u = [x] ∧ v = [y] ∧ SeedRel D mode x y) ∧
    (∀ rd ∈ s0.routes, ∃ x, rd.custs = [x] ∧ ∀ y ∈ s0.unrouted, SeedRel D mode x y) ∧
    ∀ s s', CIReach D d C L strain mk pick s0 s → s.unrouted ≠ [] → ciStep D d C L strain mk pick s = .ok s' →
      (s'.complete = s.complete ∨
        ∃ rd1 rd2 x, s'.complete = s.complete ++ [rd1] ∧ s'.routes[s.k]? = some rd2 ∧ rd2.custs = [x] ∧
          x ∈ s.unrouted ∧ ∀ y ∈ s'.unrouted, SeedRel D mode x y) := by
  have hm' : mode ≠ .other := by rcases hm with rfl | rfl <;> simp
  have hS : SeedsOk N D d C L False False False := ⟨h0, by simp, fun h => h.elim⟩
  obtain ⟨-, -, -, i4⟩ := ciInit_inv hS strain hm' (fun h => h.elim) count
  obtain ⟨j1, j2, j3⟩ := i4 s0 hs0
  obtain ⟨a1, a2, a3⟩ : SeedOrder (SeedRel D mode) s0.seeds s0.unrouted ∧
      (s0.routes.map (·.custs)).Pairwise (fun u v => ∃ x y, u = [x] ∧ v = [y] ∧ SeedRel D mode x y) ∧
        ∀ rd ∈ s0.routes, ∃ x, rd.custs = [x] ∧ ∀ y ∈ s0.unrouted, SeedRel D mode x y := by
    unfold ciInit at hs0
    cases hseeds : ciSeeds D N strain mode with
    | error e => rw [hseeds] at hs0; cases hs0
    | ok seeds =>
      rw [hseeds] at hs0
      refine ciStart_order count ?_ (ciSeeds_order hm hseeds) (by simp) (by simp) hs0
      simp only [pyRange]
      exact List.nodup_range'
  refine ⟨a2, a3, fun s s' hr hun hstep => ?_⟩
  have : CIInv N D d C L False False False s ∧ s.k < s.routes.length ∧ SeedOrder (SeedRel D mode) s.seeds s.unrouted := by
    clear hstep hun
    induction hr with
    | refl => exact ⟨j1, by omega, a1⟩
    | tail _ hs ih =>
      obtain ⟨i1, i2, i3⟩ := ih
      obtain ⟨s', e1, e2, e3, _⟩ := ciStep_spec (mk := mk) strain hpick (fun h => h.elim) hS i1 i2 hs.1
      rw [hs.2] at e1
      injection e1 with e1
      subst e1
      exact ⟨e2, e3, (ciStep_order hpick (fun h => h.elim) i1 i3 hs.2).1⟩
  exact (ciStep_order hpick (fun h => h.elim) this.1 this.2.2 hstep).2

/-! ## Instances -/

example : ∀ i, 0 ≤ (fun n => if n = 0 then 0 else 1 : ℕ → ℚ) i := by intro i; simp only; split_ifs <;> norm_num

example (a c b : ℕ) : 0 ≤ detour ciLine a c b := by
  unfold detour ciLine
  split_ifs <;> rw [← Nat.cast_add] <;> rw [sub_nonneg, Nat.cast_le] <;> omega

/-- The first round of the instance above: the least of the insertions is made. -/
example :
    (match ciInit ciLine (fun n => if n = 0 then 0 else 1) 6 2 (parametrized_insertion_criteria ciLine 1 0) .farthest with
    | .error _ => none
    | .ok s0 =>
      match ciStep ciLine (fun n => if n = 0 then 0 else 1) (some 2) (some 10)
        (parametrized_insertion_criteria ciLine 1 0) false leastKey s0 with
      | .error _ => none
      | .ok s1 => some (s0.routes.map CIRoute.custs, s0.unrouted, s1.routes.map CIRoute.custs,
          s1.complete.map CIRoute.custs)) =
    some ([[5], [4]], [1, 2, 3], [[3, 5], [4]], []) := by decide +kernel

end Verif
