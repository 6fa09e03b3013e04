import Mathlib.Algebra.BigOperators.Group.Multiset.Basic
import Mathlib.Tactic.Linarith
import Mathlib.Tactic.Ring
import Verif.Model.ParallelSavings
import Verif.Lemmas.Scan
import Verif.Lemmas.Util
import Verif.Lemmas.CvrpOps
import Verif.Spec.GroupMoves
import Verif.Spec.Construct

/-! # Lemmas on the parallel savings procedure -/

namespace Verif

open Spec

/-- Replacing an element, for additive measures that ignore `none`. -/
theorem sum_set_none {α M : Type} [AddCommMonoid M] (f : Option α → M) (h0 : f none = 0)
    (l : List (Option α)) (k : ℕ) (x : Option α) (h : l[k]? = some x) :
    (l.map f).sum = f x + ((l.set k none).map f).sum := by
  induction l generalizing k with
  | nil => simp at h
  | cons a t ih =>
    cases k with
    | zero =>
      simp only [List.getElem?_cons_zero, Option.some.injEq] at h
      subst h
      simp [h0]
    | succ k =>
      simp only [List.getElem?_cons_succ] at h
      simp only [List.map_cons, List.sum_cons, List.set_cons_succ, ih k h]
      rw [← add_assoc, ← add_assoc, add_comm (f a)]

theorem sum_set {α M : Type} [AddCommMonoid M] (f : Option α → M) (h0 : f none = 0)
    (l : List (Option α)) (k : ℕ) (y : Option α) (h : k < l.length) :
    ((l.set k y).map f).sum = f y + ((l.set k none).map f).sum := by
  rw [sum_set_none f h0 (l.set k y) k y (by simp [h]), List.set_set]

/-- The customers on the routes with multiplicities. -/
def nodesM (routes : Routes) : Multiset ℕ := (routes.map fun o => ((o.getD [] : List ℕ) : Multiset ℕ)).sum

/-- Cost of a route that may have been merged away. -/
def optCost (D : ℕ → ℕ → ℚ) : Option (List ℕ) → ℚ
  | none => 0
  | some r => cost D (wrap r)

/-- Total cost of the routes. -/
def costM (D : ℕ → ℕ → ℚ) (routes : Routes) : ℚ := (routes.map (optCost D)).sum

/-- `n` is at either end of the route. -/
def IsEnd (n : ℕ) (rt : List ℕ) : Prop := rt.head? = some n ∨ rt.getLast? = some n

theorem nodesM_two (routes : Routes) {l r : ℕ} (hlr : l ≠ r) {a b : Option (List ℕ)}
    (ha : routes[l]? = some a) (hb : routes[r]? = some b) :
    nodesM routes = (↑(a.getD []) + ↑(b.getD []) + nodesM ((routes.set l none).set r none) : Multiset ℕ) := by
  unfold nodesM
  rw [sum_set_none _ rfl routes l a ha, sum_set_none _ rfl (routes.set l none) r b
    (by rw [List.getElem?_set_ne hlr]; exact hb), add_assoc]

theorem costM_two (D : ℕ → ℕ → ℚ) (routes : Routes) {l r : ℕ} (hlr : l ≠ r) {a b : Option (List ℕ)}
    (ha : routes[l]? = some a) (hb : routes[r]? = some b) :
    costM D routes = optCost D a + optCost D b + costM D ((routes.set l none).set r none) := by
  unfold costM
  rw [sum_set_none _ rfl routes l a ha, sum_set_none _ rfl (routes.set l none) r b
    (by rw [List.getElem?_set_ne hlr]; exact hb), add_assoc]

theorem set2_none (routes : Routes) {l r : ℕ} (hlr : l ≠ r) (x y : Option (List ℕ)) :
    (((routes.set l x).set r y).set l none).set r none = (routes.set l none).set r none := by
  rw [List.set_comm _ _ hlr, List.set_set, List.set_comm _ _ hlr.symm, List.set_set]

theorem getElem?_set2 (routes : Routes) {l r : ℕ} (hlr : l ≠ r) (hl : l < routes.length)
    (hr : r < routes.length) (x y : Option (List ℕ)) (k : ℕ) :
    ((routes.set l x).set r y)[k]? = if k = r then some y else if k = l then some x else routes[k]? := by
  by_cases h1 : k = r
  · subst h1; simp [hr]
  · rw [List.getElem?_set_ne (Ne.symm h1), if_neg h1]
    by_cases h2 : k = l
    · subst h2; simp [hl]
    · rw [List.getElem?_set_ne (Ne.symm h2), if_neg h2]

theorem nodesM_eq (routes : Routes) :
    nodesM routes = ((routes.flatMap fun o => o.getD [] : List ℕ) : Multiset ℕ) := by
  unfold nodesM
  induction routes with
  | nil => rfl
  | cons a t ih => rw [List.map_cons, List.sum_cons, ih, List.flatMap_cons, Multiset.coe_add]

theorem mem_nodesM {routes : Routes} {n : ℕ} :
    n ∈ nodesM routes ↔ ∃ (k : ℕ) (rt : List ℕ), routes[k]? = some (some rt) ∧ n ∈ rt := by
  rw [nodesM_eq, Multiset.mem_coe, List.mem_flatMap]
  constructor
  · rintro ⟨o, ho, hn⟩
    obtain ⟨k, hk⟩ := List.mem_iff_getElem?.1 ho
    cases o with
    | none => simp at hn
    | some rt => exact ⟨k, rt, hk, hn⟩
  · rintro ⟨k, rt, hk, hn⟩
    exact ⟨some rt, List.mem_iff_getElem?.2 ⟨k, hk⟩, hn⟩

/-- On routes without repeated customers a customer is on one route only. -/
theorem nodesM_unique {routes : Routes} (hn : (nodesM routes).Nodup) {k m : ℕ} {a b : List ℕ} {n : ℕ}
    (ha : routes[k]? = some (some a)) (hb : routes[m]? = some (some b)) (h1 : n ∈ a) (h2 : n ∈ b) :
    k = m := by
  by_contra hkm
  rw [nodesM_two routes hkm ha hb] at hn
  have h := (Multiset.nodup_add.1 (Multiset.nodup_add.1 hn).1).2.2
  exact Multiset.disjoint_left.1 h (by simpa using h1) (by simpa using h2)

theorem nodesM_nodup_route {routes : Routes} (hn : (nodesM routes).Nodup) {k : ℕ} {a : List ℕ}
    (ha : routes[k]? = some (some a)) : a.Nodup := by
  unfold nodesM at hn
  rw [sum_set_none _ rfl routes k _ ha] at hn
  simpa using (Multiset.nodup_add.1 hn).1

theorem isEnd_mem {n : ℕ} {rt : List ℕ} (h : IsEnd n rt) : n ∈ rt := by
  rcases h with h | h
  · exact List.mem_of_head? h
  · exact List.mem_of_getLast? h

/-- Turning the left route. -/
theorem turn_left {a : List ℕ} {i : ℕ} (h : IsEnd i a) :
    ∃ a0 a', idx a 0 = .ok a0 ∧ (if a0 = i then a.reverse else a) = a' ∧ (a' = a ∨ a' = a.reverse) ∧
      a'.getLast? = some i := by
  cases a with
  | nil => rcases h with h | h <;> simp at h
  | cons x t =>
    refine ⟨x, _, rfl, rfl, ?_, ?_⟩
    · split_ifs <;> simp
    · split_ifs with hx
      · subst hx; simp
      · rcases h with h | h
        · simp at h; exact absurd h hx
        · exact h

theorem idxNeg_one {α : Type} {l : List α} {x : α} (h : l.getLast? = some x) : idxNeg l 1 = .ok x := by
  have hne : l ≠ [] := by rintro rfl; simp at h
  have hp : 0 < l.length := List.length_pos_iff.2 hne
  unfold idxNeg idx
  rw [if_neg (by omega)]
  rw [List.getLast?_eq_getElem?] at h
  rw [h]

theorem idx_zero {α : Type} {l : List α} {x : α} (h : l.head? = some x) : idx l 0 = .ok x := by
  unfold idx
  rw [List.head?_eq_getElem?] at h
  rw [h]

/-- Turning the right route. -/
theorem turn_right {b : List ℕ} {j : ℕ} (h : IsEnd j b) :
    ∃ b1 b', idxNeg b 1 = .ok b1 ∧ (if b1 = j then b.reverse else b) = b' ∧ (b' = b ∨ b' = b.reverse) ∧
      b'.head? = some j := by
  have hne : b ≠ [] := by rintro rfl; rcases h with h | h <;> simp at h
  obtain ⟨x, hx⟩ : ∃ x, b.getLast? = some x := ⟨_, List.getLast?_eq_some_getLast hne⟩
  refine ⟨x, _, idxNeg_one hx, rfl, ?_, ?_⟩
  · split_ifs <;> simp
  · split_ifs with e
    · subst e; simpa using hx
    · rcases h with h | h
      · exact h
      · rw [hx] at h; simp at h; exact absurd h e

theorem setIf_ok {α : Type} (c : Bool) (l : List α) (i : ℕ) (v : α) (h : i < l.length) :
    ∃ l', setIf c l i v = .ok l' ∧ l'.length = l.length ∧
      ∀ n, l'[n]? = if c = true ∧ n = i then some v else l[n]? := by
  cases c with
  | false => exact ⟨l, rfl, rfl, fun n => by simp⟩
  | true =>
    refine ⟨l.set i v, by simp [setIf, setIdx, h], by simp, fun n => ?_⟩
    by_cases e : n = i
    · subst e; simp [h]
    · simp [List.getElem?_set_ne (Ne.symm e), e]

/-- What the merge does. -/
theorem psJoin_ok {i j l r : ℕ} {s : PSState} {a b : List ℕ} (hlr : l ≠ r)
    (ha : s.routes[l]? = some (some a)) (hb : s.routes[r]? = some (some b)) (hi : IsEnd i a)
    (hj : IsEnd j b) (hin : ∀ n ∈ a ++ b, n < s.endnode_to_route.length) :
    ∃ a' b' z en, (a' = a ∨ a' = a.reverse) ∧ (b' = b ∨ b' = b.reverse) ∧ a'.getLast? = some i ∧
      b'.head? = some j ∧ b'.getLast? = some z ∧ en.length = s.endnode_to_route.length ∧
      (∀ n : ℕ, en[n]? = if n = z then some (some l) else if 1 < b'.length ∧ n = j then some none
        else if 1 < a'.length ∧ n = i then some none else s.endnode_to_route[n]?) ∧
      psJoin i j l r s = .ok { s with
        routes := (s.routes.set l (some (a' ++ b'))).set r none
        endnode_to_route := en
        seen := s.seen ++ [(158, s.routes.set l (some a')),
          (160, (s.routes.set l (some a')).set r (some b')),
          (172, (s.routes.set l (some (a' ++ b'))).set r (some b')),
          (173, (s.routes.set l (some (a' ++ b'))).set r none)] } := by
  obtain ⟨a0, a', h1, h2, h3, h4⟩ := turn_left hi
  obtain ⟨b1, b', k1, k2, k3, k4⟩ := turn_right hj
  have hb'ne : b' ≠ [] := by rintro rfl; simp at k4
  obtain ⟨z, hz⟩ : ∃ x, b'.getLast? = some x := ⟨_, List.getLast?_eq_some_getLast hb'ne⟩
  have hzb : z ∈ b := by
    have := List.mem_of_getLast? hz
    rcases k3 with rfl | rfl <;> simpa using this
  have li : i < s.endnode_to_route.length := hin i (List.mem_append_left _ (isEnd_mem hi))
  have lj : j < s.endnode_to_route.length := hin j (List.mem_append_right _ (isEnd_mem hj))
  have lz : z < s.endnode_to_route.length := hin z (List.mem_append_right _ hzb)
  obtain ⟨e1, p1, p2, p3⟩ := setIf_ok (decide (1 < a'.length)) s.endnode_to_route i none li
  obtain ⟨e2, q1, q2, q3⟩ := setIf_ok (decide (1 < b'.length)) e1 j none (by omega)
  refine ⟨a', b', z, e2.set z (some l), h3, k3, h4, k4, hz, by simp; omega, ?_, ?_⟩
  · intro n
    by_cases e : n = z
    · subst e; rw [if_pos rfl]; exact List.getElem?_set_self (by omega)
    · rw [List.getElem?_set_ne (Ne.symm e), if_neg e, q3, p3]
      simp only [decide_eq_true_eq]
  · have hra : routeAt s.routes l = .ok a := by unfold routeAt idx; rw [ha]
    have hrb : routeAt (s.routes.set l (some a')) r = .ok b := by
      unfold routeAt idx; rw [List.getElem?_set_ne hlr, hb]
    unfold psJoin
    simp only [hra, h1, bind, Except.bind, h2, hrb, k1, k2, idxNeg_one h4, p1, idx_zero k4, q1,
      idxNeg_one hz, pure, Except.pure, setIdx]
    rw [if_pos (by omega)]
    simp only [Except.ok.injEq, PSState.mk.injEq, true_and]
    have e3 : (((s.routes.set l (some a')).set r (some b')).set l (some (a' ++ b'))) =
        (s.routes.set l (some (a' ++ b'))).set r (some b') := by
      rw [List.set_comm _ _ hlr.symm, List.set_set]
    rw [e3, List.set_set]
    exact ⟨rfl, rfl⟩

/-! ## Costs of merged routes -/

theorem wrap_reverse (b : List ℕ) : wrap b.reverse = (wrap b).reverse := by simp [wrap]

theorem cost_wrap_turn {D : ℕ → ℕ → ℚ} (hD : Symm D) {a a' : List ℕ} (h : a' = a ∨ a' = a.reverse) :
    cost D (wrap a') = cost D (wrap a) := by
  rcases h with rfl | rfl
  · rfl
  · rw [wrap_reverse, cost_reverse hD]

theorem demand_turn (d : ℕ → ℚ) {a a' : List ℕ} (h : a' = a ∨ a' = a.reverse) :
    demand d a' = demand d a := by
  rcases h with rfl | rfl
  · rfl
  · exact demand_perm d (List.reverse_perm a)

theorem routeOk_turn {D : ℕ → ℕ → ℚ} (hD : Symm D) {d : ℕ → ℚ} {C L : Option ℚ} {a a' : List ℕ}
    (h : a' = a ∨ a' = a.reverse) : RouteOk D d C L a' ↔ RouteOk D d C L a := by
  unfold RouteOk
  rw [cost_wrap_turn hD h, demand_turn d h]

theorem isEnd_turn {n : ℕ} {a a' : List ℕ} (h : a' = a ∨ a' = a.reverse) : IsEnd n a' ↔ IsEnd n a := by
  rcases h with rfl | rfl
  · rfl
  · unfold IsEnd; rw [List.head?_reverse, List.getLast?_reverse, or_comm]

theorem mem_turn {n : ℕ} {a a' : List ℕ} (h : a' = a ∨ a' = a.reverse) : n ∈ a' ↔ n ∈ a := by
  rcases h with rfl | rfl <;> simp

theorem coe_turn {a a' : List ℕ} (h : a' = a ∨ a' = a.reverse) : (a' : Multiset ℕ) = a := by
  rcases h with rfl | rfl <;> simp

theorem cost_wrap_merge (D : ℕ → ℕ → ℚ) {a b : List ℕ} {i j : ℕ} (ha : a.getLast? = some i)
    (hb : b.head? = some j) :
    cost D (wrap (a ++ b)) = cost D (wrap a) + cost D (wrap b) - D i 0 - D 0 j + D i j := by
  obtain ⟨A, rfl⟩ := List.getLast?_eq_some_iff.1 ha
  obtain ⟨B, rfl⟩ := List.head?_eq_some_iff.1 hb
  have e1 : wrap (A ++ [i] ++ j :: B) = (0 :: A) ++ i :: j :: (B ++ [0]) := by simp [wrap]
  have e2 : wrap (A ++ [i]) = (0 :: A) ++ i :: 0 :: [] := by simp [wrap]
  have e3 : wrap (j :: B) = 0 :: j :: (B ++ [0]) := by simp [wrap]
  rw [e1, e2, e3, cost_append_two, cost_append_two]
  simp only [cost]
  ring

theorem demand_append' (d : ℕ → ℚ) (a b : List ℕ) : demand d (a ++ b) = demand d a + demand d b := by
  simp [demand_eq_sum]

theorem demand_nonneg {d : ℕ → ℚ} (hd : ∀ n, 0 ≤ d n) (a : List ℕ) : 0 ≤ demand d a := by
  induction a with
  | nil => simp [demand]
  | cons x t ih => have := hd x; simp only [demand]; linarith

/-- A path is not shorter than the direct way. -/
theorem path_ge {D : ℕ → ℕ → ℚ} (hT : Triangle D) (x y : ℕ) (l : List ℕ) :
    D x y ≤ cost D (x :: (l ++ [y])) := by
  induction l generalizing x with
  | nil => simp [cost]
  | cons z t ih =>
    have h1 := ih z
    have h2 := hT x z y
    simp only [List.cons_append, cost] at h1 ⊢
    linarith

theorem cost_wrap_end {D : ℕ → ℕ → ℚ} (hD : Symm D) (hT : Triangle D) {a : List ℕ} {i : ℕ}
    (h : IsEnd i a) : 2 * D 0 i ≤ cost D (wrap a) := by
  obtain ⟨a', h1, h2⟩ : ∃ a', (a' = a ∨ a' = a.reverse) ∧ a'.head? = some i := by
    rcases h with h | h
    · exact ⟨a, Or.inl rfl, h⟩
    · exact ⟨a.reverse, Or.inr rfl, by rwa [List.head?_reverse]⟩
  rw [← cost_wrap_turn hD h1]
  obtain ⟨B, rfl⟩ := List.head?_eq_some_iff.1 h2
  have := path_ge hT i 0 B
  have e3 : wrap (i :: B) = 0 :: i :: (B ++ [0]) := by simp [wrap]
  rw [e3]
  simp only [cost]
  rw [hD i 0] at this
  linarith

/-- With the triangle inequality a merged route costs at least as much as either part. -/
theorem cost_merge_ge {D : ℕ → ℕ → ℚ} (hD : Symm D) (hT : Triangle D) {a b : List ℕ} {i j : ℕ}
    (ha : a.getLast? = some i) (hb : b.head? = some j) :
    cost D (wrap a) ≤ cost D (wrap (a ++ b)) ∧ cost D (wrap b) ≤ cost D (wrap (a ++ b)) := by
  rw [cost_wrap_merge D ha hb]
  have h1 := cost_wrap_end hD hT (Or.inr ha : IsEnd i a)
  have h2 := cost_wrap_end hD hT (Or.inl hb : IsEnd j b)
  have t1 := hT 0 j i
  have t2 := hT 0 i j
  rw [hD j i] at t1
  rw [hD i 0]
  constructor <;> linarith

/-! ## The invariant -/

/-- All customers `1..N-1`, each once. -/
def allCust (N : ℕ) : Multiset ℕ := ((List.range' 1 (N - 1) : List ℕ) : Multiset ℕ)

theorem allCust_nodup (N : ℕ) : (allCust N).Nodup := by
  unfold allCust; rw [Multiset.coe_nodup]; exact List.nodup_range'

theorem mem_allCust {N n : ℕ} : n ∈ allCust N ↔ 1 ≤ n ∧ n < N := by
  unfold allCust; rw [Multiset.mem_coe, List.mem_range'_1]; omega

def RoutesOk (D : ℕ → ℕ → ℚ) (d : ℕ → ℚ) (C L : Option ℚ) (routes : Routes) : Prop :=
  ∀ k : ℕ, ∀ rt : List ℕ, routes[k]? = some (some rt) → RouteOk D d C L rt

/-- What holds between two savings. -/
structure PSInv (N : ℕ) (D : ℕ → ℕ → ℚ) (d : ℕ → ℚ) (C L : Option ℚ) (s : PSState) : Prop where
  lenE : s.endnode_to_route.length = N
  nodes : nodesM s.routes = allCust N
  ne : ∀ k : ℕ, s.routes[k]? ≠ some (some [])
  ends : ∀ n, 1 ≤ n → n < N → ∀ k : ℕ, s.endnode_to_route[n]? = some (some k) ↔
    ∃ rt, s.routes[k]? = some (some rt) ∧ IsEnd n rt
  dem : truthy C = true → ∀ k : ℕ, ∀ rt, s.routes[k]? = some (some rt) →
    s.route_demands[k]? = some (demand d rt)
  cst : truthy L = true → ∀ k : ℕ, ∀ rt, s.routes[k]? = some (some rt) →
    s.route_costs[k]? = some (cost D (wrap rt))
  feas : Serviceable N D d C L → RoutesOk D d C L s.routes
  seenOk : ∀ x ∈ s.seen, x.1 ≠ 172 →
    nodesM x.2 = allCust N ∧ (Serviceable N D d C L → RoutesOk D d C L x.2)
  seenBad : ∀ x ∈ s.seen, x.1 = 172 → ¬ (nodesM x.2).Nodup
  seenAll : ∀ x ∈ s.seen, ∀ k : ℕ, ∀ rt, x.2[k]? = some (some rt) → rt ≠ [] ∧ ∀ n ∈ rt, n ∈ allCust N

/-- The routes with end customers `i` and `j` cannot be merged. -/
def Blocked (D : ℕ → ℕ → ℚ) (d : ℕ → ℚ) (C L : Option ℚ) (i j : ℕ) (routes : Routes) : Prop :=
  ∀ k m : ℕ, ∀ a b, k ≠ m → routes[k]? = some (some a) → routes[m]? = some (some b) → IsEnd i a →
    IsEnd j b → ¬ (Within C C_EPS (demand d a + demand d b) ∧
      Within L S_EPS (cost D (wrap a) - D 0 i + cost D (wrap b) - D 0 j + D i j))

/-- `routes'` are the routes with the routes ending at `i` and `j` merged. -/
structure Merged (D : ℕ → ℕ → ℚ) (d : ℕ → ℚ) (C L : Option ℚ) (i j : ℕ) (routes routes' : Routes) (l r : ℕ)
    (a b a' b' : List ℕ) : Prop where
  hlr : l ≠ r
  ha : routes[l]? = some (some a)
  hb : routes[r]? = some (some b)
  ta : a' = a ∨ a' = a.reverse
  tb : b' = b ∨ b' = b.reverse
  ia : a'.getLast? = some i
  jb : b'.head? = some j
  eq : routes' = (routes.set l (some (a' ++ b'))).set r none
  wC : Within C C_EPS (demand d a + demand d b)
  wL : Within L S_EPS (cost D (wrap a) - D 0 i + cost D (wrap b) - D 0 j + D i j)

theorem Merged.get {D : ℕ → ℕ → ℚ} {d : ℕ → ℚ} {C L : Option ℚ} {i j : ℕ} {routes routes' : Routes}
    {l r : ℕ} {a b a' b' : List ℕ} (h : Merged D d C L i j routes routes' l r a b a' b') (k : ℕ) :
    routes'[k]? = if k = r then some none else if k = l then some (some (a' ++ b')) else routes[k]? := by
  rw [h.eq]
  exact getElem?_set2 routes h.hlr (List.getElem?_eq_some_iff.1 h.ha).1
    (List.getElem?_eq_some_iff.1 h.hb).1 _ _ k

theorem Merged.nodesEq {D : ℕ → ℕ → ℚ} {d : ℕ → ℚ} {C L : Option ℚ} {i j : ℕ} {routes routes' : Routes}
    {l r : ℕ} {a b a' b' : List ℕ} (h : Merged D d C L i j routes routes' l r a b a' b') :
    nodesM routes' = nodesM routes := by
  have hl := (List.getElem?_eq_some_iff.1 h.ha).1
  have hr := (List.getElem?_eq_some_iff.1 h.hb).1
  rw [nodesM_two routes h.hlr h.ha h.hb,
    nodesM_two routes' h.hlr (a := some (a' ++ b')) (b := none) (by rw [h.get, if_neg h.hlr, if_pos rfl])
      (by rw [h.get, if_pos rfl]), h.eq, set2_none _ h.hlr]
  simp only [Option.getD_some, Option.getD_none, Multiset.coe_nil, add_zero, ← Multiset.coe_add,
    coe_turn h.ta, coe_turn h.tb]

theorem Merged.costEq {D : ℕ → ℕ → ℚ} (hD : Symm D) {d : ℕ → ℚ} {C L : Option ℚ} {i j : ℕ}
    {routes routes' : Routes} {l r : ℕ} {a b a' b' : List ℕ}
    (h : Merged D d C L i j routes routes' l r a b a' b') :
    costM D routes' = costM D routes - (D i 0 + D 0 j - D i j) := by
  rw [costM_two D routes h.hlr h.ha h.hb,
    costM_two D routes' h.hlr (a := some (a' ++ b')) (b := none) (by rw [h.get, if_neg h.hlr, if_pos rfl])
      (by rw [h.get, if_pos rfl]), h.eq, set2_none _ h.hlr]
  simp only [optCost]
  rw [cost_wrap_merge D h.ia h.jb, cost_wrap_turn hD h.ta, cost_wrap_turn hD h.tb]
  ring

/-- Blocked pairs stay blocked when routes are merged. -/
theorem Merged.blocked {D : ℕ → ℕ → ℚ} (hD : Symm D) (hT : Triangle D) {d : ℕ → ℚ}
    (hd : ∀ n, 0 ≤ d n) {C L : Option ℚ} {i j : ℕ} {routes routes' : Routes} {l r : ℕ}
    {a b a' b' : List ℕ} (h : Merged D d C L i j routes routes' l r a b a' b') {p q : ℕ}
    (hb : Blocked D d C L p q routes) : Blocked D d C L p q routes' := by
  -- every merged route comes from a cheaper one with the same end
  have key : ∀ (x : ℕ) (k : ℕ) (t : List ℕ), routes'[k]? = some (some t) → IsEnd x t →
      ∃ (k' : ℕ) (t' : List ℕ), routes[k']? = some (some t') ∧ IsEnd x t' ∧ demand d t' ≤ demand d t ∧
        cost D (wrap t') ≤ cost D (wrap t) ∧ (k' = k ∨ (k = l ∧ k' = r)) := by
    intro x k t hk hx
    rw [h.get] at hk
    by_cases e1 : k = r
    · rw [if_pos e1] at hk; simp at hk
    rw [if_neg e1] at hk
    by_cases e2 : k = l
    · rw [if_pos e2] at hk
      simp only [Option.some.injEq] at hk
      subst hk
      have hm := cost_merge_ge hD hT h.ia h.jb
      rw [cost_wrap_turn hD h.ta, cost_wrap_turn hD h.tb] at hm
      have d1 := demand_nonneg hd a
      have d2 := demand_nonneg hd b
      have d3 : demand d (a' ++ b') = demand d a + demand d b := by
        rw [demand_append', demand_turn d h.ta, demand_turn d h.tb]
      have na : a' ≠ [] := by intro e; have := h.ia; simp [e] at this
      have nb : b' ≠ [] := by intro e; have := h.jb; simp [e] at this
      rcases hx with hx | hx
      · rw [List.head?_append_of_ne_nil _ na] at hx
        exact ⟨l, a, h.ha, (isEnd_turn h.ta).1 (Or.inl hx), by rw [d3]; linarith, hm.1, Or.inl e2.symm⟩
      · rw [List.getLast?_append_of_ne_nil _ nb] at hx
        exact ⟨r, b, h.hb, (isEnd_turn h.tb).1 (Or.inr hx), by rw [d3]; linarith, hm.2,
          Or.inr ⟨e2, rfl⟩⟩
    · rw [if_neg e2] at hk
      exact ⟨k, t, hk, hx, le_refl _, le_refl _, Or.inl rfl⟩
  have nor : ∀ (k : ℕ) (t : List ℕ), routes'[k]? = some (some t) → k ≠ r := by
    intro k t hk e
    rw [h.get, if_pos e] at hk
    simp at hk
  intro k m x y hkm hk hm hx hy ⟨w1, w2⟩
  obtain ⟨k', x', p1, p2, p3, p4, p5⟩ := key p k x hk hx
  obtain ⟨m', y', q1, q2, q3, q4, q5⟩ := key q m y hm hy
  have nk := nor k x hk
  have nm := nor m y hm
  refine hb k' m' x' y' ?_ p1 q1 p2 q2 ⟨?_, ?_⟩
  · rcases p5 with rfl | ⟨rfl, rfl⟩ <;> rcases q5 with rfl | ⟨rfl, rfl⟩
    · exact hkm
    · exact nk
    · exact Ne.symm nm
    · exact absurd rfl hkm
  · intro c hc h0
    have := w1 c hc h0
    linarith
  · intro c hc h0
    have := w2 c hc h0
    linarith

/-- The invariant survives a merge. -/
theorem Merged.inv {N : ℕ} {D : ℕ → ℕ → ℚ} (hD : Symm D) {d : ℕ → ℚ} {C L : Option ℚ} {i j : ℕ}
    {s s' : PSState} {l r : ℕ} {a b a' b' : List ℕ} {z : ℕ} (hs : PSInv N D d C L s)
    (h : Merged D d C L i j s.routes s'.routes l r a b a' b') (hz : b'.getLast? = some z)
    (hlen : s'.endnode_to_route.length = s.endnode_to_route.length)
    (hen : ∀ n : ℕ, s'.endnode_to_route[n]? = if n = z then some (some l)
      else if 1 < b'.length ∧ n = j then some none
      else if 1 < a'.length ∧ n = i then some none else s.endnode_to_route[n]?)
    (hrd : s'.route_demands =
      if truthy C then s.route_demands.set l (demand d a + demand d b) else s.route_demands)
    (hrc : s'.route_costs = if truthy L then
      s.route_costs.set l (cost D (wrap a) - D 0 i + cost D (wrap b) - D 0 j + D i j) else s.route_costs)
    (hseen : s'.seen = s.seen ++ [(158, s.routes.set l (some a')),
          (160, (s.routes.set l (some a')).set r (some b')),
          (172, (s.routes.set l (some (a' ++ b'))).set r (some b')),
          (173, s'.routes)]) : PSInv N D d C L s' := by
  have hl := (List.getElem?_eq_some_iff.1 h.ha).1
  have hr := (List.getElem?_eq_some_iff.1 h.hb).1
  have nd : (nodesM s.routes).Nodup := by rw [hs.nodes]; exact allCust_nodup N
  have na : a' ≠ [] := by intro e; have := h.ia; simp [e] at this
  have nb : b' ≠ [] := by intro e; have := h.jb; simp [e] at this
  have dm : demand d (a' ++ b') = demand d a + demand d b := by
    rw [demand_append', demand_turn d h.ta, demand_turn d h.tb]
  have cm : cost D (wrap (a' ++ b')) =
      cost D (wrap a) - D 0 i + cost D (wrap b) - D 0 j + D i j := by
    rw [cost_wrap_merge D h.ia h.jb, cost_wrap_turn hD h.ta, cost_wrap_turn hD h.tb, hD i 0]; ring
  have gets : ∀ (k : ℕ) (rt : List ℕ), s'.routes[k]? = some (some rt) →
      (k = l ∧ rt = a' ++ b') ∨ (k ≠ l ∧ k ≠ r ∧ s.routes[k]? = some (some rt)) := by
    intro k rt hk
    rw [h.get] at hk
    by_cases e1 : k = r
    · rw [if_pos e1] at hk; simp at hk
    rw [if_neg e1] at hk
    by_cases e2 : k = l
    · rw [if_pos e2] at hk
      simp only [Option.some.injEq] at hk
      exact Or.inl ⟨e2, hk.symm⟩
    · rw [if_neg e2] at hk
      exact Or.inr ⟨e2, e1, hk⟩
  have merged_ok : RouteOk D d C L (a' ++ b') := ⟨by rw [dm]; exact h.wC, by rw [cm]; exact h.wL⟩
  have feas : Serviceable N D d C L → RoutesOk D d C L s'.routes := by
    intro hv k rt hk
    rcases gets k rt hk with ⟨-, rfl⟩ | ⟨-, -, hk⟩
    · exact merged_ok
    · exact hs.feas hv k rt hk
  have inA : ∀ n ∈ a', n ∈ a := fun n hn => (mem_turn h.ta).1 hn
  have inB : ∀ n ∈ b', n ∈ b := fun n hn => (mem_turn h.tb).1 hn
  refine ⟨by rw [hlen, hs.lenE], by rw [h.nodesEq, hs.nodes], ?_, ?_, ?_, ?_, feas, ?_, ?_, ?_⟩
  · intro k hk
    rcases gets k [] hk with ⟨-, e⟩ | ⟨-, -, hk⟩
    · simp at e; exact na e.1
    · exact hs.ne k hk
  · intro n h1 hN k
    have old := hs.ends n h1 hN
    have zb : z ∈ b := inB z (List.mem_of_getLast? hz)
    have iA : i ∈ a := inA i (List.mem_of_getLast? h.ia)
    have jB : j ∈ b := inB j (List.mem_of_head? h.jb)
    have disj : ∀ x, x ∈ a → x ∈ b → False := fun x hx hy => h.hlr (nodesM_unique nd h.ha h.hb hx hy)
    -- the right hand side after the merge
    have rhs : (∃ rt, s'.routes[k]? = some (some rt) ∧ IsEnd n rt) ↔
        (k = l ∧ (a'.head? = some n ∨ b'.getLast? = some n)) ∨
        (k ≠ l ∧ k ≠ r ∧ ∃ rt, s.routes[k]? = some (some rt) ∧ IsEnd n rt) := by
      constructor
      · rintro ⟨rt, hk, he⟩
        rcases gets k rt hk with ⟨e, rfl⟩ | ⟨e1, e2, hk⟩
        · refine Or.inl ⟨e, ?_⟩
          unfold IsEnd at he
          rwa [List.head?_append_of_ne_nil _ na, List.getLast?_append_of_ne_nil _ nb] at he
        · exact Or.inr ⟨e1, e2, rt, hk, he⟩
      · rintro (⟨e, he⟩ | ⟨e1, e2, rt, hk, he⟩)
        · refine ⟨a' ++ b', by rw [h.get, e, if_neg h.hlr, if_pos rfl], ?_⟩
          unfold IsEnd
          rwa [List.head?_append_of_ne_nil _ na, List.getLast?_append_of_ne_nil _ nb]
        · exact ⟨rt, by rw [h.get, if_neg e2, if_neg e1]; exact hk, he⟩
    rw [rhs, hen]
    by_cases ez : n = z
    · subst ez
      rw [if_pos rfl]
      constructor
      · intro e
        simp only [Option.some.injEq] at e
        exact Or.inl ⟨e.symm, Or.inr hz⟩
      · rintro (⟨e, -⟩ | ⟨-, e2, rt, hk, he⟩)
        · rw [e]
        · exact absurd (nodesM_unique nd hk h.hb (isEnd_mem he) zb) e2
    rw [if_neg ez]
    by_cases ej : 1 < b'.length ∧ n = j
    · rw [if_pos ej]
      obtain ⟨-, rfl⟩ := ej
      constructor
      · intro e; simp at e
      · rintro (⟨-, e | e⟩ | ⟨-, e2, rt, hk, he⟩)
        · exact (disj n (inA n (List.mem_of_head? e)) jB).elim
        · rw [hz] at e; simp at e; exact absurd e.symm ez
        · exact absurd (nodesM_unique nd hk h.hb (isEnd_mem he) jB) e2
    rw [if_neg ej]
    by_cases ei : 1 < a'.length ∧ n = i
    · rw [if_pos ei]
      obtain ⟨hlen1, rfl⟩ := ei
      constructor
      · intro e; simp at e
      · rintro (⟨-, e | e⟩ | ⟨e1, -, rt, hk, he⟩)
        · exfalso
          obtain ⟨A, rfl⟩ := List.getLast?_eq_some_iff.1 h.ia
          have nda : (A ++ [n]).Nodup := by
            have := nodesM_nodup_route nd h.ha
            rcases h.ta with e' | e' <;> rw [e']
            · exact this
            · exact List.nodup_reverse.2 this
          cases A with
          | nil => simp at hlen1
          | cons x t =>
            simp only [List.cons_append, List.head?_cons, Option.some.injEq] at e
            subst e
            simp at nda
        · exact (disj n iA (inB n (List.mem_of_getLast? e))).elim
        · exact absurd (nodesM_unique nd hk h.ha (isEnd_mem he) iA) e1
    rw [if_neg ei, old]
    constructor
    · rintro ⟨rt, hk, he⟩
      by_cases e1 : k = l
      · refine Or.inl ⟨e1, Or.inl ?_⟩
        subst e1
        have hrt : rt = a := by rw [h.ha] at hk; simpa using hk.symm
        subst hrt
        rcases (isEnd_turn h.ta).2 he with he | he
        · exact he
        · have hni : n = i := by rw [h.ia] at he; simpa using he.symm
          have : ¬ 1 < a'.length := fun h1 => ei ⟨h1, hni⟩
          obtain ⟨A, e⟩ := List.getLast?_eq_some_iff.1 h.ia
          rw [e] at this ⊢
          have : A = [] := by
            rw [List.length_append] at this
            exact List.length_eq_zero_iff.1 (by simp at this; simp [this])
          rw [this, hni]; rfl
      · by_cases e2 : k = r
        · exfalso
          subst e2
          have hrt : rt = b := by rw [h.hb] at hk; simpa using hk.symm
          subst hrt
          rcases (isEnd_turn h.tb).2 he with he | he
          · have hnj : n = j := by rw [h.jb] at he; simpa using he.symm
            have : ¬ 1 < b'.length := fun h1 => ej ⟨h1, hnj⟩
            obtain ⟨B, e⟩ := List.head?_eq_some_iff.1 h.jb
            rw [e] at this hz
            have : B = [] := List.length_eq_zero_iff.1 (by simp at this; simp [this])
            rw [this] at hz
            simp at hz
            omega
          · rw [hz] at he; simp at he; exact ez he.symm
        · exact Or.inr ⟨e1, e2, rt, hk, he⟩
    · rintro (⟨e, he | he⟩ | ⟨-, -, rt, hk, he⟩)
      · exact ⟨a, by rw [e]; exact h.ha, (isEnd_turn h.ta).1 (Or.inl he)⟩
      · rw [hz] at he; simp at he; exact absurd he.symm ez
      · exact ⟨rt, hk, he⟩
  · intro hC k rt hk
    rw [hrd, if_pos hC]
    rcases gets k rt hk with ⟨rfl, rfl⟩ | ⟨e1, -, hk⟩
    · rw [List.getElem?_set_self, dm]
      exact (List.getElem?_eq_some_iff.1 (hs.dem hC _ _ h.ha)).1
    · rw [List.getElem?_set_ne (Ne.symm e1)]
      exact hs.dem hC k rt hk
  · intro hL k rt hk
    rw [hrc, if_pos hL]
    rcases gets k rt hk with ⟨rfl, rfl⟩ | ⟨e1, -, hk⟩
    · rw [List.getElem?_set_self, cm]
      exact (List.getElem?_eq_some_iff.1 (hs.cst hL _ _ h.ha)).1
    · rw [List.getElem?_set_ne (Ne.symm e1)]
      exact hs.cst hL k rt hk
  · have n160 : nodesM ((s.routes.set l (some a')).set r (some b')) = nodesM s.routes := by
      rw [nodesM_two s.routes h.hlr h.ha h.hb,
        nodesM_two ((s.routes.set l (some a')).set r (some b')) h.hlr (a := some a') (b := some b')
          (by rw [getElem?_set2 _ h.hlr hl hr, if_neg h.hlr, if_pos rfl])
          (by rw [getElem?_set2 _ h.hlr hl hr, if_pos rfl]), set2_none _ h.hlr]
      simp only [Option.getD_some, coe_turn h.ta, coe_turn h.tb]
    have e158 : s.routes.set l (some a') = (s.routes.set l (some a')).set r (some b) := by
      apply List.ext_getElem?
      intro k
      rw [getElem?_set2 _ h.hlr hl hr]
      by_cases e1 : k = r
      · rw [if_pos e1, e1, List.getElem?_set_ne h.hlr, h.hb]
      · rw [if_neg e1]
        by_cases e2 : k = l
        · rw [if_pos e2, e2, List.getElem?_set_self hl]
        · rw [if_neg e2, List.getElem?_set_ne (Ne.symm e2)]
    have n158 : nodesM (s.routes.set l (some a')) = nodesM s.routes := by
      rw [e158, nodesM_two s.routes h.hlr h.ha h.hb,
        nodesM_two ((s.routes.set l (some a')).set r (some b)) h.hlr (a := some a') (b := some b)
          (by rw [getElem?_set2 _ h.hlr hl hr, if_neg h.hlr, if_pos rfl])
          (by rw [getElem?_set2 _ h.hlr hl hr, if_pos rfl]), set2_none _ h.hlr]
      simp only [Option.getD_some, coe_turn h.ta]
    have two_ok : ∀ x y, (x = a ∨ x = a.reverse) → (y = b ∨ y = b.reverse) →
        Serviceable N D d C L → RoutesOk D d C L ((s.routes.set l (some x)).set r (some y)) := by
      intro x y hx hy hv k rt hk
      rw [getElem?_set2 _ h.hlr hl hr] at hk
      split_ifs at hk
      · simp only [Option.some.injEq] at hk
        subst hk
        exact (routeOk_turn hD hy).2 (hs.feas hv r b h.hb)
      · simp only [Option.some.injEq] at hk
        subst hk
        exact (routeOk_turn hD hx).2 (hs.feas hv l a h.ha)
      · exact hs.feas hv k rt hk
    intro x hx hne
    rw [hseen, List.mem_append] at hx
    rcases hx with hx | hx
    · exact hs.seenOk x hx hne
    · simp only [List.mem_cons, List.not_mem_nil, or_false] at hx
      rcases hx with rfl | rfl | rfl | rfl
      · exact ⟨by rw [n158, hs.nodes], fun hv => by
          simp only []; rw [e158]; exact two_ok a' b h.ta (Or.inl rfl) hv⟩
      · exact ⟨by rw [n160, hs.nodes], two_ok a' b' h.ta h.tb⟩
      · exact absurd rfl hne
      · exact ⟨by rw [h.nodesEq, hs.nodes], feas⟩
  · intro x hx he
    rw [hseen, List.mem_append] at hx
    rcases hx with hx | hx
    · exact hs.seenBad x hx he
    · simp only [List.mem_cons, List.not_mem_nil, or_false] at hx
      rcases hx with rfl | rfl | rfl | rfl
      · simp at he
      · simp at he
      · intro hnd
        exact h.hlr (nodesM_unique hnd (k := l) (m := r) (a := a' ++ b') (b := b') (n := j)
          (by rw [getElem?_set2 _ h.hlr hl hr, if_neg h.hlr, if_pos rfl])
          (by rw [getElem?_set2 _ h.hlr hl hr, if_pos rfl])
          (List.mem_append_right _ (List.mem_of_head? h.jb)) (List.mem_of_head? h.jb))
      · simp at he
  · have old : ∀ (k : ℕ) (rt : List ℕ), s.routes[k]? = some (some rt) →
        rt ≠ [] ∧ ∀ n ∈ rt, n ∈ allCust N := by
      intro k rt hk
      refine ⟨by rintro rfl; exact hs.ne k hk, fun n hn => ?_⟩
      rw [← hs.nodes]
      exact mem_nodesM.2 ⟨k, rt, hk, hn⟩
    have oa : ∀ n ∈ a', n ∈ allCust N := fun n hn => (old l a h.ha).2 n (inA n hn)
    have ob : ∀ n ∈ b', n ∈ allCust N := fun n hn => (old r b h.hb).2 n (inB n hn)
    have hall : ∀ x ∈ [some a', some (a' ++ b')], ∀ y ∈ [some b', none], ∀ (k : ℕ) (rt : List ℕ),
        ((s.routes.set l x).set r y)[k]? = some (some rt) → rt ≠ [] ∧ ∀ n ∈ rt, n ∈ allCust N := by
      intro x hx y hy k rt hk
      rw [getElem?_set2 _ h.hlr hl hr] at hk
      simp only [List.mem_cons, List.not_mem_nil, or_false] at hx hy
      split_ifs at hk
      · rcases hy with rfl | rfl
        · simp only [Option.some.injEq] at hk
          subst hk
          exact ⟨nb, ob⟩
        · simp at hk
      · rcases hx with rfl | rfl
        · simp only [Option.some.injEq] at hk
          subst hk
          exact ⟨na, oa⟩
        · simp only [Option.some.injEq] at hk
          subst hk
          refine ⟨by simp [na], fun n hn => ?_⟩
          rcases List.mem_append.1 hn with hn | hn
          · exact oa n hn
          · exact ob n hn
      · exact old k rt hk
    intro x hx k rt hk
    rw [hseen, List.mem_append] at hx
    rcases hx with hx | hx
    · exact hs.seenAll x hx k rt hk
    · simp only [List.mem_cons, List.not_mem_nil, or_false] at hx
      rcases hx with rfl | rfl | rfl | rfl
      · simp only at hk
        by_cases e : k = l
        · subst e
          rw [List.getElem?_set_self hl] at hk
          simp only [Option.some.injEq] at hk
          subst hk
          exact ⟨na, oa⟩
        · rw [List.getElem?_set_ne (Ne.symm e)] at hk
          exact old k rt hk
      · exact hall _ (by simp) _ (by simp) k rt hk
      · exact hall _ (by simp) _ (by simp) k rt hk
      · simp only [h.eq] at hk
        exact hall _ (by simp) _ (by simp) k rt hk

/-- One saving. -/
theorem psStep_spec {N : ℕ} {D : ℕ → ℕ → ℚ} (hD : Symm D) {d : ℕ → ℚ} {C L : Option ℚ} (mk : Bool)
    {s : PSState} (hs : PSInv N D d C L s) {sv : Saving} (hi : 1 ≤ sv.2.2.1 ∧ sv.2.2.1 < N)
    (hj : 1 ≤ sv.2.2.2 ∧ sv.2.2.2 < N) :
    ∃ s' br, psStep D C L mk sv s = .ok (s', br) ∧ PSInv N D d C L s' ∧
      (br = true → s' = s ∧ mk = false ∧ D sv.2.2.1 0 + D 0 sv.2.2.2 - D sv.2.2.1 sv.2.2.2 < 0) ∧
      (br = false → (mk = true ∨ 0 ≤ D sv.2.2.1 0 + D 0 sv.2.2.2 - D sv.2.2.1 sv.2.2.2) ∧
        Blocked D d C L sv.2.2.1 sv.2.2.2 s'.routes ∧
        (s' = s ∨ ∃ l r a b a' b', Merged D d C L sv.2.2.1 sv.2.2.2 s.routes s'.routes l r a b a' b')) := by
  obtain ⟨v, x, i, j⟩ := sv
  simp only at hi hj
  have nd : (nodesM s.routes).Nodup := by rw [hs.nodes]; exact allCust_nodup N
  have ei := hs.ends i hi.1 hi.2
  have ej := hs.ends j hj.1 hj.2
  unfold psStep
  simp only
  split_ifs with hneg
  · exact ⟨s, true, rfl, hs, fun _ => ⟨rfl, hneg.1, hneg.2⟩, by simp⟩
  have hpos : mk = true ∨ 0 ≤ D i 0 + D 0 j - D i j := by
    by_cases hm : mk = true
    · exact Or.inl hm
    · right
      by_contra hc
      exact hneg ⟨by simpa using hm, by linarith⟩
  obtain ⟨oi, hoi⟩ : ∃ o, s.endnode_to_route[i]? = some o :=
    ⟨_, List.getElem?_eq_getElem (by rw [hs.lenE]; exact hi.2)⟩
  obtain ⟨oj, hoj⟩ : ∃ o, s.endnode_to_route[j]? = some o :=
    ⟨_, List.getElem?_eq_getElem (by rw [hs.lenE]; exact hj.2)⟩
  have hidx : idx s.endnode_to_route i = .ok oi := by unfold idx; rw [hoi]
  have hjdx : idx s.endnode_to_route j = .ok oj := by unfold idx; rw [hoj]
  rw [hidx, hjdx]
  have skip : Blocked D d C L i j s.routes → ∃ s' br, (Except.ok (s, false) : Py (PSState × Bool)) =
      .ok (s', br) ∧ PSInv N D d C L s' ∧ (br = true → s' = s ∧ mk = false ∧ D i 0 + D 0 j - D i j < 0) ∧
      (br = false → (mk = true ∨ 0 ≤ D i 0 + D 0 j - D i j) ∧ Blocked D d C L i j s'.routes ∧
        (s' = s ∨ ∃ l r a b a' b', Merged D d C L i j s.routes s'.routes l r a b a' b')) :=
    fun hb => ⟨s, false, rfl, hs, by simp, fun _ => ⟨hpos, hb, Or.inl rfl⟩⟩
  cases oi with
  | none =>
    simp only
    refine skip ?_
    intro k m a b _ hk _ ha _ _
    have := (ei k).2 ⟨a, hk, ha⟩
    rw [hoi] at this; simp at this
  | some l =>
  cases oj with
  | none =>
    simp only
    refine skip ?_
    intro k m a b _ _ hm _ hb _
    have := (ej m).2 ⟨b, hm, hb⟩
    rw [hoj] at this; simp at this
  | some r =>
  simp only
  obtain ⟨a, ha, ia⟩ := (ei l).1 hoi
  obtain ⟨b, hb, jb⟩ := (ej r).1 hoj
  have uniq : ∀ (k m : ℕ) (a1 b1 : List ℕ), s.routes[k]? = some (some a1) →
      s.routes[m]? = some (some b1) → IsEnd i a1 → IsEnd j b1 → k = l ∧ m = r ∧ a1 = a ∧ b1 = b := by
    intro k m a1 b1 hk hm h1 h2
    have e1 := nodesM_unique nd hk ha (isEnd_mem h1) (isEnd_mem ia)
    have e2 := nodesM_unique nd hm hb (isEnd_mem h2) (isEnd_mem jb)
    subst e1 e2
    rw [ha] at hk; rw [hb] at hm
    simp only [Option.some.injEq] at hk hm
    exact ⟨rfl, rfl, hk.symm, hm.symm⟩
  split_ifs with hlr
  · refine skip ?_
    intro k m a1 b1 hkm hk hm h1 h2 _
    obtain ⟨rfl, rfl, -, -⟩ := uniq k m a1 b1 hk hm h1 h2
    exact hkm hlr
  -- demand
  have hdem : ∃ q, psDemand C s l r = .ok q ∧ (truthy C = true → q = demand d a + demand d b) ∧
      (exceeds C C_EPS q = false ↔ Within C C_EPS (demand d a + demand d b)) := by
    unfold psDemand
    by_cases hC : truthy C = true
    · rw [if_pos hC]
      refine ⟨demand d a + demand d b, ?_, fun _ => rfl, exceeds_iff _ _ _⟩
      unfold idx
      rw [hs.dem hC l a ha, hs.dem hC r b hb]
      rfl
    · rw [if_neg hC]
      refine ⟨0, rfl, fun h => absurd h hC, ?_⟩
      have hC' : truthy C = false := by simpa using hC
      rw [← exceeds_iff, exceeds_truthy hC', exceeds_truthy hC']
  have hcst : ∃ q, psCost D L s l r i j = .ok q ∧ (truthy L = true → q =
        cost D (wrap a) - D 0 i + cost D (wrap b) - D 0 j + D i j) ∧
      (exceeds L S_EPS q = false ↔
        Within L S_EPS (cost D (wrap a) - D 0 i + cost D (wrap b) - D 0 j + D i j)) := by
    unfold psCost
    by_cases hC : truthy L = true
    · rw [if_pos hC]
      refine ⟨_, ?_, fun _ => rfl, exceeds_iff _ _ _⟩
      unfold idx
      rw [hs.cst hC l a ha, hs.cst hC r b hb]
      rfl
    · rw [if_neg hC]
      refine ⟨0, rfl, fun h => absurd h hC, ?_⟩
      have hC' : truthy L = false := by simpa using hC
      rw [← exceeds_iff, exceeds_truthy hC', exceeds_truthy hC']
  obtain ⟨q1, hq1, hv1, hw1⟩ := hdem
  obtain ⟨q2, hq2, hv2, hw2⟩ := hcst
  unfold psTry
  simp only [hq1, hq2]
  by_cases x1 : exceeds C C_EPS q1 = true
  · rw [if_pos x1]
    refine skip ?_
    intro k m a1 b1 hkm hk hm h1 h2 hw
    obtain ⟨rfl, rfl, rfl, rfl⟩ := uniq k m a1 b1 hk hm h1 h2
    have := hw1.2 hw.1
    rw [x1] at this
    simp at this
  rw [if_neg x1]
  by_cases x2 : exceeds L S_EPS q2 = true
  · rw [if_pos x2]
    refine skip ?_
    intro k m a1 b1 hkm hk hm h1 h2 hw
    obtain ⟨rfl, rfl, rfl, rfl⟩ := uniq k m a1 b1 hk hm h1 h2
    have := hw2.2 hw.2
    rw [x2] at this
    simp at this
  rw [if_neg x2]
  obtain ⟨a', b', z, en, ta, tb, la, hb', hz, hlen, hen, hjoin⟩ := psJoin_ok (s := { s with
      route_demands := if truthy C then s.route_demands.set l q1 else s.route_demands,
      route_costs := if truthy L then s.route_costs.set l q2 else s.route_costs })
    hlr ha hb ia jb (by
      intro n hn
      have : n ∈ allCust N := by
        rw [← hs.nodes]
        rcases List.mem_append.1 hn with hn | hn
        · exact mem_nodesM.2 ⟨l, a, ha, hn⟩
        · exact mem_nodesM.2 ⟨r, b, hb, hn⟩
      simp only [hs.lenE]
      exact (mem_allCust.1 this).2)
  rw [hjoin]
  have hm : Merged D d C L i j s.routes ((s.routes.set l (some (a' ++ b'))).set r none) l r a b a' b' :=
    ⟨hlr, ha, hb, ta, tb, la, hb', rfl, hw1.1 (by simpa using x1), hw2.1 (by simpa using x2)⟩
  have hinv : PSInv N D d C L { s with
      routes := (s.routes.set l (some (a' ++ b'))).set r none
      route_demands := if truthy C then s.route_demands.set l q1 else s.route_demands
      route_costs := if truthy L then s.route_costs.set l q2 else s.route_costs
      endnode_to_route := en
      seen := s.seen ++ [(158, s.routes.set l (some a')),
        (160, (s.routes.set l (some a')).set r (some b')),
        (172, (s.routes.set l (some (a' ++ b'))).set r (some b')),
        (173, (s.routes.set l (some (a' ++ b'))).set r none)] } := by
    refine hm.inv hD hs hz hlen hen ?_ ?_ rfl
    · by_cases hC : truthy C = true
      · simp only [hC, if_true, hv1 hC]
      · simp [hC]
    · by_cases hL : truthy L = true
      · simp only [hL, if_true, hv2 hL]
      · simp [hL]
  refine ⟨_, false, rfl, hinv, by simp, fun _ => ⟨hpos, ?_, Or.inr ⟨l, r, a, b, a', b', hm⟩⟩⟩
  intro k m a1 b1 hkm hk hm' h1 h2 _
  have nd' := hinv.nodes
  have hk' := isEnd_mem h1
  have hm'' := isEnd_mem h2
  have nd2 : (nodesM ((s.routes.set l (some (a' ++ b'))).set r none)).Nodup := by
    rw [hm.nodesEq]; exact nd
  have hget : ((s.routes.set l (some (a' ++ b'))).set r none)[l]? = some (some (a' ++ b')) := by
    rw [hm.get, if_neg hlr, if_pos rfl]
  have e1 := nodesM_unique nd2 hk hget hk' (List.mem_append_left _ (List.mem_of_getLast? la))
  have e2 := nodesM_unique nd2 hm' hget hm'' (List.mem_append_right _ (List.mem_of_head? hb'))
  exact hkm (e1.trans e2.symm)

/-! ## The loop -/

/-- The saving of the arc as Clarke and Wright define it. -/
def cw (D : ℕ → ℕ → ℚ) (i j : ℕ) : ℚ := D i 0 + D 0 j - D i j

theorem psLoop_spec {N : ℕ} {D : ℕ → ℕ → ℚ} (hD : Symm D) {d : ℕ → ℚ} {C L : Option ℚ} (mk : Bool)
    (savings : List Saving) (hsv : ∀ sv ∈ savings, (1 ≤ sv.2.2.1 ∧ sv.2.2.1 < N) ∧
      (1 ≤ sv.2.2.2 ∧ sv.2.2.2 < N)) {s : PSState} (hs : PSInv N D d C L s) :
    ∃ s' br, forBreak savings s (psStep D C L mk) = .ok (s', br) ∧ PSInv N D d C L s' ∧
      (mk = false → costM D s'.routes ≤ costM D s.routes) ∧
      (Triangle D → (∀ n, 0 ≤ d n) →
        (∀ p q, Blocked D d C L p q s.routes → Blocked D d C L p q s'.routes) ∧
        (savings.Pairwise (fun a b => cw D b.2.2.1 b.2.2.2 ≤ cw D a.2.2.1 a.2.2.2) →
          ∀ sv ∈ savings, Blocked D d C L sv.2.2.1 sv.2.2.2 s'.routes ∨
            (mk = false ∧ cw D sv.2.2.1 sv.2.2.2 < 0)) ∧
        (mk = true → ∀ sv ∈ savings, Blocked D d C L sv.2.2.1 sv.2.2.2 s'.routes)) := by
  induction savings generalizing s with
  | nil =>
    exact ⟨s, false, rfl, hs, fun _ => le_refl _, fun _ _ => ⟨fun _ _ h => h, by simp, by simp⟩⟩
  | cons sv t ih =>
    have hv := hsv sv (List.mem_cons_self ..)
    obtain ⟨s1, br, h1, h2, h3, h4⟩ := psStep_spec hD mk hs hv.1 hv.2
    cases br with
    | true =>
      obtain ⟨rfl, hm, hneg⟩ := h3 rfl
      refine ⟨s1, true, by simp only [forBreak, h1], h2, fun _ => le_refl _, fun _ _ =>
        ⟨fun _ _ h => h, ?_, fun hmt => by rw [hm] at hmt; simp at hmt⟩⟩
      intro hp x hx
      right
      refine ⟨hm, ?_⟩
      rcases List.mem_cons.1 hx with rfl | hx
      · exact hneg
      · exact lt_of_le_of_lt ((List.pairwise_cons.1 hp).1 x hx) hneg
    | false =>
      obtain ⟨k1, k2, k3⟩ := h4 rfl
      obtain ⟨s2, br, g1, g2, g3, g4⟩ := ih (fun x hx => hsv x (List.mem_cons_of_mem _ hx)) h2
      refine ⟨s2, br, by simp only [forBreak, h1, g1], g2, ?_, ?_⟩
      · intro hm
        refine le_trans (g3 hm) ?_
        rcases k3 with rfl | ⟨l, r, a, b, a', b', hmg⟩
        · exact le_refl _
        · rw [hmg.costEq hD]
          rcases k1 with k1 | k1
          · rw [hm] at k1; simp at k1
          · linarith
      · intro hT hd
        obtain ⟨f1, f2, f3⟩ := g4 hT hd
        refine ⟨fun p q hb => f1 p q ?_, ?_, ?_⟩
        · rcases k3 with rfl | ⟨l, r, a, b, a', b', hmg⟩
          · exact hb
          · exact hmg.blocked hD hT hd hb
        · intro hp x hx
          rcases List.mem_cons.1 hx with rfl | hx
          · exact Or.inl (f1 _ _ k2)
          · exact f2 (List.pairwise_cons.1 hp).2 x hx
        · intro hm x hx
          rcases List.mem_cons.1 hx with rfl | hx
          · exact f1 _ _ k2
          · exact f3 hm x hx

theorem nodesM_singles (l : List ℕ) : nodesM (l.map fun i => some [i]) = (l : Multiset ℕ) := by
  rw [nodesM_eq]
  congr 1
  induction l with
  | nil => rfl
  | cons a t ih => simp only [List.map_cons, List.flatMap_cons, ih]; rfl

theorem get_singles {N k : ℕ} {rt : List ℕ}
    (h : ((pyRange 1 N).map fun i => some [i])[k]? = some (some rt)) : k + 1 < N ∧ rt = [k + 1] := by
  rw [List.getElem?_map] at h
  unfold pyRange at h
  by_cases hk : k < N - 1
  · rw [List.getElem?_range' (by omega)] at h
    simp only [Option.map_some, Option.some.injEq, one_mul] at h
    rw [← h, add_comm]
    exact ⟨by omega, rfl⟩
  · rw [List.getElem?_eq_none (by simp; omega)] at h
    simp at h

theorem psInit_inv (N : ℕ) (hN : 1 ≤ N) (D : ℕ → ℕ → ℚ) (d : ℕ → ℚ) (C L : Option ℚ) :
    PSInv N D d C L (psInit N D d C L) := by
  have hnodes : nodesM ((pyRange 1 N).map fun i => some [i]) = allCust N := nodesM_singles _
  have hfeas : Serviceable N D d C L → RoutesOk D d C L ((pyRange 1 N).map fun i => some [i]) := by
    intro hv k rt hk
    obtain ⟨h1, rfl⟩ := get_singles hk
    exact hv _ (by omega) h1
  refine ⟨?_, hnodes, ?_, ?_, ?_, ?_, hfeas, ?_, ?_, ?_⟩
  · simp [psInit, pyRange]; omega
  · intro k hk
    obtain ⟨-, h⟩ := get_singles hk
    simp at h
  · intro n h1 h2 k
    obtain ⟨m, rfl⟩ : ∃ m, n = m + 1 := ⟨n - 1, by omega⟩
    simp only [psInit, List.getElem?_cons_succ, List.getElem?_map]
    have e : (pyRange 0 (N - 1))[m]? = some m := by
      unfold pyRange; rw [List.getElem?_range' (by omega)]; simp
    rw [e]
    simp only [Option.map_some, Option.some.injEq]
    constructor
    · rintro rfl
      refine ⟨[m + 1], ?_, Or.inl rfl⟩
      have e : (pyRange 1 N)[m]? = some (m + 1) := by
        unfold pyRange; rw [List.getElem?_range' (by omega)]; simp [add_comm]
      rw [e]; rfl
    · rintro ⟨rt, hk, he⟩
      rw [← List.getElem?_map] at hk
      obtain ⟨-, rfl⟩ := get_singles hk
      rcases he with he | he <;> simp at he <;> omega
  · intro hC k rt hk
    obtain ⟨h1, rfl⟩ := get_singles hk
    have e : (pyRange 1 N)[k]? = some (k + 1) := by
      unfold pyRange; rw [List.getElem?_range' (by omega)]; simp [add_comm]
    simp only [psInit, if_pos hC, List.getElem?_map, e, Option.map_some, demand, add_zero]
  · intro hL k rt hk
    obtain ⟨h1, rfl⟩ := get_singles hk
    have e : (pyRange 1 N)[k]? = some (k + 1) := by
      unfold pyRange; rw [List.getElem?_range' (by omega)]; simp [add_comm]
    simp only [psInit, if_pos hL, List.getElem?_map, e, Option.map_some]
    simp [cost, wrap]
  · intro x hx _
    simp only [psInit, List.mem_singleton] at hx
    subst hx
    exact ⟨hnodes, hfeas⟩
  · intro x hx h
    simp only [psInit, List.mem_singleton] at hx
    subst hx
    simp at h
  · intro x hx k rt hk
    simp only [psInit, List.mem_singleton] at hx
    subst hx
    obtain ⟨h1, rfl⟩ := get_singles hk
    refine ⟨by simp, fun n hn => ?_⟩
    simp only [List.mem_singleton] at hn
    rw [hn]
    exact mem_allCust.2 ⟨by omega, h1⟩

/-! ## The solution made of the routes -/

/-- The routes that were not merged away. -/
def liveRoutes (routes : Routes) : List (List ℕ) := routes.filterMap id

theorem mem_liveRoutes {routes : Routes} {rt : List ℕ} :
    rt ∈ liveRoutes routes ↔ ∃ k : ℕ, routes[k]? = some (some rt) := by
  unfold liveRoutes
  rw [List.mem_filterMap]
  simp only [id_eq, exists_eq_right, List.mem_iff_getElem?]

theorem live_flatten (routes : Routes) : nodesM routes = ((liveRoutes routes).flatten : List ℕ) := by
  rw [nodesM_eq]
  congr 1
  unfold liveRoutes
  induction routes with
  | nil => rfl
  | cons a t ih => cases a <;> simp [ih]

theorem live_cost (D : ℕ → ℕ → ℚ) (routes : Routes) :
    costM D routes = ((liveRoutes routes).map fun r => cost D (wrap r)).sum := by
  unfold costM liveRoutes
  induction routes with
  | nil => rfl
  | cons a t ih => cases a <;> simp [ih, optCost]

theorem routes2sol_step_block {sol b : List ℕ} (hb : b ≠ [] ∧ ∀ x ∈ b, x ≠ 0) :
    routes2sol_step sol b = sol ++ b ++ [0] := by
  obtain ⟨h1, h2⟩ := hb
  cases b with
  | nil => simp at h1
  | cons x t =>
    unfold routes2sol_step
    have hx : x ≠ 0 := h2 x (List.mem_cons_self ..)
    simp only [if_neg hx]
    rw [if_pos]
    intro hl
    have : (x :: t).getLast? = some 0 := by
      rwa [List.getLast?_append_of_ne_nil _ (by simp)] at hl
    exact h2 0 (List.mem_of_getLast? this) rfl

theorem fold_routes (routes : Routes) (h : ∀ rt ∈ liveRoutes routes, rt ≠ [] ∧ ∀ x ∈ rt, x ≠ 0)
    (as : List (List ℕ)) :
    (routes.map (·.getD [])).foldl routes2sol_step (tour as) = tour (as ++ liveRoutes routes) := by
  induction routes generalizing as with
  | nil => simp [liveRoutes]
  | cons o t ih =>
    cases o with
    | none =>
      simp only [List.map_cons, Option.getD_none, List.foldl_cons]
      exact ih h as
    | some b =>
      simp only [List.map_cons, Option.getD_some, List.foldl_cons]
      rw [routes2sol_step_block (h b (by simp [liveRoutes])), ← tour_concat,
        ih (fun rt hrt => h rt (by simp only [liveRoutes] at hrt ⊢; simp at hrt ⊢; exact Or.inr hrt))]
      simp [liveRoutes]

theorem routesSol_eq {routes : Routes} (hne : routes ≠ [])
    (h : ∀ rt ∈ liveRoutes routes, rt ≠ [] ∧ ∀ x ∈ rt, x ≠ 0) :
    routesSol routes = some (tour (liveRoutes routes)) := by
  unfold routesSol routes2sol
  rw [if_neg (by simpa using hne)]
  exact congrArg some (fold_routes routes h [])

theorem squeeze_tour {bs : List (List ℕ)} (h : ∀ b ∈ bs, b ≠ [] ∧ ∀ x ∈ b, x ≠ 0) :
    squeeze (tour bs) = tour bs := by
  rw [squeeze_depotEnds (depotEnds_tour bs), blocks_tour_of_routes bs h]

theorem cost_tour_sum (D : ℕ → ℕ → ℚ) (bs : List (List ℕ)) :
    cost D (tour bs) = (bs.map fun b => cost D (wrap b)).sum := by
  induction bs with
  | nil => simp [tour, cost]
  | cons b t ih =>
    obtain ⟨r, hr⟩ := tour_eq_cons t
    simp only [tour, List.map_cons, List.sum_cons, ← ih]
    rw [hr, ← List.cons_append, cost_append_cons]
    rfl

end Verif
