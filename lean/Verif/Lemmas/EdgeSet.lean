import Verif.Model.EdgeSet
import Verif.Spec.EdgeSet
import Verif.Lemmas.ParallelSavings
import Mathlib.Algebra.BigOperators.Group.Finset.Basic

/-! # Lemmas about the edges of a solution -/

namespace Verif
open Spec

theorem step_nil (x y : ℕ) : ¬ Step [] x y := by rintro ⟨p, q, h⟩; simp at h

theorem step_single (a x y : ℕ) : ¬ Step [a] x y := by
  rintro ⟨p, q, h⟩
  have := congrArg List.length h
  simp at this
  omega

theorem step_cons (a b : ℕ) (t : List ℕ) (x y : ℕ) : Step (a :: b :: t) x y ↔ (x = a ∧ y = b) ∨ Step (b :: t) x y := by
  constructor
  · rintro ⟨p, q, h⟩
    cases p with
    | nil => injection h with h1 h2; injection h2 with h2 _; exact .inl ⟨h1.symm, h2.symm⟩
    | cons c p => injection h with _ h; exact .inr ⟨p, q, h⟩
  · rintro (⟨rfl, rfl⟩ | ⟨p, q, h⟩)
    · exact ⟨[], t, rfl⟩
    · exact ⟨a :: p, q, by rw [h]; rfl⟩

theorem step_append (l : List ℕ) (a : ℕ) (r : List ℕ) (x y : ℕ) : Step (l ++ a :: r) x y ↔ Step (l ++ [a]) x y ∨ Step (a :: r) x y := by
  induction l with
  | nil => simp [step_single]
  | cons b l ih =>
    cases l with
    | nil =>
      simp only [List.cons_append, List.nil_append] at ih ⊢
      rw [step_cons, step_cons]
      simp [step_single]
    | cons c l =>
      simp only [List.cons_append] at ih ⊢
      rw [step_cons, step_cons, ih, or_assoc]

theorem step_reverse {l : List ℕ} {x y : ℕ} : Step l.reverse x y ↔ Step l y x := by
  have key : ∀ (l : List ℕ) (x y : ℕ), Step l x y → Step l.reverse y x := by
    rintro l x y ⟨p, q, rfl⟩
    exact ⟨q.reverse, p.reverse, by simp⟩
  exact ⟨fun h => by simpa using key _ _ _ h, fun h => key _ _ _ h⟩

theorem step_mem {l : List ℕ} {x y : ℕ} (h : Step l x y) : x ∈ l ∧ y ∈ l := by
  obtain ⟨p, q, rfl⟩ := h; simp

theorem step_dropLast {l : List ℕ} {x y : ℕ} (h : Step l x y) : x ∈ l.dropLast := by
  obtain ⟨p, q, rfl⟩ := h
  rw [List.dropLast_append_of_ne_nil (by simp)]
  simp

theorem mem_edgeset_true {l : List ℕ} {x y : ℕ} : (x, y) ∈ sol2edgeset true l ↔ Step l x y := by
  induction l with
  | nil => simp [sol2edgeset, step_nil]
  | cons a l ih =>
    cases l with
    | nil => simp [sol2edgeset, step_single]
    | cons b t => rw [sol2edgeset, step_cons, ← ih]; simp

theorem mem_edgeset_false {l : List ℕ} {x y : ℕ} : (x, y) ∈ sol2edgeset false l ↔ x ≤ y ∧ (Step l x y ∨ Step l y x) := by
  induction l with
  | nil => simp [sol2edgeset, step_nil]
  | cons a l ih =>
    cases l with
    | nil => simp [sol2edgeset, step_single]
    | cons b t =>
      rw [sol2edgeset, step_cons, step_cons, Finset.mem_insert, ih]
      by_cases h : a < b
      · simp only [Bool.false_or, h, decide_true, if_true, Prod.mk.injEq]
        constructor
        · rintro (⟨rfl, rfl⟩ | ⟨h1, h2 | h2⟩)
          · exact ⟨h.le, .inl (.inl ⟨rfl, rfl⟩)⟩
          · exact ⟨h1, .inl (.inr h2)⟩
          · exact ⟨h1, .inr (.inr h2)⟩
        · rintro ⟨h1, (⟨rfl, rfl⟩ | h2) | (⟨rfl, rfl⟩ | h2)⟩
          · exact .inl ⟨rfl, rfl⟩
          · exact .inr ⟨h1, .inl h2⟩
          · omega
          · exact .inr ⟨h1, .inr h2⟩
      · simp only [Bool.false_or, h, decide_false, Bool.false_eq_true, if_false, Prod.mk.injEq]
        constructor
        · rintro (⟨rfl, rfl⟩ | ⟨h1, h2 | h2⟩)
          · exact ⟨by omega, .inr (.inl ⟨rfl, rfl⟩)⟩
          · exact ⟨h1, .inl (.inr h2)⟩
          · exact ⟨h1, .inr (.inr h2)⟩
        · rintro ⟨h1, (⟨rfl, rfl⟩ | h2) | (⟨rfl, rfl⟩ | h2)⟩
          · exact .inl ⟨by omega, by omega⟩
          · exact .inr ⟨h1, .inl h2⟩
          · exact .inl ⟨rfl, rfl⟩
          · exact .inr ⟨h1, .inr h2⟩

/-! ## Routes -/

theorem step_tour {bs : List (List ℕ)} {x y : ℕ} : Step (tour bs) x y ↔ ∃ b ∈ bs, Step (wrap b) x y := by
  induction bs with
  | nil => simp [tour, step_single]
  | cons b bs ih =>
    obtain ⟨r, hr⟩ := tour_eq_cons bs
    have e : tour (b :: bs) = (0 :: b) ++ 0 :: r := by rw [tour, hr]; rfl
    rw [e, step_append, ← hr, ih]
    simp [wrap]

/-- The routes of a complete solution. -/
structure GoodRoutes (bs : List (List ℕ)) : Prop where
  ne : ∀ b ∈ bs, b ≠ []
  pos : ∀ b ∈ bs, ∀ x ∈ b, x ≠ 0
  nodup : bs.flatten.Nodup

theorem good_unique {bs : List (List ℕ)} (h : GoodRoutes bs) {b c : List ℕ} (hb : b ∈ bs) (hc : c ∈ bs) {x : ℕ} (hx : x ∈ b) (hx' : x ∈ c) :
    b = c := by
  have key : ∀ bs : List (List ℕ), bs.flatten.Nodup → b ∈ bs → c ∈ bs → b = c := by
    intro bs
    induction bs with
    | nil => intro _ hb; simp at hb
    | cons d bs ih =>
      intro hnd hb hc
      rw [List.flatten_cons, List.nodup_append] at hnd
      rcases List.mem_cons.1 hb with rfl | hb' <;> rcases List.mem_cons.1 hc with rfl | hc'
      · rfl
      · exact absurd rfl (hnd.2.2 x hx x (List.mem_flatten.2 ⟨c, hc', hx'⟩))
      · exact absurd rfl (hnd.2.2 x hx' x (List.mem_flatten.2 ⟨b, hb', hx⟩))
      · exact ih hnd.2.1 hb' hc'
  exact key bs h.nodup hb hc

theorem good_nodup {bs : List (List ℕ)} (h : GoodRoutes bs) {b : List ℕ} (hb : b ∈ bs) : b.Nodup := (List.nodup_flatten.1 h.nodup).1 b hb

theorem succ_head {x y : ℕ} : ∀ {p r : List ℕ}, x ∉ p → x ∉ r → Step (p ++ x :: r) x y → r.head? = some y := by
  intro p
  induction p with
  | nil =>
    intro r _ hr h
    cases r with
    | nil => exact absurd h (step_single _ _ _)
    | cons c r =>
      rcases (step_cons _ _ _ _ _).1 h with ⟨-, rfl⟩ | h
      · rfl
      · exact absurd (step_mem h).1 hr
  | cons a p ih =>
    intro r hp hr h
    refine ih (fun h => hp (by simp [h])) hr ?_
    have hxa : x ≠ a := fun e => hp (by simp [e])
    cases p with
    | nil =>
      rcases (step_cons a x r _ _).1 h with ⟨e, -⟩ | h
      · exact absurd e hxa
      · exact h
    | cons c p =>
      rcases (step_cons a c _ _ _).1 h with ⟨e, -⟩ | h
      · exact absurd e hxa
      · exact h

/-- The only successor of a customer. -/
theorem good_succ {bs : List (List ℕ)} (h : GoodRoutes bs) {p u : List ℕ} {x y : ℕ} (hb : p ++ x :: u ∈ bs) :
    Step (tour bs) x y ↔ (u ++ [0]).head? = some y := by
  have hx := h.pos _ hb x (by simp)
  have hnd := good_nodup h hb
  have hxp : x ∉ p := fun hm => (List.nodup_append.1 hnd).2.2 x hm x (by simp) rfl
  have hxu : x ∉ u := (List.nodup_cons.1 (List.nodup_append.1 hnd).2.1).1
  have e : wrap (p ++ x :: u) = (0 :: p) ++ x :: (u ++ [0]) := by simp [wrap]
  rw [step_tour]
  constructor
  · rintro ⟨c, hc, hs⟩
    have hxc : x ∈ c := by
      have := (step_mem hs).1
      simpa [wrap, hx] using this
    obtain rfl := good_unique h hb hc (by simp) hxc
    rw [e] at hs
    exact succ_head (by simp [hx, hxp]) (by simp [hx, hxu]) hs
  · intro hy
    refine ⟨_, hb, ?_⟩
    rw [e]
    obtain ⟨q, hq⟩ : ∃ q, u ++ [0] = y :: q := by
      cases hu : u ++ [0] with
      | nil => simp at hu
      | cons z q => rw [hu] at hy; exact ⟨q, by simpa using hy⟩
    rw [hq]
    exact ⟨_, q, rfl⟩

/-- The only predecessor of a customer. -/
theorem good_pred {bs : List (List ℕ)} (h : GoodRoutes bs) {p u : List ℕ} {x y : ℕ} (hb : p ++ x :: u ∈ bs) :
    Step (tour bs) y x ↔ (0 :: p).getLast? = some y := by
  have hx := h.pos _ hb x (by simp)
  have hnd := good_nodup h hb
  have hxp : x ∉ p := fun hm => (List.nodup_append.1 hnd).2.2 x hm x (by simp) rfl
  have hxu : x ∉ u := (List.nodup_cons.1 (List.nodup_append.1 hnd).2.1).1
  have e : (wrap (p ++ x :: u)).reverse = (0 :: u.reverse) ++ x :: (0 :: p).reverse := by simp [wrap]
  rw [step_tour]
  constructor
  · rintro ⟨c, hc, hs⟩
    have hxc : x ∈ c := by
      have := (step_mem hs).2
      simpa [wrap, hx] using this
    obtain rfl := good_unique h hb hc (by simp) hxc
    rw [← step_reverse, e] at hs
    have := succ_head (by simp [hx, hxu]) (by simp [hx, hxp]) hs
    rwa [List.head?_reverse] at this
  · intro hy
    refine ⟨_, hb, ?_⟩
    obtain ⟨q, hq⟩ : ∃ q, 0 :: p = q ++ [y] := by
      have hne : 0 :: p ≠ [] := by simp
      refine ⟨(0 :: p).dropLast, ?_⟩
      rw [List.getLast?_eq_some_getLast hne] at hy
      injection hy with hy
      rw [← hy]
      exact (List.dropLast_append_getLast hne).symm
    refine ⟨q, u ++ [0], ?_⟩
    have : wrap (p ++ x :: u) = (0 :: p) ++ x :: (u ++ [0]) := by simp [wrap]
    rw [this, hq]
    simp

/-! ## The same steps -/

theorem same_tail {bs cs : List (List ℕ)} (hb : GoodRoutes bs) (hc : GoodRoutes cs) (h : ∀ x y, Step (tour bs) x y ↔ Step (tour cs) x y) :
    ∀ (u v p q : List ℕ) (x : ℕ), p ++ x :: u ∈ bs → q ++ x :: v ∈ cs → u = v := by
  intro u
  induction u with
  | nil =>
    intro v p q x h1 h2
    have h3 := (good_succ hc h2).1 ((h x 0).1 ((good_succ hb h1).2 rfl))
    cases v with
    | nil => rfl
    | cons a v =>
      have : a = 0 := by simpa using h3
      exact absurd this (hc.pos _ h2 a (by simp))
  | cons a u ih =>
    intro v p q x h1 h2
    have h3 := (good_succ hc h2).1 ((h x a).1 ((good_succ hb h1).2 rfl))
    have ha : a ≠ 0 := hb.pos _ h1 a (by simp)
    cases v with
    | nil => exact absurd (by simpa using h3.symm) ha
    | cons b v =>
      obtain rfl : b = a := by simpa using h3
      rw [ih v (p ++ [x]) (q ++ [x]) b (by simpa using h1) (by simpa using h2)]

theorem same_sub {bs cs : List (List ℕ)} (hb : GoodRoutes bs) (hc : GoodRoutes cs) (h : ∀ x y, Step (tour bs) x y ↔ Step (tour cs) x y)
    {b : List ℕ} (hm : b ∈ bs) : b ∈ cs := by
  cases b with
  | nil => exact absurd rfl (hb.ne _ hm)
  | cons x u =>
    have hx := hb.pos _ hm x (by simp)
    have h1 := (h 0 x).1 ((good_pred hb (p := []) (u := u) hm).2 rfl)
    obtain ⟨c, hcm, hs⟩ := step_tour.1 h1
    have hxc : x ∈ c := by
      have := (step_mem hs).2
      simpa [wrap, hx] using this
    obtain ⟨q, v, rfl⟩ := List.append_of_mem hxc
    have h2 := (good_pred hc hcm).1 h1
    have hq : q = [] := by
      cases q with
      | nil => rfl
      | cons a q =>
        rw [List.getLast?_cons_cons] at h2
        have := List.mem_of_getLast? h2
        exact absurd rfl (hc.pos _ hcm 0 (List.mem_append_left _ this))
    subst hq
    rw [same_tail hb hc h u v [] [] x hm hcm]
    exact hcm

/-! ## The same steps in some direction -/

/-- The neighbours of the customers of a route. -/
def NbRoute (nb : ℕ → ℕ → Prop) (b : List ℕ) : Prop :=
  ∀ p x u, b = p ++ x :: u → ∀ y, nb x y ↔ (0 :: p).getLast? = some y ∨ (u ++ [0]).head? = some y

theorem nbRoute_of_good {bs : List (List ℕ)} (h : GoodRoutes bs) {b : List ℕ} (hb : b ∈ bs) :
    NbRoute (fun x y => Step (tour bs) x y ∨ Step (tour bs) y x) b := by
  rintro p x u rfl y
  dsimp only
  rw [good_succ h hb, good_pred h hb, or_comm]

theorem nbRoute_reverse {nb : ℕ → ℕ → Prop} {b : List ℕ} (h : NbRoute nb b) : NbRoute nb b.reverse := by
  intro p x u e y
  have e' : b = u.reverse ++ x :: p.reverse := by
    have := congrArg List.reverse e
    simpa using this
  rw [h _ _ _ e' y, or_comm]
  have e1 : (p.reverse ++ [0]) = (0 :: p).reverse := by simp
  have e2 : (0 :: u.reverse) = (u ++ [0]).reverse := by simp
  rw [e1, e2, List.head?_reverse, List.getLast?_reverse]

theorem nb_tail {nb : ℕ → ℕ → Prop} {b c : List ℕ} (hb : NbRoute nb b) (hc : NbRoute nb c) (nb0 : ∀ x ∈ b, x ≠ 0) (nc0 : ∀ x ∈ c, x ≠ 0)
    (ndb : b.Nodup) : ∀ (u v p q : List ℕ) (a x : ℕ), b = p ++ a :: x :: u → c = q ++ a :: x :: v → u = v := by
  intro u
  have hlast : ∀ (p : List ℕ) (a : ℕ), (0 :: (p ++ [a])).getLast? = some a := by intro p a; simp [List.getLast?_cons]
  have notA : ∀ {d : List ℕ}, d.Nodup → (∀ x ∈ d, x ≠ 0) → ∀ {p w : List ℕ} {a x : ℕ}, d = p ++ a :: x :: w → (w ++ [0]).head? ≠ some a := by
    intro d hd h0 p w a x e hh
    have ha : a ≠ 0 := h0 a (by rw [e]; simp)
    cases w with
    | nil => exact ha (by simpa using hh.symm)
    | cons y w =>
      have hy : y = a := by simpa using hh
      rw [e] at hd
      have := (List.nodup_append.1 hd).2.1
      exact (List.nodup_cons.1 this).1 (by simp [hy])
  induction u with
  | nil =>
    intro v p q a x e1 e2
    have h1 : nb x 0 := (hb (p ++ [a]) x [] (by simp [e1]) 0).2 (.inr rfl)
    rcases (hc (q ++ [a]) x v (by simp [e2]) 0).1 h1 with h | h
    · rw [hlast] at h
      injection h with h
      exact absurd h (nc0 a (by rw [e2]; simp))
    · cases v with
      | nil => rfl
      | cons y v => exact absurd (by simpa using h) (nc0 y (by rw [e2]; simp))
  | cons y u ih =>
    intro v p q a x e1 e2
    have h1 : nb x y := (hb (p ++ [a]) x (y :: u) (by simp [e1]) y).2 (.inr rfl)
    have hy : y ≠ 0 := nb0 y (by rw [e1]; simp)
    rcases (hc (q ++ [a]) x v (by simp [e2]) y).1 h1 with h | h
    · rw [hlast] at h
      injection h with h
      exact absurd (by simp [h]) (notA ndb nb0 e1)
    · cases v with
      | nil => exact absurd (by simpa using h.symm) hy
      | cons z v =>
        obtain rfl : z = y := by simpa using h
        rw [ih v (p ++ [a]) (q ++ [a]) x z (by simp [e1]) (by simp [e2])]

theorem nb_head {nb : ℕ → ℕ → Prop} {u v : List ℕ} {x : ℕ} (hb : NbRoute nb (x :: u)) (hc : NbRoute nb (x :: v)) (nb0 : ∀ y ∈ x :: u, y ≠ 0)
    (nc0 : ∀ y ∈ x :: v, y ≠ 0) (ndb : (x :: u).Nodup) : u = v := by
  have key : ∀ {u v : List ℕ}, NbRoute nb (x :: u) → NbRoute nb (x :: v) → (∀ y ∈ x :: u, y ≠ 0) → ∀ y t, u = y :: t → ∃ t', v = y :: t' := by
    intro u v hb hc h0 y t e
    have h1 : nb x y := (hb [] x u rfl y).2 (.inr (by rw [e]; rfl))
    have hy : y ≠ 0 := h0 y (by simp [e])
    rcases (hc [] x v rfl y).1 h1 with h | h
    · exact absurd (by simpa using h.symm) hy
    · cases v with
      | nil => exact absurd (by simpa using h.symm) hy
      | cons z v =>
        obtain rfl : z = y := by simpa using h
        exact ⟨v, rfl⟩
  cases u with
  | nil =>
    cases v with
    | nil => rfl
    | cons y v => obtain ⟨t, ht⟩ := key hc hb nc0 y v rfl; cases ht
  | cons y u =>
    obtain ⟨v', rfl⟩ := key hb hc nb0 y u rfl
    rw [nb_tail hb hc nb0 nc0 ndb u v' [] [] x y rfl rfl]

theorem nb_sub {bs cs : List (List ℕ)} (hb : GoodRoutes bs) (hc : GoodRoutes cs)
    (h : ∀ x y, (Step (tour bs) x y ∨ Step (tour bs) y x) ↔ (Step (tour cs) x y ∨ Step (tour cs) y x)) {b : List ℕ} (hm : b ∈ bs) :
    b ∈ cs ∨ b.reverse ∈ cs := by
  cases b with
  | nil => exact absurd rfl (hb.ne _ hm)
  | cons x u =>
    have hx := hb.pos _ hm x (by simp)
    have h0 : Step (tour bs) x 0 ∨ Step (tour bs) 0 x := .inr ((good_pred hb (p := []) (u := u) hm).2 rfl)
    obtain ⟨c, hcm, hxc⟩ : ∃ c ∈ cs, x ∈ c := by
      rcases (h x 0).1 h0 with h1 | h1 <;> obtain ⟨c, hcm, hs⟩ := step_tour.1 h1 <;> refine ⟨c, hcm, ?_⟩
      · have := (step_mem hs).1
        simpa [wrap, hx] using this
      · have := (step_mem hs).2
        simpa [wrap, hx] using this
    have nB := nbRoute_of_good hb hm
    have nC := nbRoute_of_good hc hcm
    have e : (fun x y => Step (tour bs) x y ∨ Step (tour bs) y x) = fun x y => Step (tour cs) x y ∨ Step (tour cs) y x := by
      funext x y; exact propext (h x y)
    rw [e] at nB
    obtain ⟨q, v, rfl⟩ := List.append_of_mem hxc
    rcases (nC q x v rfl 0).1 ((h x 0).1 h0) with h1 | h1
    · left
      have hq : q = [] := by
        cases q with
        | nil => rfl
        | cons a q =>
          rw [List.getLast?_cons_cons] at h1
          exact absurd rfl (hc.pos _ hcm 0 (List.mem_append_left _ (List.mem_of_getLast? h1)))
      subst hq
      rw [nb_head nB nC (hb.pos _ hm) (hc.pos _ hcm) (good_nodup hb hm)]
      exact hcm
    · right
      have hv : v = [] := by
        cases v with
        | nil => rfl
        | cons a v => exact absurd (by simpa using h1) (hc.pos _ hcm a (by simp))
      subst hv
      have hr : (q ++ [x]).reverse = x :: q.reverse := by simp
      have nC' := nbRoute_reverse nC
      rw [hr] at nC'
      have := nb_head nB nC' (hb.pos _ hm) (fun y hy => hc.pos _ hcm y (List.mem_reverse.1 (by rw [hr]; exact hy))) (good_nodup hb hm)
      rw [this]
      simpa using hcm

/-! ## The sum over the steps -/

theorem sum_edges (D : ℕ → ℕ → ℚ) : ∀ l : List ℕ, l.dropLast.Nodup → ∑ e ∈ sol2edgeset true l, D e.1 e.2 = cost D l
  | [], _ => by simp [sol2edgeset, cost]
  | [a], _ => by simp [sol2edgeset, cost]
  | a :: b :: t, h => by
    rw [List.dropLast_cons_cons, List.nodup_cons] at h
    rw [sol2edgeset, Finset.sum_insert, sum_edges D (b :: t) h.2, cost]
    · simp
    · simp only [Bool.true_or, if_true]
      intro hm
      exact h.1 (step_dropLast (mem_edgeset_true.1 hm))

theorem edgeset_append (l : List ℕ) (a : ℕ) (r : List ℕ) :
    sol2edgeset true (l ++ a :: r) = sol2edgeset true (l ++ [a]) ∪ sol2edgeset true (a :: r) := by
  ext ⟨x, y⟩
  rw [Finset.mem_union, mem_edgeset_true, mem_edgeset_true, mem_edgeset_true, step_append]

theorem sum_edges_tour (D : ℕ → ℕ → ℚ) : ∀ bs : List (List ℕ), GoodRoutes bs → ∑ e ∈ sol2edgeset true (tour bs), D e.1 e.2 = cost D (tour bs)
  | [], _ => by simp [sol2edgeset, tour]
  | b :: bs, h => by
    obtain ⟨r, hr⟩ := tour_eq_cons bs
    have hbs : GoodRoutes bs := ⟨fun c hc => h.ne c (by simp [hc]), fun c hc => h.pos c (by simp [hc]),
      by have := h.nodup; rw [List.flatten_cons] at this; exact (List.nodup_append.1 this).2.1⟩
    have e : tour (b :: bs) = (0 :: b) ++ 0 :: r := by rw [tour, hr]; rfl
    have hd : (0 :: b ++ [0]).dropLast = 0 :: b := by rw [List.dropLast_concat]
    rw [e, edgeset_append, cost_append_cons, Finset.sum_union, sum_edges D (0 :: b ++ [0]), ← hr, sum_edges_tour D bs hbs]
    · rw [hd]
      exact List.nodup_cons.2 ⟨fun hm => h.pos b (by simp) 0 hm rfl, good_nodup h (by simp)⟩
    · rw [Finset.disjoint_left]
      rintro ⟨x, y⟩ h1 h2
      rw [mem_edgeset_true] at h1 h2
      rw [← hr] at h2
      obtain ⟨c, hc, hs⟩ := step_tour.1 h2
      have hcb : ∀ z ∈ c, z ∉ b := by
        intro z hz hz'
        have := h.nodup
        rw [List.flatten_cons, List.nodup_append] at this
        exact this.2.2 z hz' z (List.mem_flatten.2 ⟨c, hc, hz⟩) rfl
      have hb0 : b ≠ [] := h.ne b (by simp)
      have hz : ∀ z, z ∈ 0 :: b ++ [0] → z ∈ wrap c → z = 0 := by
        intro z hz1 hz2
        by_contra hne
        have h3 : z ∈ b := by simpa [hne] using hz1
        have h4 : z ∈ c := by simpa [wrap, hne] using hz2
        exact hcb z h4 h3
      obtain rfl := hz x (step_mem h1).1 (step_mem hs).1
      obtain rfl := hz y (step_mem h1).2 (step_mem hs).2
      cases b with
      | nil => exact hb0 rfl
      | cons z t =>
        rw [List.cons_append, List.cons_append] at h1
        rcases (step_cons 0 z (t ++ [0]) 0 0).1 h1 with ⟨-, e⟩ | ⟨p, q, e⟩
        · exact h.pos (z :: t) (by simp) z (by simp) e.symm
        · have hcount := congrArg (List.count 0) e
          have hz0 : List.count 0 (z :: t) = 0 := List.count_eq_zero.2 fun hm => h.pos (z :: t) (by simp) 0 hm rfl
          rw [← List.cons_append, List.count_append, hz0, List.count_append] at hcount
          simp at hcount
          omega

end Verif
