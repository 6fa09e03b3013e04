import Mathlib.Data.List.Chain
import Verif.Model.Lr3opt
import Verif.Lemmas.ParallelSavings

/-! # Lemmas on the constraint checker and `_force_feasible` of lr3opt -/

namespace Verif

open Spec

/-! ## The checker -/

theorem exceeds_add {lim : Option ℚ} (e x y : ℚ) :
    exceeds lim e (if truthy lim = true then x + y else x) = exceeds lim e (x + y) := by
  by_cases h : truthy lim = true
  · rw [if_pos h]
  · have h' : truthy lim = false := by simpa using h
    rw [exceeds_truthy h', exceeds_truthy h']

theorem checkCL_sound (D : ℕ → ℕ → ℚ) (d : ℕ → ℚ) (C L : Option ℚ) (r : List ℕ) :
    ∀ (g : List ℕ), (∀ x ∈ g, x ≠ 0) → ∀ (p : ℕ) (c l c' l' : ℚ),
    (truthy C = true → c' = c) → (truthy L = true → l' = l) →
    checkCLLoop D d C L (g ++ 0 :: r) ⟨some p, c', l'⟩ = true →
    (g ≠ [] → Within C C_EPS (c + demand d g)) ∧ Within L S_EPS (l + cost D (p :: (g ++ [0]))) ∧
      checkCLLoop D d C L r ⟨some 0, 0, 0⟩ = true
  | [], _, p, c, l, c', l', hc, hl, h => by
    simp only [List.nil_append, checkCLLoop, ne_eq, not_true_eq_false, false_and, if_false,
      Option.isSome_some, true_and, if_true, bne_self_eq_false, Bool.and_false] at h
    by_cases h1 : exceeds L S_EPS (if truthy L = true then l' + D p 0 else l') = true
    · rw [if_pos h1] at h; simp at h
    · rw [if_neg h1] at h
      refine ⟨fun h => absurd rfl h, ?_, h⟩
      rw [exceeds_add] at h1
      rw [← exceeds_iff]
      by_cases hL : truthy L = true
      · rw [hl hL] at h1; simpa using h1
      · exact exceeds_truthy (by simpa using hL) _ _
  | a :: g, hg, p, c, l, c', l', hc, hl, h => by
    have ha : a ≠ 0 := hg a (by simp)
    have hb : (truthy C && a != 0) = truthy C := by simp [ha]
    simp only [List.cons_append, checkCLLoop, hb, ne_eq, ha, not_false_eq_true, true_and,
      Option.isSome_some, if_false] at h
    by_cases h1 : exceeds C C_EPS (if truthy C = true then c' + d a else c') = true
    · rw [if_pos h1] at h; simp at h
    rw [if_neg h1] at h
    by_cases h2 : exceeds L S_EPS (if truthy L = true then l' + D p a else l') = true
    · rw [if_pos h2] at h; simp at h
    rw [if_neg h2] at h
    obtain ⟨k1, k2, k3⟩ := checkCL_sound D d C L r g (fun x hx => hg x (by simp [hx])) a (c + d a)
      (l + D p a) _ _ (fun hC => by rw [if_pos hC, hc hC]) (fun hL => by rw [if_pos hL, hl hL]) h
    refine ⟨fun _ => ?_, ?_, k3⟩
    · by_cases hg0 : g = []
      · subst hg0
        rw [exceeds_add] at h1
        rw [← exceeds_iff]
        by_cases hC : truthy C = true
        · rw [hc hC] at h1; simpa using h1
        · exact exceeds_truthy (by simpa using hC) _ _
      · have := k1 hg0
        rwa [add_assoc] at this
    · rw [List.cons_append, cost_cons_cons, ← add_assoc]
      exact k2

theorem cost_nonneg {D : ℕ → ℕ → ℚ} (hD : ∀ i j, 0 ≤ D i j) : ∀ l : List ℕ, 0 ≤ cost D l
  | [] => by simp
  | [_] => by simp
  | a :: b :: t => by
    have := cost_nonneg hD (b :: t)
    have := hD a b
    rw [cost_cons_cons]; linarith

theorem checkCL_complete {D : ℕ → ℕ → ℚ} (hD : ∀ i j, 0 ≤ D i j) {d : ℕ → ℚ} (hd : ∀ n, 0 ≤ d n)
    (C L : Option ℚ) (r : List ℕ) :
    ∀ (g : List ℕ), (∀ x ∈ g, x ≠ 0) → ∀ (p : ℕ) (c l c' l' : ℚ),
    (truthy C = true → c' = c) → (truthy L = true → l' = l) →
    (g ≠ [] → Within C C_EPS (c + demand d g)) → Within L S_EPS (l + cost D (p :: (g ++ [0]))) →
      checkCLLoop D d C L r ⟨some 0, 0, 0⟩ = true →
    checkCLLoop D d C L (g ++ 0 :: r) ⟨some p, c', l'⟩ = true
  | [], _, p, c, l, c', l', hc, hl, k1, k2, k3 => by
    simp only [List.nil_append, checkCLLoop, ne_eq, not_true_eq_false, false_and, if_false,
      Option.isSome_some, true_and, if_true, bne_self_eq_false, Bool.and_false]
    have h1 : ¬ exceeds L S_EPS (if truthy L = true then l' + D p 0 else l') = true := by
      rw [exceeds_add]
      by_cases hL : truthy L = true
      · rw [hl hL]
        have := (exceeds_iff L S_EPS _).2 k2
        simpa using this
      · simp [exceeds_truthy (by simpa using hL)]
    rw [if_neg h1]
    exact k3
  | a :: g, hg, p, c, l, c', l', hc, hl, k1, k2, k3 => by
    have ha : a ≠ 0 := hg a (by simp)
    have hb : (truthy C && a != 0) = truthy C := by simp [ha]
    simp only [List.cons_append, checkCLLoop, hb, ne_eq, ha, not_false_eq_true, true_and,
      Option.isSome_some, if_false]
    have k1' := k1 (by simp)
    have hdg := demand_nonneg hd g
    have hcg : 0 ≤ cost D (a :: (g ++ [0])) := cost_nonneg hD _
    rw [List.cons_append, cost_cons_cons] at k2
    have h1 : ¬ exceeds C C_EPS (if truthy C = true then c' + d a else c') = true := by
      rw [exceeds_add]
      by_cases hC : truthy C = true
      · rw [hc hC]
        have : Within C C_EPS (c + d a) := fun x hx h0 => by
          have := k1' x hx h0
          rw [demand_cons] at this
          linarith
        have := (exceeds_iff C C_EPS _).2 this
        simpa using this
      · simp [exceeds_truthy (by simpa using hC)]
    rw [if_neg h1]
    have h2 : ¬ exceeds L S_EPS (if truthy L = true then l' + D p a else l') = true := by
      rw [exceeds_add]
      by_cases hL : truthy L = true
      · rw [hl hL]
        have : Within L S_EPS (l + D p a) := fun x hx h0 => by
          have := k2 x hx h0
          linarith
        have := (exceeds_iff L S_EPS _).2 this
        simpa using this
      · simp [exceeds_truthy (by simpa using hL)]
    rw [if_neg h2]
    refine checkCL_complete hD hd C L r g (fun x hx => hg x (by simp [hx])) a (c + d a)
      (l + D p a) _ _ (fun hC => by rw [if_pos hC, hc hC]) (fun hL => by rw [if_pos hL, hl hL]) ?_ ?_ k3
    · intro _
      rw [add_assoc]
      exact k1'
    · rw [add_assoc]
      exact k2

/-! ## Forcing feasibility -/

/-- A split of a route: no part is empty, the parts respect the limits if the customers alone do, and
no part could have taken the first customer of the next. -/
structure Split (D : ℕ → ℕ → ℚ) (d : ℕ → ℚ) (C L : Option ℚ) (S : Prop) (ps : List (List ℕ)) : Prop where
  ne : ∀ p ∈ ps, p ≠ []
  ok : S → ∀ p ∈ ps, RouteOk D d C L p
  needed : ps.IsChain fun p q => ∀ n, q.head? = some n → ¬ RouteOk D d C L (p ++ [n])

structure FFInv (D : ℕ → ℕ → ℚ) (d : ℕ → ℚ) (C L : Option ℚ) (S : Prop) (R done : List (List ℕ))
    (cur : List ℕ) (s : FFState) : Prop where
  rts : s.feasible_routes = R ++ done.map wrap
  fr : s.feasibler = 0 :: cur
  ne : cur ≠ []
  td : truthy C = true → s.totald = demand d cur
  tl : truthy L = true → s.totall = cost D (0 :: cur)
  last : cur.getLast? = some s.prevn
  split : Split D d C L S (done ++ [cur])

theorem cost_wrap_concat (D : ℕ → ℕ → ℚ) {cur : List ℕ} {p n : ℕ} (h : cur.getLast? = some p) :
    cost D (wrap (cur ++ [n])) = cost D (0 :: cur) + D p n + D n 0 ∧
    cost D (0 :: (cur ++ [n])) = cost D (0 :: cur) + D p n := by
  obtain ⟨A, rfl⟩ := List.getLast?_eq_some_iff.1 h
  have e1 : (0 :: (A ++ [p] ++ [n]) : List ℕ) = (0 :: A) ++ [p, n] := by simp
  have e2 : wrap (A ++ [p] ++ [n]) = (0 :: (A ++ [p])) ++ [n, 0] := by simp [wrap]
  have e3 : (0 :: (A ++ [p])) ++ [n] = (0 :: A) ++ [p, n] := by simp
  constructor
  · rw [e2, cost_concat, e3, cost_concat]; simp
  · rw [e1, cost_concat]; simp

theorem ff_spec {D : ℕ → ℕ → ℚ} {d : ℕ → ℚ} {C L : Option ℚ} {S : Prop} {R : List (List ℕ)} :
    ∀ (rest : List ℕ), (∀ x ∈ rest, x ≠ 0 ∧ (S → RouteOk D d C L [x])) →
    ∀ (done : List (List ℕ)) (cur : List ℕ) (s : FFState), FFInv D d C L S R done cur s →
    ∃ ps, ((rest ++ [0]).foldl (ffStep D d C L) s).feasible_routes = R ++ ps.map wrap ∧
      ps.flatten = done.flatten ++ cur ++ rest ∧ Split D d C L S ps
  | [], _, done, cur, s, hs => by
    have hl : 1 < s.feasibler.length := by
      rw [hs.fr]
      have := List.length_pos_of_ne_nil hs.ne
      simp; omega
    refine ⟨done ++ [cur], ?_, by simp, hs.split⟩
    simp only [List.nil_append, List.foldl_cons, List.foldl_nil, ffStep]
    rw [if_pos (show (_ ∨ _) ∧ _ from ⟨Or.inl (by trivial), hl⟩)]
    simp [hs.rts, hs.fr, wrap]
  | n :: rest, hr, done, cur, s, hs => by
    have hn := hr n (by simp)
    have hrest : ∀ x ∈ rest, x ≠ 0 ∧ (S → RouteOk D d C L [x]) := fun x hx => hr x (by simp [hx])
    have hl : 1 < s.feasibler.length := by
      rw [hs.fr]
      have := List.length_pos_of_ne_nil hs.ne
      simp; omega
    obtain ⟨hw, hp⟩ := cost_wrap_concat D (n := n) hs.last
    have hC : exceeds C C_EPS (s.totald + d n) = exceeds C C_EPS (demand d (cur ++ [n])) := by
      by_cases h : truthy C = true
      · rw [hs.td h]; simp
      · rw [exceeds_truthy (by simpa using h), exceeds_truthy (by simpa using h)]
    have hL : exceeds L S_EPS (s.totall + D s.prevn n + D n 0) =
        exceeds L S_EPS (cost D (wrap (cur ++ [n]))) := by
      by_cases h : truthy L = true
      · rw [hs.tl h, hw]
      · rw [exceeds_truthy (by simpa using h), exceeds_truthy (by simpa using h)]
    have hok : (exceeds C C_EPS (s.totald + d n) = true ∨
        exceeds L S_EPS (s.totall + D s.prevn n + D n 0) = true) ↔ ¬ RouteOk D d C L (cur ++ [n]) := by
      rw [hC, hL]
      unfold RouteOk
      rw [← exceeds_iff, ← exceeds_iff]
      cases exceeds C C_EPS (demand d (cur ++ [n])) <;>
        cases exceeds L S_EPS (cost D (wrap (cur ++ [n]))) <;> simp
    rw [List.cons_append, List.foldl_cons]
    by_cases hv : RouteOk D d C L (cur ++ [n])
    · have hinv : FFInv D d C L S R done (cur ++ [n]) (ffStep D d C L s n) := by
        have hif : ¬ ((n = 0 ∨ exceeds C C_EPS (s.totald + d n) = true ∨
            exceeds L S_EPS (s.totall + D s.prevn n + D n 0) = true) ∧ 1 < s.feasibler.length) := by
          rintro ⟨h | h, -⟩
          · exact hn.1 h
          · exact hok.1 h hv
        unfold ffStep
        simp only [if_neg hif]
        refine ⟨hs.rts, by simp [hn.1, hs.fr], by simp, ?_, ?_, by simp, ?_⟩
        · intro h; simp [h, hs.td h]
        · intro h; simp only [h, if_true, hs.tl h, hp]
        · refine ⟨?_, ?_, ?_⟩
          · intro p hp
            simp only [List.mem_append, List.mem_singleton] at hp
            rcases hp with hp | rfl
            · exact hs.split.ne p (by simp [hp])
            · simp
          · intro hS p hp
            simp only [List.mem_append, List.mem_singleton] at hp
            rcases hp with hp | rfl
            · exact hs.split.ok hS p (by simp [hp])
            · exact hv
          · have := hs.split.needed
            rw [List.isChain_append] at this ⊢
            refine ⟨this.1, by simp, ?_⟩
            intro x hx y hy
            simp only [List.head?_cons, Option.mem_def, Option.some.injEq] at hy
            subst hy
            intro m hm
            rw [List.head?_append_of_ne_nil _ hs.ne] at hm
            exact this.2.2 x hx cur (by simp) m hm
      obtain ⟨ps, g1, g2, g3⟩ := ff_spec rest hrest done (cur ++ [n]) _ hinv
      exact ⟨ps, g1, by rw [g2]; simp, g3⟩
    · have hinv : FFInv D d C L S R (done ++ [cur]) [n] (ffStep D d C L s n) := by
        have hif : ((n = 0 ∨ exceeds C C_EPS (s.totald + d n) = true ∨
            exceeds L S_EPS (s.totall + D s.prevn n + D n 0) = true) ∧ 1 < s.feasibler.length) :=
          ⟨Or.inr (hok.2 hv), hl⟩
        unfold ffStep
        simp only [if_pos hif]
        refine ⟨by simp [hs.rts, hs.fr, wrap], by simp [hn.1], by simp, ?_, ?_, by simp, ?_⟩
        · intro h; simp [h]
        · intro h; simp [h]
        · refine ⟨?_, ?_, ?_⟩
          · intro p hp
            simp only [List.mem_append, List.mem_singleton] at hp
            rcases hp with hp | rfl
            · exact hs.split.ne p (by simpa using hp)
            · simp
          · intro hS p hp
            simp only [List.mem_append, List.mem_singleton] at hp
            rcases hp with hp | rfl
            · exact hs.split.ok hS p (by simpa using hp)
            · exact hn.2 hS
          · rw [List.isChain_append]
            refine ⟨hs.split.needed, by simp, ?_⟩
            intro x hx y hy
            simp only [List.getLast?_append, List.getLast?_singleton, Option.some_or, Option.mem_def,
              Option.some.injEq, List.head?_cons] at hx hy
            subst hx hy
            intro m hm
            simp only [List.head?_cons, Option.some.injEq] at hm
            subst hm
            exact hv
      obtain ⟨ps, g1, g2, g3⟩ := ff_spec rest hrest (done ++ [cur]) [n] _ hinv
      exact ⟨ps, g1, by rw [g2]; simp, g3⟩

theorem ffRoute_spec {D : ℕ → ℕ → ℚ} {d : ℕ → ℚ} {C L : Option ℚ} {S : Prop} (R : List (List ℕ))
    {b : List ℕ} (hb : b ≠ []) (h : ∀ x ∈ b, x ≠ 0 ∧ (S → RouteOk D d C L [x])) :
    ∃ ps, ffRoute D d C L R (wrap b) = R ++ ps.map wrap ∧ ps.flatten = b ∧ Split D d C L S ps := by
  cases b with
  | nil => exact absurd rfl hb
  | cons n rest =>
    have hn := h n (by simp)
    have hinv : FFInv D d C L S R [] [n] (ffStep D d C L ⟨R, [0], 0, 0, 0⟩ n) := by
      have hif : ¬ ((n = 0 ∨ exceeds C C_EPS (0 + d n) = true ∨
          exceeds L S_EPS (0 + D 0 n + D n 0) = true) ∧ 1 < ([0] : List ℕ).length) := by
        rintro ⟨-, h⟩; simp at h
      unfold ffStep
      simp only [if_neg hif]
      refine ⟨by simp, by simp [hn.1], by simp, ?_, ?_, by simp, ?_⟩
      · intro h; simp [h]
      · intro h; simp [h]
      · refine ⟨by simp, ?_, by simp⟩
        intro hS p hp
        simp only [List.nil_append, List.mem_singleton] at hp
        subst hp
        exact hn.2 hS
    obtain ⟨ps, g1, g2, g3⟩ := ff_spec rest (fun x hx => h x (by simp [hx])) [] [n] _ hinv
    refine ⟨ps, ?_, by rw [g2]; simp, g3⟩
    unfold ffRoute
    simp only [wrap, List.tail_cons, List.cons_append, List.foldl_cons]
    exact g1

theorem ffRoutes_spec {D : ℕ → ℕ → ℚ} {d : ℕ → ℚ} {C L : Option ℚ} {S : Prop} :
    ∀ (bs : List (List ℕ)) (R : List (List ℕ)),
    (∀ b ∈ bs, b ≠ [] ∧ ∀ x ∈ b, x ≠ 0 ∧ (S → RouteOk D d C L [x])) →
    ∃ pss : List (List (List ℕ)), (bs.map wrap).foldl (ffRoute D d C L) R = R ++ pss.flatten.map wrap ∧
      List.Forall₂ (fun b ps => ps.flatten = b ∧ Split D d C L S ps) bs pss
  | [], R, _ => ⟨[], by simp, by simp⟩
  | b :: bs, R, h => by
    obtain ⟨ps, g1, g2, g3⟩ := ffRoute_spec (S := S) R (h b (by simp)).1 (h b (by simp)).2
    obtain ⟨pss, k1, k2⟩ := ffRoutes_spec bs (R ++ ps.map wrap) (fun b hb => h b (by simp [hb]))
    refine ⟨ps :: pss, ?_, List.Forall₂.cons ⟨g2, g3⟩ k2⟩
    rw [List.map_cons, List.foldl_cons, g1, k1]
    simp

end Verif
