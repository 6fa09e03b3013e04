import Verif.Model.NearestNeighbor
import Verif.Spec.NearestNeighbor
import Verif.Lemmas.Solves
import Verif.Lemmas.Sweep

/-! # Lemmas for the nearest neighbour heuristic -/

namespace Verif
open Spec

theorem nnSorted (D : ℕ → ℕ → ℚ) (N i : ℕ) :
    (pySort (fun a b => decide (D i a ≤ D i b)) (List.range N)).Pairwise fun a b => D i a ≤ D i b := by
  have := pySort_pairwise (le := fun a b => decide (D i a ≤ D i b))
    (fun a b c h1 h2 => by simp only [decide_eq_true_eq] at *; exact h1.trans h2)
    (fun a b => by simp only [Bool.or_eq_true, decide_eq_true_eq]; exact le_total _ _) (List.range N)
  simpa using this

theorem nnQueue_sorted (D : ℕ → ℕ → ℚ) (N i : ℕ) : (nnQueue D N i).Pairwise fun a b => D i a ≤ D i b :=
  (nnSorted D N i).sublist (List.tail_sublist _)

theorem nnQueue_lt {D : ℕ → ℕ → ℚ} {N i x : ℕ} (h : x ∈ nnQueue D N i) : x < N :=
  List.mem_range.1 ((mem_pySort _ _ x).1 (List.mem_of_mem_tail h))

theorem nnQueue_nodup (D : ℕ → ℕ → ℚ) (N i : ℕ) : (nnQueue D N i).Nodup :=
  ((pySort_perm _ _).nodup_iff.2 List.nodup_range).sublist (List.tail_sublist _)

theorem nnQueue_length (D : ℕ → ℕ → ℚ) (N i : ℕ) : (nnQueue D N i).length = N - 1 := by
  rw [nnQueue, List.length_tail, (pySort_perm _ _).length_eq, List.length_range]

theorem nnQueue_mem {D : ℕ → ℕ → ℚ} {N : ℕ} (h : DistinctCustomers N D) {i j : ℕ} (hi : i < N) (h1 : 1 ≤ j)
    (hj : j < N) (hij : j ≠ i) : j ∈ nnQueue D N i := by
  have hm : j ∈ pySort (fun a b => decide (D i a ≤ D i b)) (List.range N) :=
    (mem_pySort _ _ j).2 (List.mem_range.2 hj)
  have hs := nnSorted D N i
  have hi' : i ∈ pySort (fun a b => decide (D i a ≤ D i b)) (List.range N) :=
    (mem_pySort _ _ i).2 (List.mem_range.2 hi)
  unfold nnQueue
  by_cases h0 : i = 0
  · subst h0
    obtain ⟨n, rfl⟩ : ∃ n, N = n + 1 := ⟨N - 1, by omega⟩
    rw [List.range_succ_eq_map] at hm ⊢
    have : ∀ l : List ℕ, (∀ x ∈ l, D 0 0 ≤ D 0 x) → pyInsert (fun a b => decide (D 0 a ≤ D 0 b)) 0 l = 0 :: l := by
      intro l hl
      cases l with
      | nil => rfl
      | cons x l => rw [pyInsert, if_pos]; simpa using hl x (by simp)
    rw [pySort, this] at hm ⊢
    · exact (List.mem_cons.1 hm).resolve_left (by omega)
    all_goals
      intro x hx
      rw [mem_pySort, List.mem_map] at hx
      obtain ⟨y, hy, rfl⟩ := hx
      have := List.mem_range.1 hy
      exact h.fromDepot _ (by omega) (by omega)
  · generalize pySort (fun a b => decide (D i a ≤ D i b)) (List.range N) = l at hm hs hi'
    cases l with
    | nil => cases hm
    | cons x l =>
      rcases List.mem_cons.1 hm with rfl | hm
      · exfalso
        rcases List.mem_cons.1 hi' with rfl | hi'
        · exact hij rfl
        · have := (List.pairwise_cons.1 hs).1 i hi'
          have := h.customers i j (by omega) hi h1 hj (fun e => hij e.symm)
          linarith
      · exact hm

theorem seedPop_some {served q q' : List ℕ} {x : ℕ} (h : seedPop served q = some (x, q')) :
    x ∉ served ∧ ∃ pre, q = pre ++ x :: q' ∧ ∀ y ∈ pre, y ∈ served := by
  induction q with
  | nil => simp [seedPop] at h
  | cons a q ih =>
    rw [seedPop] at h
    by_cases ha : a ∈ served
    · rw [if_pos ha] at h
      obtain ⟨h1, pre, h2, h3⟩ := ih h
      refine ⟨h1, a :: pre, by rw [h2]; rfl, ?_⟩
      intro y hy
      rcases List.mem_cons.1 hy with rfl | hy
      · exact ha
      · exact h3 y hy
    · rw [if_neg ha] at h
      simp only [Option.some.injEq, Prod.mk.injEq] at h
      obtain ⟨rfl, rfl⟩ := h
      exact ⟨ha, [], rfl, by simp⟩

theorem seedPop_none {served q : List ℕ} (h : seedPop served q = none) : ∀ y ∈ q, y ∈ served := by
  induction q with
  | nil => simp
  | cons a q ih =>
    rw [seedPop] at h
    by_cases ha : a ∈ served
    · rw [if_pos ha] at h
      intro y hy
      rcases List.mem_cons.1 hy with rfl | hy
      · exact ha
      · exact ih h y hy
    · rw [if_neg ha] at h; cases h

theorem nearestPop_spec (served q : List ℕ) (v : Option ℕ) :
    ∃ pre, q = pre ++ (nearestPop served q v).1 ∧ (∀ y ∈ pre, y ∈ served) ∧
      (q ≠ [] → (nearestPop served q v).2 ≠ none) ∧
      (v ≠ none → (nearestPop served q v).2 ≠ none) := by
  induction q generalizing v with
  | nil => exact ⟨[], rfl, by simp, by simp, by simp [nearestPop]⟩
  | cons x q ih =>
    rw [nearestPop]
    by_cases hx : x ∈ served
    · rw [if_pos hx]
      obtain ⟨pre, h1, h2, -, h4⟩ := ih (some x)
      refine ⟨x :: pre, by rw [List.cons_append, ← h1], ?_, fun _ => h4 (by simp), fun _ => h4 (by simp)⟩
      intro y hy
      rcases List.mem_cons.1 hy with rfl | hy
      · exact hx
      · exact h2 y hy
    · rw [if_neg hx]
      exact ⟨[], rfl, by simp, by simp, by simp⟩

/-- What the queues have. -/
structure QOk (N : ℕ) (D : ℕ → ℕ → ℚ) (served : List ℕ) (queues : List (List ℕ)) : Prop where
  len : queues.length = N
  sub : ∀ i (q : List ℕ), queues[i]? = some q → q.Sublist (nnQueue D N i)
  mem : ∀ i (q : List ℕ), queues[i]? = some q → ∀ j, 1 ≤ j → j < N → j ≠ i → j ∉ served → j ∈ q

/-- In the mode "nearest": the queues of customers that are not served are not empty. -/
def QFull (N : ℕ) (served : List ℕ) (queues : List (List ℕ)) : Prop :=
  ∀ i q, 1 ≤ i → i < N → i ∉ served → queues[i]? = some q → q ≠ []

theorem qok_set {N : ℕ} {D : ℕ → ℕ → ℚ} {served : List ℕ} {queues : List (List ℕ)} (h : QOk N D served queues)
    {i : ℕ} {q q' : List ℕ} (hq : queues[i]? = some q) (hs : q'.Sublist q)
    (hm : ∀ x ∈ q, x ∉ served → x ∈ q') : QOk N D served (queues.set i q') := by
  refine ⟨by simp [h.len], ?_, ?_⟩
  · intro k p hp
    by_cases hk : i = k
    · subst hk
      have hl := (List.getElem?_eq_some_iff.1 hq).1
      rw [List.getElem?_set_self hl] at hp
      injection hp with hp
      subst hp
      exact hs.trans (h.sub i q hq)
    · rw [List.getElem?_set_ne hk] at hp
      exact h.sub k p hp
  · intro k p hp j h1 h2 h3 h4
    by_cases hk : i = k
    · subst hk
      have hl := (List.getElem?_eq_some_iff.1 hq).1
      rw [List.getElem?_set_self hl] at hp
      injection hp with hp
      subst hp
      exact hm j (h.mem i q hq j h1 h2 h3 h4) h4
    · rw [List.getElem?_set_ne hk] at hp
      exact h.mem k p hp j h1 h2 h3 h4

theorem qok_served {N : ℕ} {D : ℕ → ℕ → ℚ} {served served' : List ℕ} {queues : List (List ℕ)}
    (h : QOk N D served queues) (hs : ∀ x ∈ served, x ∈ served') : QOk N D served' queues :=
  ⟨h.len, h.sub, fun i q hq j h1 h2 h3 h4 => h.mem i q hq j h1 h2 h3 fun hx => h4 (hs j hx)⟩

/-- All the customers are served. -/
def AllServed (N : ℕ) (served : List ℕ) : Prop := ∀ j, 1 ≤ j → j < N → j ∈ served

theorem nearestLoop_spec {N : ℕ} {D : ℕ → ℕ → ℚ} {served : List ℕ} (is : List ℕ)
    (hnd : is.Nodup) (his : ∀ i ∈ is, 1 ≤ i ∧ i < N) (s : NearestState) (hq : QOk N D served s.queues)
    (hseed : ∀ x, s.seed = some x → x ∉ served ∧ 1 ≤ x ∧ x < N)
    (hfull : ∀ i q, 1 ≤ i → i < N → i ∉ served → s.queues[i]? = some q →
      q ≠ [] ∨ i ∉ is ∧ ∀ j, 1 ≤ j → j < N → j ∉ served → j = i) :
    ∃ s', nearestLoop D served is s = .ok s' ∧ QOk N D served s'.queues ∧
      (∀ x, s'.seed = some x → x ∉ served ∧ 1 ≤ x ∧ x < N) ∧
      (∀ i q, 1 ≤ i → i < N → i ∉ served → s'.queues[i]? = some q →
        q ≠ [] ∨ ∀ j, 1 ≤ j → j < N → j ∉ served → j = i) ∧
      (s'.seed = none → s.seed = none ∧ ∀ i ∈ is, i ∈ served) := by
  induction is generalizing s with
  | nil =>
    refine ⟨s, rfl, hq, hseed, ?_, fun h => ⟨h, by simp⟩⟩
    intro i q h1 h2 h3 h4
    exact (hfull i q h1 h2 h3 h4).imp id (fun h => h.2)
  | cons i is ih =>
    obtain ⟨hni, hnd'⟩ := List.nodup_cons.1 hnd
    have his' : ∀ i ∈ is, 1 ≤ i ∧ i < N := fun k hk => his k (List.mem_cons_of_mem _ hk)
    obtain ⟨i1, i2⟩ := his i (by simp)
    rw [nearestLoop]
    by_cases hs : i ∈ served
    · rw [nearestStep, if_pos hs]
      obtain ⟨s', e1, e2, e3, e4, e5⟩ := ih hnd' his' s hq hseed (fun k q h1 h2 h3 h4 =>
        (hfull k q h1 h2 h3 h4).imp id fun h => ⟨fun hk => h.1 (List.mem_cons_of_mem _ hk), h.2⟩)
      refine ⟨s', e1, e2, e3, e4, fun h => ⟨(e5 h).1, ?_⟩⟩
      intro k hk
      rcases List.mem_cons.1 hk with rfl | hk
      · exact hs
      · exact (e5 h).2 k hk
    · rw [nearestStep, if_neg hs]
      have hl : i < s.queues.length := by rw [hq.len]; exact i2
      have hqi : s.queues[i]? = some s.queues[i] := List.getElem?_eq_getElem hl
      generalize s.queues[i] = q at hqi
      rw [show idx s.queues i = .ok q by rw [idx, hqi]]
      obtain ⟨pre, p1, p2, p3, -⟩ := nearestPop_spec served q s.nearest
      have hne : q ≠ [] := (hfull i q i1 i2 hs hqi).resolve_right fun h => h.1 (by simp)
      have p3 := p3 hne
      simp only
      generalize nearestPop served q s.nearest = res at p1 p3
      obtain ⟨q', near⟩ := res
      simp only at p1 p3 ⊢
      cases near with
      | none => exact absurd rfl p3
      | some x =>
        simp only
        have hq' : QOk N D served (s.queues.set i q') := by
          refine qok_set hq hqi (by rw [p1]; exact List.sublist_append_right _ _) ?_
          intro y hy hns
          rw [p1] at hy
          exact (List.mem_append.1 hy).resolve_left fun h => hns (p2 y h)
        have hfull' : ∀ k p, 1 ≤ k → k < N → k ∉ served → (s.queues.set i q')[k]? = some p →
            p ≠ [] ∨ k ∉ is ∧ ∀ j, 1 ≤ j → j < N → j ∉ served → j = k := by
          intro k p h1 h2 h3 h4
          by_cases hk : i = k
          · subst hk
            rw [List.getElem?_set_self hl] at h4
            injection h4 with h4
            subst h4
            by_cases hp : q' = []
            · refine .inr ⟨hni, fun j j1 j2 j3 => ?_⟩
              by_contra hji
              have := hq'.mem i q' (List.getElem?_set_self hl) j j1 j2 hji j3
              rw [hp] at this
              cases this
            · exact .inl hp
          · rw [List.getElem?_set_ne hk] at h4
            exact (hfull k p h1 h2 h3 h4).imp id fun h => ⟨fun hk => h.1 (List.mem_cons_of_mem _ hk), h.2⟩
        generalize nearLess (D i x) s.dist = less
        have hx : ∀ y : ℕ, some i = some y → y ∉ served ∧ 1 ≤ y ∧ y < N := by
          rintro y ⟨⟩; exact ⟨hs, i1, i2⟩
        cases less with
        | true =>
          rw [if_pos rfl]
          obtain ⟨s', e1, e2, e3, e4, e5⟩ := ih hnd' his' ⟨some i, some x, some (D i x), s.queues.set i q'⟩ hq' hx hfull'
          exact ⟨s', e1, e2, e3, e4, fun h => absurd (e5 h).1 (by simp)⟩
        | false =>
          rw [if_neg (by simp)]
          simp only
          have hsd' : s.seed.getD i ∉ served ∧ 1 ≤ s.seed.getD i ∧ s.seed.getD i < N := by
            cases he : s.seed with
            | none => exact ⟨hs, i1, i2⟩
            | some y => exact hseed y he
          obtain ⟨s', e1, e2, e3, e4, e5⟩ := ih hnd' his' ⟨some (s.seed.getD i), some x, s.dist, s.queues.set i q'⟩ hq'
            (by rintro y ⟨⟩; exact hsd') hfull'
          exact ⟨s', e1, e2, e3, e4, fun h => absurd (e5 h).1 (by simp)⟩

/-- What `get_seed_node` answers. -/
theorem get_seed_spec {N : ℕ} {D : ℕ → ℕ → ℚ} {served : List ℕ} {queues : List (List ℕ)} {mode : NNSeedMode}
    (hN : 1 ≤ N) (hm : mode ≠ .other) (h0 : 0 ∈ served) (hq : QOk N D served queues)
    (hfull : mode = .nearest → QFull N served queues ∧ ¬ AllServed N served) :
    (get_seed_node mode D queues served = .error .indexError ∧ AllServed N served) ∨
    ∃ x queues', get_seed_node mode D queues served = .ok (x, queues') ∧ x ∉ served ∧ 1 ≤ x ∧ x < N ∧
      QOk N D (x :: served) queues' ∧ (mode = .nearest → QFull N (x :: served) queues') := by
  have hl : 0 < queues.length := by rw [hq.len]; exact hN
  have hq0 : queues[0]? = some queues[0] := List.getElem?_eq_getElem hl
  cases mode with
  | other => exact absurd rfl hm
  | farthest =>
    generalize queues[0] = q at hq0
    simp only [get_seed_node]
    rw [show idx queues 0 = .ok q by rw [idx, hq0]]
    simp only
    cases hp : seedPop served q with
    | none =>
      refine .inl ⟨rfl, fun j h1 h2 => ?_⟩
      by_contra hj
      exact hj (seedPop_none hp j (hq.mem 0 q hq0 j h1 h2 (by omega) hj))
    | some p =>
      obtain ⟨x, q'⟩ := p
      obtain ⟨h1, pre, h2, h3⟩ := seedPop_some hp
      have hxN : x < N := nnQueue_lt ((hq.sub 0 q hq0).mem (by rw [h2]; simp))
      refine .inr ⟨x, _, rfl, h1, ?_, hxN, ?_, by simp⟩
      · exact Nat.one_le_iff_ne_zero.2 fun e => h1 (e ▸ h0)
      · refine qok_set (qok_served hq fun y hy => List.mem_cons_of_mem _ hy) hq0 ?_ ?_
        · rw [h2]; exact (List.sublist_cons_self _ _).trans (List.sublist_append_right _ _)
        · intro y hy hns
          rw [h2] at hy
          rcases List.mem_append.1 hy with hy | hy
          · exact absurd (List.mem_cons_of_mem _ (h3 y hy)) hns
          · rcases List.mem_cons.1 hy with rfl | hy
            · exact absurd (by simp) hns
            · exact hy
  | closest =>
    generalize queues[0] = q at hq0
    simp only [get_seed_node]
    rw [show idx queues 0 = .ok q by rw [idx, hq0]]
    simp only
    cases hp : seedPop served q.reverse with
    | none =>
      refine .inl ⟨rfl, fun j h1 h2 => ?_⟩
      by_contra hj
      exact hj (seedPop_none hp j (List.mem_reverse.2 (hq.mem 0 q hq0 j h1 h2 (by omega) hj)))
    | some p =>
      obtain ⟨x, q'⟩ := p
      obtain ⟨h1, pre, h2, h3⟩ := seedPop_some hp
      have h2' : q = q'.reverse ++ [x] ++ pre.reverse := by
        have := congrArg List.reverse h2
        simpa using this
      have hxN : x < N := nnQueue_lt ((hq.sub 0 q hq0).mem (by rw [h2']; simp))
      refine .inr ⟨x, _, rfl, h1, ?_, hxN, ?_, by simp⟩
      · exact Nat.one_le_iff_ne_zero.2 fun e => h1 (e ▸ h0)
      · refine qok_set (qok_served hq fun y hy => List.mem_cons_of_mem _ hy) hq0 ?_ ?_
        · rw [h2', List.append_assoc]; exact List.sublist_append_left _ _
        · intro y hy hns
          rw [h2'] at hy
          rcases List.mem_append.1 hy with hy | hy
          · rcases List.mem_append.1 hy with hy | hy
            · exact hy
            · rw [List.mem_singleton.1 hy] at hns
              exact absurd (by simp) hns
          · exact absurd (List.mem_cons_of_mem _ (h3 y (List.mem_reverse.1 hy))) hns
  | nearest =>
    obtain ⟨hf, hns⟩ := hfull rfl
    simp only [get_seed_node]
    obtain ⟨s', e1, e2, e3, e4, e5⟩ := nearestLoop_spec (N := N) (D := D) (served := served)
      (pyRange 1 queues.length) (by simp [pyRange, List.nodup_range']) (by
        intro i hi
        simp only [pyRange, List.mem_range'_1, hq.len] at hi
        omega) ⟨none, none, none, queues⟩ hq (by simp) (fun i q h1 h2 h3 h4 => .inl (hf i q h1 h2 h3 h4))
    rw [e1]
    simp only
    cases hs : s'.seed with
    | none =>
      exfalso
      refine hns fun j h1 h2 => (e5 hs).2 j ?_
      simp only [pyRange, List.mem_range'_1, hq.len]
      omega
    | some x =>
      obtain ⟨x1, x2, x3⟩ := e3 x hs
      refine .inr ⟨x, _, rfl, x1, x2, x3, qok_served e2 fun y hy => List.mem_cons_of_mem _ hy, fun _ => ?_⟩
      intro i q h1 h2 h3 h4
      refine (e4 i q h1 h2 (fun h => h3 (List.mem_cons_of_mem _ h)) h4).resolve_right fun hh => ?_
      exact h3 (by rw [hh x x2 x3 x1]; simp)

end Verif
