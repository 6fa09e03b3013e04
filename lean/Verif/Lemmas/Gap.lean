import Verif.Spec.Gap
import Verif.Lemmas.Solves
import Verif.Lemmas.Util
import Verif.Lemmas.ParallelSavings

/-! # Lemmas on the generalised assignment heuristic: assignments, routes, trials -/

namespace Verif

open Spec

/-! ## Assignments -/

/-- The customers of one vehicle. -/
def gapPick (s m : ℕ) (row : List Bool) : List ℕ := (((List.range' s m).zip row).filter fun e => e.2).map (·.1)

theorem gapAssign_eq (N : ℕ) (Y : List (List Bool)) : gapAssign N Y = Y.map (gapPick 1 (N - 1)) := rfl

theorem count_gapPick (i : ℕ) (m : ℕ) : ∀ (s : ℕ) (row : List Bool),
    (gapPick s m row).count i = if s ≤ i ∧ i < s + m ∧ row[i - s]? = some true then 1 else 0 := by
  induction m with
  | zero => intro s row; simp [gapPick]; omega
  | succ m ih =>
    intro s row
    cases row with
    | nil => simp [gapPick]
    | cons b row =>
      have hstep : gapPick s (m + 1) (b :: row) = if b then s :: gapPick (s + 1) m row else gapPick (s + 1) m row := by
        cases b <;> simp [gapPick, List.range'_succ]
      rw [hstep]
      have h1 := ih (s + 1) row
      by_cases hi : i = s
      · subst hi
        have : ¬ (i + 1 ≤ i) := by omega
        simp only [this, false_and, if_false] at h1
        cases b <;> simp [h1]
      · have hne : ¬ s = i := fun e => hi e.symm
        have h2 : (if b then s :: gapPick (s + 1) m row else gapPick (s + 1) m row).count i =
            (gapPick (s + 1) m row).count i := by
          cases b <;> simp [hne]
        rw [h2, h1]
        by_cases hle : s + 1 ≤ i
        · have e1 : i - s = (i - (s + 1)) + 1 := by omega
          rw [e1, List.getElem?_cons_succ]
          have : (s + 1 ≤ i ∧ i < s + 1 + m ∧ row[i - (s + 1)]? = some true) ↔
              (s ≤ i ∧ i < s + (m + 1) ∧ row[i - (s + 1)]? = some true) := by
            constructor <;> rintro ⟨a, b, c⟩ <;> exact ⟨by omega, by omega, c⟩
          simp only [this]
        · rw [if_neg (by omega), if_neg (by omega)]

theorem sum_map_ite (p : List Bool → Prop) [DecidablePred p] (Y : List (List Bool)) :
    (Y.map fun row => if p row then 1 else 0).sum = (Y.filter fun row => decide (p row)).length := by
  induction Y with
  | nil => rfl
  | cons a t ih => by_cases h : p a <;> simp [h, ih]; omega

/-- The assignments serve each customer once. -/
theorem gapAssign_perm {N : ℕ} {Y : List (List Bool)}
    (h : ∀ j < N - 1, (Y.filter fun row => decide (row[j]? = some true)).length = 1) :
    (gapAssign N Y).flatten.Perm (List.range' 1 (N - 1)) := by
  rw [List.perm_iff_count]
  intro i
  rw [List.count_flatten, gapAssign_eq, List.map_map]
  have h1 : ((List.count i) ∘ gapPick 1 (N - 1)) =
      fun row => if 1 ≤ i ∧ i < 1 + (N - 1) ∧ row[i - 1]? = some true then 1 else 0 := by
    funext row; exact count_gapPick i (N - 1) 1 row
  rw [h1, sum_map_ite]
  by_cases hi : 1 ≤ i ∧ i < 1 + (N - 1)
  · have : (Y.filter fun row => decide (1 ≤ i ∧ i < 1 + (N - 1) ∧ row[i - 1]? = some true)) =
        Y.filter fun row => decide (row[i - 1]? = some true) := by
      apply List.filter_congr
      intro row _
      simp [hi]
    rw [this, h (i - 1) (by omega)]
    rw [List.count_eq_one_of_mem List.nodup_range' (List.mem_range'_1.2 hi)]
  · have : (Y.filter fun row => decide (1 ≤ i ∧ i < 1 + (N - 1) ∧ row[i - 1]? = some true)) = [] := by
      rw [List.filter_eq_nil_iff]
      intro row _ hc
      simp only [decide_eq_true_eq] at hc
      exact hi ⟨hc.1, hc.2.1⟩
    rw [this, List.count_eq_zero_of_not_mem (fun hm => hi (List.mem_range'_1.1 hm))]
    rfl

theorem demand_gapPick (d : ℕ → ℚ) (m : ℕ) : ∀ (s : ℕ) (row : List Bool),
    demand d (gapPick s m row) = linExpr ((List.range' s m).map d) row := by
  induction m with
  | zero => intro s row; simp [gapPick, linExpr]
  | succ m ih =>
    intro s row
    cases row with
    | nil => simp [gapPick, linExpr]
    | cons b row =>
      have h := ih (s + 1) row
      simp only [gapPick, linExpr, List.range'_succ, List.map_cons, List.zip_cons_cons, List.sum_cons] at h ⊢
      cases b
      · simp only [Bool.false_eq_true, not_false_eq_true, List.filter_cons_of_neg, if_false, zero_add]; exact h
      · simp only [List.filter_cons_of_pos, List.map_cons, demand, if_true]; rw [h]

/-- What the hard constraints give. -/
theorem gapAssign_hard {N : ℕ} {costs : List (List ℚ)} {d : ℕ → ℚ} {C L : Option ℚ} {m : ℚ} {Y : List (List Bool)}
    (h : (GapModel.mk costs ((pyRange 1 N).map d) C L m).Hard Y) :
    (gapAssign N Y).flatten.Perm (List.range' 1 (N - 1)) ∧ (gapAssign N Y).length = costs.length ∧
    (truthy C = true → ∀ u ∈ gapAssign N Y, demand d u ≤ C.getD 0) := by
  refine ⟨gapAssign_perm fun j hj => h.c2 j (by simpa [pyRange] using hj), ?_, fun hc u hu => ?_⟩
  · rw [gapAssign_eq, List.length_map]; exact h.vehicles
  · rw [gapAssign_eq, List.mem_map] at hu
    obtain ⟨row, hr, rfl⟩ := hu
    rw [demand_gapPick]
    exact h.c1 hc row hr

/-! ## The routes -/

/-- The routes that are driven. -/
structure GapDriven (D : ℕ → ℕ → ℚ) (d : ℕ → ℚ) (C L : Option ℚ) (us vs : List (List ℕ)) : Prop where
  same : List.Forall₂ (fun u v => v.Perm u) (us.filter fun u => decide (u ≠ [])) vs
  ok : ∀ v ∈ vs, Within L S_EPS (cost D (wrap v))
  cap : truthy L = true → ∀ v ∈ vs, Within C C_EPS (demand d (wrap v))

theorem not_exceeds_within {lim : Option ℚ} {eps x : ℚ} (h : exceeds lim eps x = false) : Within lim eps x := by
  intro c hc hc0
  subst hc
  simp only [exceeds, Bool.and_eq_false_iff, bne_eq_false_iff_eq, decide_eq_false_iff_not] at h
  rcases h with h | h
  · exact absurd h hc0
  · linarith

theorem totald_demand (d : ℕ → ℚ) (l : List ℕ) : totald l (some d) = demand d l := by
  show (l.map d).sum = _
  induction l with
  | nil => rfl
  | cons a t ih => simp only [List.map_cons, List.sum_cons, demand, ih]

theorem gapRoutes_spec {D : ℕ → ℕ → ℚ} {d : ℕ → ℚ} {C L : Option ℚ} {tsp : Router} (ht : TspRoutine D tsp) :
    ∀ (us : List (List ℕ)), (∀ u ∈ us, (0 :: u).Nodup) → ∀ (vs0 : List (List ℕ)) (t : GapTry),
    t.solution = tour vs0 → t.sol_K = vs0.length →
    (gapRoutes d C L tsp us t).gapInf = false → (gapRoutes d C L tsp us t).lInf = false →
    ∃ vs, GapDriven D d C L us vs ∧ (gapRoutes d C L tsp us t).solution = tour (vs0 ++ vs) ∧
      (gapRoutes d C L tsp us t).sol_f = t.sol_f + (vs.map fun v => cost D (wrap v)).sum ∧
      (gapRoutes d C L tsp us t).sol_K = (vs0 ++ vs).length := by
  intro us
  induction us with
  | nil =>
    intro _ vs0 t h1 h2 _ _
    exact ⟨[], ⟨by simp, by simp, by simp⟩, by simpa [gapRoutes] using h1, by simp [gapRoutes],
      by simpa [gapRoutes] using h2⟩
  | cons u us ih =>
    intro hn vs0 t h1 h2 hg hl
    have hn' : ∀ u ∈ us, (0 :: u).Nodup := fun x hx => hn x (List.mem_cons_of_mem _ hx)
    by_cases hu : u = []
    · subst hu
      simp only [gapRoutes, if_true] at hg hl ⊢
      obtain ⟨vs, hd, r⟩ := ih hn' vs0 t h1 h2 hg hl
      exact ⟨vs, ⟨by simpa using hd.same, hd.ok, hd.cap⟩, r⟩
    · obtain ⟨v, hv, hr⟩ := ht u hu (hn u List.mem_cons_self)
      simp only [gapRoutes, if_neg hu, hr] at hg hl ⊢
      by_cases hx : (truthy L && exceeds C C_EPS (totald (wrap v) (some d))) = true
      · rw [if_pos hx] at hg
        cases hg
      · rw [if_neg hx] at hg hl ⊢
        by_cases hy : exceeds L S_EPS (cost D (wrap v)) = true
        · rw [if_pos hy] at hl
          cases hl
        · rw [if_neg hy] at hg hl ⊢
          obtain ⟨vs, hd, r1, r2, r3⟩ := ih hn' (vs0 ++ [v]) _ (by
            rw [tour_concat, ← h1]; simp [wrap]) (by simp [h2]) hg hl
          refine ⟨v :: vs, ⟨?_, ?_, ?_⟩, ?_, ?_, ?_⟩
          · simp only [ne_eq, hu, not_false_eq_true, decide_true, List.filter_cons_of_pos]
            exact List.Forall₂.cons hv hd.same
          · intro w hw
            rcases List.mem_cons.1 hw with e | hw
            · rw [e]; exact not_exceeds_within (by simpa using hy)
            · exact hd.ok w hw
          · intro hL w hw
            rcases List.mem_cons.1 hw with e | hw
            · rw [e]
              rw [hL, Bool.true_and, Bool.not_eq_true, totald_demand] at hx
              exact not_exceeds_within hx
            · exact hd.cap hL w hw
          · rw [r1]; simp
          · rw [r2]; simp [add_assoc]
          · rw [r3]; simp

/-! ## A trial -/

/-- The solution of the given routes. -/
structure GapGood (N : ℕ) (D : ℕ → ℕ → ℚ) (d : ℕ → ℚ) (C L : Option ℚ) (K : ℕ) (sol : List ℕ) (vs : List (List ℕ)) :
    Prop where
  sol : sol = tour vs
  all : vs.flatten.Perm (List.range' 1 (N - 1))
  noEmpty : [] ∉ vs
  ok : ∀ v ∈ vs, RouteOk D d C L v
  few : vs.length ≤ K

theorem forall₂_flatten {us vs : List (List ℕ)} (h : List.Forall₂ (fun u v => v.Perm u) us vs) :
    vs.flatten.Perm us.flatten := by
  induction h with
  | nil => exact List.Perm.refl _
  | cons h _ ih => simp only [List.flatten_cons]; exact h.append ih

theorem flatten_filter_ne (us : List (List ℕ)) : (us.filter fun u => decide (u ≠ [])).flatten = us.flatten := by
  induction us with
  | nil => rfl
  | cons u us ih => cases u <;> simp <;> simpa using ih

theorem gapTrial_spec {N : ℕ} {D : ℕ → ℕ → ℚ} {d : ℕ → ℚ} {C L : Option ℚ} {tsp : Router} (ht : TspRoutine D tsp)
    {as : List (List ℕ)} (hp : as.flatten.Perm (List.range' 1 (N - 1)))
    (hc : truthy C = true → ∀ u ∈ as, demand d u ≤ C.getD 0) {sol : List ℕ} {f : ℚ} {K : ℕ}
    (h : gapTrial N d C L tsp (some as) = some (sol, f, K)) :
    ∃ vs, GapGood N D d C L as.length sol vs ∧ f = cost D sol ∧ K = vs.length := by
  have hnd : as.flatten.Nodup := hp.nodup_iff.2 List.nodup_range'
  have hz : ∀ u ∈ as, (0 :: u).Nodup := by
    intro u hu
    refine List.nodup_cons.2 ⟨fun h0 => ?_, (List.nodup_flatten.1 hnd).1 u hu⟩
    have := hp.mem_iff.1 (List.mem_flatten.2 ⟨u, hu, h0⟩)
    rw [List.mem_range'_1] at this
    omega
  cases as with
  | nil => simp [gapTrial] at h
  | cons a as =>
    simp only [gapTrial] at h
    split_ifs at h with h1
    simp only [Bool.not_or, Bool.and_eq_true, Bool.not_eq_true'] at h1
    obtain ⟨vs, hdr, e1, e2, e3⟩ := gapRoutes_spec (D := D) (d := d) (C := C) (L := L) ht (a :: as) hz []
      ⟨[0], 0, 0, false, false, []⟩ rfl rfl h1.1.1 h1.2
    simp only [Option.some.injEq, Prod.mk.injEq] at h
    obtain ⟨rfl, rfl, rfl⟩ := h
    have hperm : vs.flatten.Perm (List.range' 1 (N - 1)) := by
      refine (forall₂_flatten hdr.same).trans ?_
      rw [flatten_filter_ne]
      exact hp
    refine ⟨vs, ⟨e1, hperm, ?_, ?_, ?_⟩, ?_, by simpa using e3⟩
    · intro hm
      obtain ⟨u, hu, hpu⟩ : ∃ u ∈ (a :: as).filter (fun u => decide (u ≠ [])), List.Perm [] u := by
        have hs := hdr.same
        clear e1 e2 e3 hperm hdr
        generalize (a :: as).filter (fun u => decide (u ≠ [])) = ws at hs
        induction hs with
        | nil => cases hm
        | cons h _ ih =>
          rcases List.mem_cons.1 hm with e | hm
          · exact ⟨_, List.mem_cons_self, e ▸ h⟩
          · obtain ⟨u, hu, hp⟩ := ih hm
            exact ⟨u, List.mem_cons_of_mem _ hu, hp⟩
      have := (List.mem_filter.1 hu).2
      simp only [ne_eq, decide_not, Bool.not_eq_eq_eq_not, Bool.not_true, decide_eq_false_iff_not] at this
      exact this (List.nil_perm.1 hpu)
    · intro v hv
      refine ⟨?_, hdr.ok v hv⟩
      intro c hcc hc0
      have htr : truthy C = true := by rw [hcc]; simpa [truthy] using hc0
      obtain ⟨u, hu, hpu⟩ : ∃ u ∈ (a :: as).filter (fun u => decide (u ≠ [])), v.Perm u := by
        have hs := hdr.same
        clear e1 e2 e3 hperm hdr
        generalize (a :: as).filter (fun u => decide (u ≠ [])) = ws at hs
        induction hs with
        | nil => cases hv
        | cons h _ ih =>
          rcases List.mem_cons.1 hv with e | hm
          · exact ⟨_, List.mem_cons_self, e ▸ h⟩
          · obtain ⟨u, hu, hp⟩ := ih hm
            exact ⟨u, List.mem_cons_of_mem _ hu, hp⟩
      have := hc htr u (List.mem_filter.1 hu).1
      rw [demand_perm d hpu]
      rw [hcc] at this
      simp only [Option.getD_some] at this
      have : (0 : ℚ) ≤ C_EPS := by simp [C_EPS]
      linarith
    · rw [← hdr.same.length_eq]
      exact List.length_filter_le _ _
    · rw [e2, e1, zero_add, List.nil_append, cost_tour_sum]

end Verif
