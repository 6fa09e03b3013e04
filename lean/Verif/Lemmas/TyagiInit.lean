import Verif.Lemmas.TyagiLoop
import Verif.Lemmas.SavingsVariants

/-! # The choice of the grouping of Tyagi -/

namespace Verif
open Spec

/-- What `select_grouping` compares: the groups `us`, with `K` vehicles. -/
def groupValue (D : ℕ → ℕ → ℚ) (d : ℕ → ℚ) (c : ℚ) (sel : TySelect) (us : List (List ℕ)) (K : ℕ) : ℚ × ℚ :=
  match sel with
  | .balanced => (-varDemand d us, meanDemand d us)
  | .maxDemand => (demand d us.flatten / (K * c), 0)
  | _ => ((us.map fun u => c - demand d u * cost D (wrap u)).sum, 0)

theorem tyDemands_group {d : ℕ → ℚ} {u : List ℕ} (hu : ∀ x ∈ u, x ≠ 0) (rest : List ℕ) (t : ℚ) (rs : List ℚ) (i : ℕ) :
    tyDemands d (u ++ rest) t rs i = tyDemands d rest (t + demand d u) rs i := by
  induction u generalizing t with
  | nil => simp
  | cons a u ih =>
    rw [List.cons_append, tyDemands, if_neg (fun h => hu a (by simp) h.1), ih (fun x hx => hu x (by simp [hx])),
      demand_cons, add_assoc]

theorem tyDemands_spec {d : ℕ → ℚ} (h0 : d 0 = 0) (us : List (List ℕ)) (hu : ∀ u ∈ us, ∀ x ∈ u, x ≠ 0) (t : ℚ)
    (A : List ℚ) (m : ℕ) (hm : us.length + (if t = 0 then 0 else 1) ≤ m) :
    ∃ rs, tyDemands d (tour us) t (A ++ List.replicate m 0) A.length = .ok rs ∧ rs.length = A.length + m ∧
      ∀ f : ℚ → ℚ, (rs.map f).sum = (A.map f).sum + (if t = 0 then 0 else f t) + (us.map fun u => f (demand d u)).sum +
        (m - us.length - (if t = 0 then 0 else 1) : ℕ) * f 0 := by
  induction us generalizing t A m with
  | nil =>
    rw [tour, tyDemands]
    by_cases ht : t = 0
    · rw [if_neg (by simp [ht]), tyDemands]
      exact ⟨_, rfl, by simp, fun f => by simp [ht]⟩
    · rw [if_pos ⟨rfl, ht⟩]
      rw [if_neg ht, List.length_nil, Nat.zero_add] at hm
      obtain ⟨n, rfl⟩ : ∃ n, m = n + 1 := ⟨m - 1, by omega⟩
      have e : setIdx (A ++ List.replicate (n + 1) 0) A.length t = .ok (A ++ t :: List.replicate n 0) := by
        rw [setIdx, if_pos (by simp)]
        simp [List.replicate_succ]
      rw [e]
      refine ⟨_, rfl, by simp, fun f => ?_⟩
      simp [ht]
      ring
  | cons u us ih =>
    have hu1 := hu u (by simp)
    have hu2 : ∀ v ∈ us, ∀ x ∈ v, x ≠ 0 := fun v hv => hu v (by simp [hv])
    rw [tour, tyDemands]
    by_cases ht : t = 0
    · rw [if_neg (by simp [ht]), h0, ht, add_zero, tyDemands_group hu1, zero_add]
      rw [if_pos ht, List.length_cons, Nat.add_zero] at hm
      obtain ⟨rs, r1, r2, r3⟩ := ih hu2 (demand d u) A m (by split_ifs <;> omega)
      refine ⟨rs, r1, r2, fun f => ?_⟩
      rw [r3 f]
      by_cases hd : demand d u = 0
      · simp only [if_true, List.map_cons, List.sum_cons, List.length_cons, hd, Nat.sub_zero]
        obtain ⟨n, rfl⟩ : ∃ n, m = us.length + 1 + n := ⟨m - us.length - 1, by omega⟩
        rw [show us.length + 1 + n - us.length = n + 1 by omega, show us.length + 1 + n - (us.length + 1) = n by omega]
        push_cast; ring
      · simp only [if_neg hd, if_true, List.map_cons, List.sum_cons, List.length_cons, Nat.sub_zero]
        rw [show m - us.length - 1 = m - (us.length + 1) by omega]
        ring
    · rw [if_pos ⟨rfl, ht⟩]
      rw [if_neg ht, List.length_cons] at hm
      obtain ⟨n, rfl⟩ : ∃ n, m = n + 1 := ⟨m - 1, by omega⟩
      have e : setIdx (A ++ List.replicate (n + 1) 0) A.length t = .ok (A ++ [t] ++ List.replicate n 0) := by
        rw [setIdx, if_pos (by simp)]
        simp [List.replicate_succ]
      rw [e]
      simp only
      rw [tyDemands_group hu1, zero_add]
      obtain ⟨rs, r1, r2, r3⟩ := ih hu2 (demand d u) (A ++ [t]) n (by split_ifs <;> omega)
      rw [List.length_append, List.length_singleton] at r1 r2
      refine ⟨rs, r1, by omega, fun f => ?_⟩
      rw [r3 f]
      by_cases hd : demand d u = 0
      · simp only [if_true, if_neg ht, List.map_cons, List.sum_cons, List.length_cons, hd, Nat.sub_zero,
          List.map_append, List.sum_append, List.map_nil, List.sum_nil]
        obtain ⟨k, rfl⟩ : ∃ k, n = us.length + 1 + k := ⟨n - us.length - 1, by omega⟩
        rw [show us.length + 1 + k - us.length = k + 1 by omega,
          show us.length + 1 + k + 1 - (us.length + 1) - 1 = k by omega]
        push_cast; ring
      · simp only [if_neg hd, if_neg ht, List.map_cons, List.sum_cons, List.length_cons,
          List.map_append, List.sum_append, List.map_nil, List.sum_nil]
        rw [show n + 1 - (us.length + 1) - 1 = n - us.length - 1 by omega]
        ring

theorem demand_flatten (d : ℕ → ℚ) (us : List (List ℕ)) : demand d us.flatten = (us.map (demand d)).sum := by
  induction us with
  | nil => simp
  | cons u us ih => simp [demand_append, ih]

theorem tyStatistics_spec {d : ℕ → ℚ} (h0 : d 0 = 0) (us : List (List ℕ)) (hu : ∀ u ∈ us, ∀ x ∈ u, x ≠ 0) :
    tyStatistics d us.length (tour us) = .ok (-varDemand d us, meanDemand d us) := by
  obtain ⟨rs, r1, r2, r3⟩ := tyDemands_spec h0 us hu 0 [] us.length (by simp)
  simp only [List.nil_append, List.length_nil, Nat.zero_add] at r1 r2
  unfold tyStatistics
  rw [r1]
  simp only
  have e1 : rs.sum = (us.map (demand d)).sum := by
    have := r3 id
    simpa using this
  have e2 : rs.sum / (rs.length : ℚ) = meanDemand d us := by rw [e1, r2]; rfl
  rw [e2]
  have e3 := r3 fun t => (t - meanDemand d us) ^ 2
  simp only [List.map_nil, List.sum_nil, if_true, Nat.sub_self, Nat.cast_zero, zero_mul, add_zero, zero_add] at e3
  rw [e3, r2]
  rfl

theorem sol2routes_tour {us : List (List ℕ)} (h : ∀ u ∈ us, u ≠ [] ∧ ∀ x ∈ u, x ≠ 0) :
    sol2routes (tour us) = us.map wrap := by
  rw [sol2routes_depotEnds _ (depotEnds_tour us), blocks_tour_of_routes us h]

theorem tour_demand {d : ℕ → ℚ} (h0 : d 0 = 0) (us : List (List ℕ)) :
    ((tour us).map d).sum = demand d us.flatten := by
  induction us with
  | nil => simp [tour, h0]
  | cons u us ih => simp [tour, h0, ih, demand_append, demand_eq_sum]

theorem tyUtilization_spec {D : ℕ → ℕ → ℚ} {d : ℕ → ℚ} (h0 : d 0 = 0) (c : ℚ) {sel : TySelect} (hs : sel ≠ .other)
    {us : List (List ℕ)} (h : ∀ u ∈ us, u ≠ [] ∧ ∀ x ∈ u, x ≠ 0) (K : ℕ) :
    tyUtilization D d c sel us.length K (tour us) = .ok (groupValue D d c sel us K) := by
  cases sel with
  | balanced => exact tyStatistics_spec h0 us fun u hu => (h u hu).2
  | maxDemand => simp only [tyUtilization, groupValue, tour_demand h0]
  | minPenalty =>
    simp only [tyUtilization, groupValue, tyPenalty, sol2routes_tour h, List.map_map]
    congr 4
    funext u
    simp only [Function.comp, totald, objf_eq_cost]
    rw [← demand_eq_sum]
    simp [wrap, demand_append, h0]
  | other => exact absurd rfl hs

theorem tyGreater_iff (a b : ℚ × ℚ) : tyGreater a b = true ↔ PairLt b a := by
  simp only [tyGreater, decide_eq_true_eq, PairLt, gt_iff_lt]
  constructor
  · rintro (h | ⟨h1, h2⟩)
    · exact .inl h
    · exact .inr ⟨h1.symm, h2⟩
  · rintro (h | ⟨h1, h2⟩)
    · exact .inl h
    · exact .inr ⟨h1.symm, h2⟩

theorem pairLt_trans {a b c : ℚ × ℚ} (h1 : PairLt a b) (h2 : PairLt b c) : PairLt a c := by
  rcases h1 with h1 | ⟨h1, h1'⟩ <;> rcases h2 with h2 | ⟨h2, h2'⟩
  · exact .inl (h1.trans h2)
  · exact .inl (h2 ▸ h1)
  · exact .inl (h1 ▸ h2)
  · exact .inr ⟨h1.trans h2, h1'.trans h2'⟩

theorem pairLt_irrefl (a : ℚ × ℚ) : ¬ PairLt a a := by
  rintro (h | ⟨_, h⟩)
  · exact lt_irrefl _ h
  · exact lt_irrefl _ h

theorem not_pairLt {a b c : ℚ × ℚ} (h1 : ¬ PairLt a b) (h2 : ¬ PairLt b c) : ¬ PairLt a c := by
  intro h
  have tot : ∀ x y : ℚ × ℚ, PairLt x y ∨ x = y ∨ PairLt y x := by
    intro x y
    rcases lt_trichotomy x.1 y.1 with e | e | e
    · exact .inl (.inl e)
    · rcases lt_trichotomy x.2 y.2 with f | f | f
      · exact .inl (.inr ⟨e, f⟩)
      · exact .inr (.inl (Prod.ext e f))
      · exact .inr (.inr (.inr ⟨e.symm, f⟩))
    · exact .inr (.inr (.inl e))
  rcases tot b a with e | rfl | e
  · exact h2 (pairLt_trans e h)
  · exact h2 h
  · exact h1 e

/-- The candidate is looked at: it needs no more vehicles than the first grouping. -/
def Considered (grp : ℕ → List (List ℕ)) (ns : List ℕ) (K n : ℕ) : Prop := n ∈ ns ∧ (grp n).length + 1 ≤ K

/-- The loop over the candidates: the first best one is kept. -/
theorem tyCandidates_spec {D : ℕ → ℕ → ℚ} {d : ℕ → ℚ} (h0 : d 0 = 0) (c : ℚ) (L : Option ℚ) (N : ℕ) (cb : NNCallback)
    {sel : TySelect} (hs : sel ≠ .other) (K fuel : ℕ) (grp : ℕ → List (List ℕ)) (ns : List ℕ)
    (hg : ∀ n ∈ ns, nn_with_callback D d (some c) L N false [n] cb fuel = .ok (some (some (tour (grp n)))) ∧
      ∀ u ∈ grp n, u ≠ [] ∧ ∀ x ∈ u, x ≠ 0) (b : TyBest) :
    ∃ b', tyCandidates D d c L N cb sel K fuel ns b = .ok (some b') ∧
      (b' = b ∨ ∃ n, Considered grp ns K n ∧ b'.sol = tour (grp n ++ [[n]]) ∧
        b'.util = groupValue D d c sel (grp n) ((grp n).length + 1) ∧ PairLt b.util b'.util) ∧
      (¬ PairLt b'.util b.util) ∧
      (∀ n, Considered grp ns K n → ¬ PairLt b'.util (groupValue D d c sel (grp n) ((grp n).length + 1))) ∧
      ∀ v ∈ b'.seen, v ∈ b.seen ∨ v = b.sol ∨ ∃ n ∈ ns, v = tour (grp n ++ [[n]]) := by
  induction ns generalizing b with
  | nil =>
    exact ⟨b, rfl, .inl rfl, pairLt_irrefl _, fun n hn => absurd hn.1 (by simp), fun v hv => .inl hv⟩
  | cons n ns ih =>
    obtain ⟨g1, g2⟩ := hg n (by simp)
    have hg' := fun m hm => hg m (List.mem_cons_of_mem n hm)
    rw [tyCandidates, g1]
    simp only
    have hcount : (tour (grp n)).count 0 - 1 + 1 = (grp n).length + 1 := by
      rw [count_depots fun u hu => (g2 u hu).2]; omega
    have hcons : ∀ m, Considered grp (n :: ns) K m ↔ (m = n ∧ (grp n).length + 1 ≤ K) ∨ Considered grp ns K m := by
      intro m
      unfold Considered
      rw [List.mem_cons]
      constructor
      · rintro ⟨rfl | h1, h2⟩
        · exact .inl ⟨rfl, h2⟩
        · exact .inr ⟨h1, h2⟩
      · rintro (⟨rfl, h2⟩ | ⟨h1, h2⟩)
        · exact ⟨.inl rfl, h2⟩
        · exact ⟨.inr h1, h2⟩
    unfold tyCandidate
    simp only
    rw [hcount]
    by_cases hK : (grp n).length + 1 > K
    · rw [if_pos hK]
      obtain ⟨b', e1, e2, e3, e4, e5⟩ := ih hg' b
      refine ⟨b', e1, ?_, e3, fun m hm => ?_, fun v hv => ?_⟩
      · rcases e2 with e2 | ⟨m, f1, f2⟩
        · exact .inl e2
        · exact .inr ⟨m, (hcons m).2 (.inr f1), f2⟩
      · rcases (hcons m).1 hm with ⟨_, f⟩ | f
        · omega
        · exact e4 m f
      · rcases e5 v hv with f | f | ⟨m, f1, f2⟩
        · exact .inl f
        · exact .inr (.inl f)
        · exact .inr (.inr ⟨m, by simp [f1], f2⟩)
    · rw [if_neg hK, Nat.add_sub_cancel, tyUtilization_spec h0 c hs g2]
      simp only
      generalize hval : groupValue D d c sel (grp n) ((grp n).length + 1) = val
      by_cases hgt : tyGreater val b.util = true
      · rw [if_pos hgt]
        rw [tyGreater_iff] at hgt
        obtain ⟨b', e1, e2, e3, e4, e5⟩ := ih hg' ⟨tour (grp n) ++ [n, 0], val, b.seen ++ [b.sol]⟩
        have hsol : tour (grp n) ++ [n, 0] = tour (grp n ++ [[n]]) := by rw [tour_concat]; simp
        simp only at e2 e3 e5
        refine ⟨b', e1, .inr ?_, fun hh => ?_, fun m hm => ?_, fun v hv => ?_⟩
        · rcases e2 with e2 | ⟨m, f1, f2, f3, f4⟩
          · refine ⟨n, (hcons n).2 (.inl ⟨rfl, by omega⟩), ?_, ?_, ?_⟩
            · rw [e2]; exact hsol
            · rw [e2]; exact hval.symm
            · rw [e2]; exact hgt
          · exact ⟨m, (hcons m).2 (.inr f1), f2, f3, pairLt_trans hgt f4⟩
        · exact e3 (pairLt_trans hh hgt)
        · rcases (hcons m).1 hm with ⟨rfl, f⟩ | f
          · rw [hval]; exact e3
          · exact e4 m f
        · rcases e5 v hv with f | f | ⟨m, f1, f2⟩
          · rcases List.mem_append.1 f with f | f
            · exact .inl f
            · exact .inr (.inl (List.mem_singleton.1 f))
          · exact .inr (.inr ⟨n, by simp, by rw [f, hsol]⟩)
          · exact .inr (.inr ⟨m, by simp [f1], f2⟩)
      · rw [if_neg hgt]
        rw [tyGreater_iff] at hgt
        obtain ⟨b', e1, e2, e3, e4, e5⟩ := ih hg' b
        refine ⟨b', e1, ?_, e3, fun m hm => ?_, fun v hv => ?_⟩
        · rcases e2 with e2 | ⟨m, f1, f2⟩
          · exact .inl e2
          · exact .inr ⟨m, (hcons m).2 (.inr f1), f2⟩
        · rcases (hcons m).1 hm with ⟨rfl, f⟩ | f
          · rw [hval]; exact not_pairLt e3 hgt
          · exact e4 m f
        · rcases e5 v hv with f | f | ⟨m, f1, f2⟩
          · exact .inl f
          · exact .inr (.inl f)
          · exact .inr (.inr ⟨m, by simp [f1], f2⟩)

/-- The routing of the groups. -/
theorem tyRouting_spec {D : ℕ → ℕ → ℚ} {tsp : Router} (ht : TspRoutine D tsp) {us : List (List ℕ)} (hne : us ≠ [])
    (h : ∀ u ∈ us, u ≠ [] ∧ ∀ x ∈ u, x ≠ 0) (hn : ∀ u ∈ us, u.Nodup) :
    ∃ vs, tyRouting tsp (tour us) = some (tour vs) ∧
      List.Forall₂ (fun v u => v.Perm u ∧ tsp (0 :: u) = (wrap v, cost D (wrap v))) vs us := by
  have key : ∀ us : List (List ℕ), (∀ u ∈ us, u ≠ [] ∧ ∀ x ∈ u, x ≠ 0) → (∀ u ∈ us, u.Nodup) →
      ∃ vs, (us.map wrap).map (fun r => (tsp r.dropLast).1) = vs.map wrap ∧
        List.Forall₂ (fun v u => v.Perm u ∧ tsp (0 :: u) = (wrap v, cost D (wrap v))) vs us := by
    intro us
    induction us with
    | nil => exact fun _ _ => ⟨[], rfl, .nil⟩
    | cons u us ih =>
      intro h hn
      obtain ⟨vs, e1, e2⟩ := ih (fun v hv => h v (by simp [hv])) fun v hv => hn v (by simp [hv])
      obtain ⟨v, v1, v2⟩ := ht u (h u (by simp)).1
        (List.nodup_cons.2 ⟨fun hh => (h u (by simp)).2 0 hh rfl, hn u (by simp)⟩)
      refine ⟨v :: vs, ?_, .cons ⟨v1, v2⟩ e2⟩
      rw [List.map_cons, List.map_cons, List.map_cons, e1]
      congr 1
      rw [show (wrap u).dropLast = 0 :: u by rw [wrap, ← List.cons_append, List.dropLast_concat], v2]
  obtain ⟨vs, e1, e2⟩ := key us h hn
  refine ⟨vs, ?_, e2⟩
  have hvs : vs ≠ [] := by
    rintro rfl
    cases e2
    exact hne rfl
  rw [tyRouting, sol2routes_tour h, e1, routes2sol, if_neg (by simpa using hvs)]
  have := routes2sol_fold_wrap vs []
  simp only [tour, List.nil_append] at this
  rw [this]

end Verif
