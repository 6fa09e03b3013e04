import Verif.Model.Lr3optRandom
import Verif.Props.Lr3optInit
import Verif.Props.CvrpOps
import Verif.Spec.Construct

/-! # C44: the random initialization -/

namespace Verif
open Spec

variable {D : ℕ → ℕ → ℚ} {d : ℕ → ℚ} {C L : Option ℚ}

/-- **C44**, from a random tour. Whatever order the shuffle gives, the tour has each customer once and is given with its
cost, the heuristic never raises, and if the number of consecutive increases is bounded or there is a capacity, it returns a
solution that serves each customer once, without empty routes, and keeps the limits if each customer alone does. An
interrupt after any number of rounds hands out such a solution too. -/
theorem C44_random_partial (o : LrOpts) (hs : Symm D) (hn : NonNegative D d C L) {N : ℕ} (hD : ∃ i < N, ∃ j < N, 0 < D i j)
    {shuffled : List ℕ} (hp : shuffled.Perm (List.range' 1 (N - 1))) :
    init_with_random D shuffled = .ok ([0] ++ shuffled ++ [0], cost D ([0] ++ shuffled ++ [0])) ∧
    (∀ rounds, ∃ st s, lr3opt_random o D d N C L ⟨none, none⟩ shuffled rounds = .ok (some st) ∧
      lrInterrupted D d C L st = some s ∧ Solves N D d C L s) ∧
    ((∃ K, o.max_incs = some K) ∨ ((∃ c, C = some c ∧ c ≠ 0) ∧ ∃ i, i < N ∧ 0 < d i) →
      ∃ F st s, (st = .done s ∨ st = .forced (some s)) ∧ Solves N D d C L s ∧
        ∀ rounds, F ≤ rounds → lr3opt_random o D d N C L ⟨none, none⟩ shuffled rounds = .ok (some st)) := by
  have hends : DepotEnds ([0] ++ shuffled ++ [0]) := by
    constructor
    · rfl
    · rw [List.getLast?_append]; rfl
  have hi : init_with_random D shuffled = .ok ([0] ++ shuffled ++ [0], cost D ([0] ++ shuffled ++ [0])) := by
    rw [init_with_random]
    simp only [C10_depot_ends D hn.depot _ hends, objf_eq_cost]
  have hz : ∀ x ∈ shuffled, x ≠ 0 := fun x hx => by
    have := List.mem_range'_1.1 (hp.subset hx); omega
  have hcust : customers ([0] ++ shuffled ++ [0]) = shuffled := by
    have : shuffled.filter (fun n => n ≠ 0) = shuffled := List.filter_eq_self.2 fun x hx => by simpa using hz x hx
    simp only [customers, List.filter_append, this]
    simp
  have hmem : ∀ i < N, i ∈ [0] ++ shuffled ++ [0] := by
    intro i hi
    by_cases h0 : i = 0
    · simp [h0]
    · have : i ∈ shuffled := hp.symm.subset (List.mem_range'_1.2 ⟨by omega, by omega⟩)
      simp [this]
  have hD' : ∃ i ∈ [0] ++ shuffled ++ [0], ∃ j ∈ [0] ++ shuffled ++ [0], 0 < D i j := by
    obtain ⟨i, h1, j, h2, h3⟩ := hD
    exact ⟨i, hmem i h1, j, hmem j h2, h3⟩
  have hsol : ∀ {s}, DepotEnds s → squeeze s = s → (customers s).Perm (customers ([0] ++ shuffled ++ [0])) →
      ((∀ n ∈ customers ([0] ++ shuffled ++ [0]), RouteOk D d C L [n]) → Feasible D d C L s) → Solves N D d C L s := by
    intro s h1 h2 h3 h4
    rw [hcust] at h3 h4
    refine ⟨h1, h3.trans hp, h2, fun hsv => h4 fun n hn' => ?_⟩
    have := List.mem_range'_1.1 (hp.subset hn')
    exact hsv n (by omega) (by omega)
  have hr : ∀ rounds, lr3opt_random o D d N C L ⟨none, none⟩ shuffled rounds =
      lr3opt_init o D d N C L ⟨none, none⟩ ([0] ++ shuffled ++ [0]) rounds := fun rounds => by rw [lr3opt_random, hi]
  refine ⟨hi, fun rounds => ?_, fun hend => ?_⟩
  · obtain ⟨st, h1, -, -, s, h2, h3, h4, h5, h6⟩ := C44 o hs hn N (lam := ⟨none, none⟩) (fun _ e => nomatch e) (fun _ e => nomatch e) hD' hends rounds
    exact ⟨st, s, (hr rounds).trans h1, h2, hsol h3 h4 h5 h6⟩
  · obtain ⟨F, st, h1, h2⟩ := C44_ends_partial o hs hn N (lam := ⟨none, none⟩) (fun _ e => nomatch e) (fun _ e => nomatch e) hD' hends
      (hend.imp_right fun h => .inr ⟨h.1, rfl, h.2⟩)
    obtain ⟨st', k1, k2, k3, -⟩ := C44 o hs hn N (lam := ⟨none, none⟩) (fun _ e => nomatch e) (fun _ e => nomatch e) hD' hends F
    rw [h2 F le_rfl] at k1
    simp only [Except.ok.injEq, Option.some.injEq] at k1
    subst k1
    rcases h1 with ⟨s, rfl⟩ | ⟨r, rfl⟩
    · obtain ⟨a1, a2, a3, a4⟩ := k2 s rfl
      exact ⟨F, _, s, .inl rfl, hsol a1 a2 a3 fun _ => a4, fun rounds hf => (hr rounds).trans (h2 rounds hf)⟩
    · obtain ⟨s, rfl, a1, a2, a3, a4⟩ := k3 r rfl
      exact ⟨F, _, s, .inr rfl, hsol a1 a2 a3 a4, fun rounds hf => (hr rounds).trans (h2 rounds hf)⟩

example : lr3opt_random ⟨true, none, 1000⟩ starD (fun _ => 1) 5 (some 2) (some 5) ⟨none, none⟩ [3, 1, 4, 2] 30 =
    .ok (some (.done [0, 1, 3, 0, 2, 4, 0])) := by decide +kernel

/-- The hypotheses are met. -/
example : Symm starD ∧ NonNegative starD (fun _ => 1) (some 2) (some 5) ∧ (∃ i < 5, ∃ j < 5, 0 < starD i j) ∧
    [3, 1, 4, 2].Perm (List.range' 1 (5 - 1)) := by
  refine ⟨fun i j => ?_, ⟨fun i j => ?_, by decide +kernel, fun _ => by norm_num, ?_, ?_⟩,
    ⟨0, by norm_num, 1, by norm_num, by decide +kernel⟩, by decide⟩
  · exact abs_sub_comm _ _
  · exact abs_nonneg _
  · rintro c ⟨⟩; norm_num
  · rintro c ⟨⟩; norm_num

end Verif
