import Verif.Spec.Cli
import Verif.Lemmas.SavingsVariants

/-! # The best of several runs: lemmas -/

namespace Verif
open Spec

theorem normalForm {s : List ℕ} (h : s ≠ []) : ∃ m, normalize_solution s = .ok m ∧ NormalForm s m ∧ DepotEnds m ∧
    normalize_solution m = .ok m := by
  obtain ⟨m, h1, h2, h3, h4, h5, h6, h7⟩ := C08_normalize s h
  exact ⟨m, h1, ⟨h3, h4, h5, h6⟩, h2, h7⟩

theorem sameRoutes_length {as bs : List (List ℕ)} (h : SameRoutes as bs) : as.length = bs.length := by
  obtain ⟨cs, h1, h2⟩ := h
  rw [← h1.length_eq, h2.length_eq]

theorem sameRoutes_flatten {as bs : List (List ℕ)} (h : SameRoutes as bs) : bs.flatten.Perm as.flatten := by
  obtain ⟨cs, h1, h2⟩ := h
  refine List.Perm.trans ?_ h1.flatten
  clear h1
  induction h2 with
  | nil => exact .refl _
  | cons h _ ih =>
    simp only [List.flatten_cons]
    refine List.Perm.append ?_ ih
    rcases h with rfl | rfl
    · exact .refl _
    · exact (List.reverse_perm _).symm

theorem normal_count {s m : List ℕ} (h : NormalForm s m) : m.count 0 - 1 = (blocks m).length := by
  rw [h.tour, count_depots fun u hu => (mem_blocks m u hu).2, ← h.tour]
  rfl

theorem normal_mem {s m : List ℕ} (h : NormalForm s m) : ∀ x ∈ m, x = 0 ∨ x ∈ s := by
  intro x hx
  by_cases h0 : x = 0
  · exact .inl h0
  · right
    have h1 : x ∈ customers m := List.mem_filter.2 ⟨hx, by simpa using h0⟩
    rw [← blocks_flatten] at h1
    have h2 := (sameRoutes_flatten h.same).mem_iff.1 h1
    rw [blocks_flatten] at h2
    exact (List.mem_filter.1 h2).1

theorem statistics_ok {N : ℕ} {D Dc : ℕ → ℕ → ℚ} {d : ℕ → ℚ} {C L : Option ℚ} (hp : PlainData Dc d C L) {m : List ℕ}
    (hm : DepotEnds m) (hc : m.count 0 - 1 = (blocks m).length) (hN : ∀ x ∈ m, x < N) (talk : Bool) :
    ∃ s, print_solution_statistics N m D Dc d C L talk = .ok s ∧ Shows N D Dc d C L (talk = true) m s := by
  obtain ⟨cov, cap, len, e, h1, h2, h3, -⟩ := C09_exact_tour N Dc hp.home d hp.depot C L hp.capacity hp.length m hm.1 hN
  simp only [print_solution_statistics, e]
  refine ⟨_, rfl, ⟨rfl, h1, h2, h3, hc, ?_, ?_⟩⟩
  · intro x
    simp only [objf_eq_cost]
    by_cases h : (talk = true ∧ cost D m ≠ cost Dc m) ∨ cost Dc m = 0
    · rw [if_pos (by simpa using h)]
      exact ⟨fun hx => ⟨(Option.some.inj hx).symm, h⟩, fun hx => by rw [hx.1]⟩
    · rw [if_neg (by simpa using h)]
      simp [h]
  · intro x
    simp only [objf_eq_cost]
    by_cases h : cost Dc m = 0 <;> simp [h, eq_comm]

theorem goodAs_total {D : ℕ → ℕ → ℚ} {mk : Bool} {a b : List ℕ} (h : ¬ AsGood D mk a b) : AsGood D mk b a := by
  cases mk
  · simp only [AsGood, Bool.false_eq_true, if_false] at h ⊢
    exact le_of_lt (not_le.1 h)
  · simp only [AsGood, if_true] at h ⊢
    push Not at h
    rcases lt_trichotomy (blocks a).length (blocks b).length with h1 | h1 | h1
    · omega
    · exact .inr ⟨h1.symm, le_of_lt (h.2 h1)⟩
    · exact .inl h1

theorem goodAs_refl {D : ℕ → ℕ → ℚ} {mk : Bool} {a : List ℕ} : AsGood D mk a a := by
  cases mk <;> simp [AsGood]

theorem goodAs_trans {D : ℕ → ℕ → ℚ} {mk : Bool} {a b c : List ℕ} (h1 : AsGood D mk a b) (h2 : AsGood D mk b c) :
    AsGood D mk a c := by
  cases mk
  · simp only [AsGood, Bool.false_eq_true, if_false] at *
    linarith
  · simp only [AsGood, if_true] at *
    rcases h1 with h1 | ⟨h1, h1'⟩ <;> rcases h2 with h2 | ⟨h2, h2'⟩
    · left; omega
    · left; omega
    · left; omega
    · right; exact ⟨by omega, by linarith⟩

/-- The best so far is the first best of the normal forms so far. -/
def RunInv (Dc : ℕ → ℕ → ℚ) (mk : Bool) (ms : List (List ℕ)) : Option (List ℕ × ℚ × ℕ) → Prop
  | none => ms = []
  | some (m, f, K) => FirstBest Dc mk ms m ∧ f = cost Dc m ∧ K = (blocks m).length

theorem better_iff {D : ℕ → ℕ → ℚ} {mk : Bool} {m x : List ℕ} :
    is_better_sol (some (cost D m)) (some ((blocks m).length : ℚ)) (some (cost D x)) (some ((blocks x).length : ℚ)) mk = true ↔
      ¬ AsGood D mk m x := by
  cases mk
  · simp [is_better_sol, AsGood]
  · simp only [is_better_sol, AsGood, if_true, Bool.or_eq_true, decide_eq_true_eq, Bool.and_eq_true, Nat.cast_lt, Nat.cast_inj]
    push Not
    constructor
    · rintro (h | ⟨h, h'⟩)
      · exact ⟨by omega, fun h2 => by omega⟩
      · exact ⟨by omega, fun _ => h'⟩
    · rintro ⟨h, h'⟩
      rcases Nat.lt_or_eq_of_le h with h1 | h1
      · exact .inl h1
      · exact .inr ⟨h1, h' h1.symm⟩

theorem runInv_step {i : CliInst} {mk : Bool} {ms : List (List ℕ)} {best : Option (List ℕ × ℚ × ℕ)} {x : List ℕ}
    (h : RunInv i.Dc mk ms best) (hx : mk = true → (blocks x).length ≤ i.N) :
    RunInv i.Dc mk (ms ++ [x]) (if bestOfBetter i.N mk best (cost i.Dc x) (blocks x).length = true
      then some (x, cost i.Dc x, (blocks x).length) else best) := by
  match best with
  | none =>
    simp only [RunInv] at h
    subst h
    have : bestOfBetter i.N mk none (cost i.Dc x) (blocks x).length = true := by
      cases mk
      · simp [bestOfBetter]
      · have := hx rfl
        simp only [bestOfBetter, if_true, Bool.or_eq_true, decide_eq_true_eq]
        omega
    rw [if_pos this]
    exact ⟨⟨by simp [goodAs_refl], [], [], by simp, by simp⟩, rfl, rfl⟩
  | some (m, f, K) =>
    obtain ⟨⟨h1, pre, post, h2, h3⟩, rfl, rfl⟩ := h
    by_cases hb : AsGood i.Dc mk m x
    · rw [if_neg (by rw [bestOfBetter, better_iff]; simpa using hb)]
      refine ⟨⟨?_, pre, post ++ [x], by simp [h2], h3⟩, rfl, rfl⟩
      intro y hy
      rcases List.mem_append.1 hy with hy | hy
      · exact h1 y hy
      · rw [List.mem_singleton.1 hy]
        exact hb
    · rw [if_pos (by rw [bestOfBetter, better_iff]; exact hb)]
      have hxm := goodAs_total hb
      refine ⟨⟨?_, ms, [], by simp, fun y hy hyx => hb (goodAs_trans (h1 y hy) hyx)⟩, rfl, rfl⟩
      intro y hy
      rcases List.mem_append.1 hy with hy | hy
      · exact goodAs_trans hxm (h1 y hy)
      · rw [List.mem_singleton.1 hy]
        exact goodAs_refl

/-- One run. -/
theorem step_ok {i : CliInst} {mk : Bool} {n : ℕ} {v : ℤ} {ms : List (List ℕ)} {best : Option (List ℕ × ℚ × ℕ)}
    (h : RunInv i.Dc mk ms best) {sol : Option (List ℕ)}
    (hK : mk = true → ∀ s, given (.ret sol) = some s → (blocks s).length ≤ i.N) :
    ∃ xs best', List.Forall₂ NormalForm (given (.ret sol)).toList xs ∧ bestOfStep i mk n v sol best = .ok best' ∧
      RunInv i.Dc mk (ms ++ xs) best' := by
  match sol with
  | none => exact ⟨[], best, .nil, rfl, by simpa using h⟩
  | some [] => exact ⟨[], best, .nil, rfl, by simpa using h⟩
  | some (a :: t) =>
    obtain ⟨m, h1, h2, h3, -⟩ := normalForm (s := a :: t) (by simp)
    have hinv := runInv_step (x := m) h (fun hm => by
      rw [← sameRoutes_length h2.same]
      exact hK hm _ rfl)
    refine ⟨[m], _, .cons h2 .nil, ?_, hinv⟩
    simp only [bestOfStep, h1, objf_eq_cost, normal_count h2]
    have hne : (if bestOfBetter i.N mk best (cost i.Dc m) (blocks m).length = true
        then some (m, cost i.Dc m, (blocks m).length) else best) ≠ none := by
      intro hn
      rw [hn] at hinv
      simp [RunInv] at hinv
    rw [if_neg]
    intro hc
    simp only [Bool.and_eq_true, Option.isNone_iff_eq_none] at hc
    exact hne hc.2

theorem loop_ok {i : CliInst} {mk : Bool} {n : ℕ} {v : ℤ} {runs : ℕ → RunOut} : ∀ (ks rest : List ℕ) {ms : List (List ℕ)}
    {best : Option (List ℕ × ℚ × ℕ)}, RunInv i.Dc mk ms best → (∀ k ∈ ks, ∃ s, runs k = .ret s) →
    (mk = true → ∀ k ∈ ks, ∀ s, given (runs k) = some s → (blocks s).length ≤ i.N) →
    ∃ xs best', List.Forall₂ NormalForm (ks.filterMap fun k => given (runs k)) xs ∧ RunInv i.Dc mk (ms ++ xs) best' ∧
      bestOfLoop i mk n v runs (ks ++ rest) best = bestOfLoop i mk n v runs rest best'
  | [], rest, ms, best, h, _, _ => ⟨[], best, .nil, by simpa using h, rfl⟩
  | k :: ks, rest, ms, best, h, hr, hK => by
    obtain ⟨s, hs⟩ := hr k (by simp)
    obtain ⟨xs, b1, g1, g2, g3⟩ := step_ok (n := n) (v := v) (sol := s) h (fun hm t ht => hK hm k (by simp) t (by rw [hs]; exact ht))
    obtain ⟨ys, b2, e1, e2, e3⟩ := loop_ok ks rest g3 (fun k' hk' => hr k' (by simp [hk']))
      (fun hm k' hk' => hK hm k' (by simp [hk']))
    refine ⟨xs ++ ys, b2, ?_, by simpa using e2, ?_⟩
    · rw [List.filterMap_cons, hs]
      cases hg : given (.ret s) with
      | none =>
        rw [hg] at g1
        cases g1
        simpa using e1
      | some x =>
        rw [hg] at g1
        simp only [Option.toList_some] at g1
        cases g1 with
        | cons q1 q2 =>
          cases q2
          exact .cons q1 e1
    · rw [List.cons_append, bestOfLoop, hs]
      show (match bestOfStep i mk n v s best with
        | .error e => _
        | .ok best => bestOfLoop i mk n v runs (ks ++ rest) best) = _
      rw [g2]
      exact e3

end Verif
