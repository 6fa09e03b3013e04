import Verif.Lemmas.Paessens

/-! # C47, C48, C49, C50: the variants of the savings algorithm -/

namespace Verif

open Spec

variable {N : ℕ} {D : ℕ → ℕ → ℚ} {d : ℕ → ℚ} {C L : Option ℚ} {mk : Bool}

/-! ## C47: Gaskell -/

/-- The λ criterion of Gaskell. -/
def Spec.lambdaValue (N : ℕ) (D : ℕ → ℕ → ℚ) (i j : ℕ) : ℚ :=
  saved D i j * (meanDist N D + |D 0 i - D 0 j| - D i j)

/-- The π criterion of Gaskell. -/
def Spec.piValue (D : ℕ → ℕ → ℚ) (i j : ℕ) : ℚ := saved D i j - D i j

theorem npAverage_eq (N : ℕ) (D : ℕ → ℕ → ℚ) : npAverage N D = meanDist N D := by
  unfold npAverage meanDist
  congr 1
  generalize List.range N = l
  generalize l = m at *
  suffices h : ∀ l m : List ℕ, (l.flatMap fun i => m.map fun j => D i j).sum = (l.map fun i => (m.map (D i)).sum).sum from
    h m m
  intro l m
  induction l with
  | nil => rfl
  | cons a l ih => rw [List.flatMap_cons, List.sum_append, ih, List.map_cons, List.sum_cons]

/-- **C47**, the savings: both functions give each pair of customers once, with the value of the criterion,
best first. -/
theorem C47_ranks (N : ℕ) (D : ℕ → ℕ → ℚ) :
    Ranks N D (lambdaValue N D) (gaskell_lambda_savings_function N D) ∧
    Ranks N D (piValue D) (gaskell_pi_savings_function N D) := by
  constructor
  · have := ranks_sort N D fun i j => (D i 0 + D 0 j - D i j) * (npAverage N D + |D 0 i - D 0 j| - D i j)
    rw [npAverage_eq] at this
    unfold gaskell_lambda_savings_function
    rw [npAverage_eq]
    exact this
  · have h : piValue D = fun i j => D i 0 + D 0 j - 2 * D i j := by
      funext i j
      unfold piValue saved
      ring
    rw [h]
    exact ranks_sort _ _ _

/-- **C47**: there is only one such list. -/
theorem C47_ranks_unique {val : ℕ → ℕ → ℚ} {l l' : List (ℚ × ℚ × ℕ × ℕ)} (h : Ranks N D val l) (h' : Ranks N D val l') :
    l = l' := by
  have hn : ∀ {l : List (ℚ × ℚ × ℕ × ℕ)}, Ranks N D val l → l.Nodup := by
    intro l h
    refine List.Pairwise.imp_of_mem ?_ h.order
    rintro a b - - h rfl
    rcases h with h | ⟨-, h | ⟨-, h | ⟨-, h⟩⟩⟩
    all_goals exact lt_irrefl _ h
  have hm : ∀ {l l' : List (ℚ × ℚ × ℕ × ℕ)}, Ranks N D val l → Ranks N D val l' → ∀ x ∈ l, x ∈ l' := by
    intro l l' h h' x hx
    obtain ⟨i, j, h1, h2, h3, rfl⟩ := h.only x hx
    obtain ⟨y, hy, e1, e2⟩ := ranks_all h' i j h1 h2 h3
    obtain ⟨i', j', -, -, -, rfl⟩ := h'.only y hy
    simp only at e1 e2
    subst e1 e2
    exact hy
  refine ((List.perm_ext_iff_of_nodup (hn h) (hn h')).2 fun x => ⟨hm h h' x, hm h' h x⟩).eq_of_pairwise ?_ h.order h'.order
  intro a b _ _ h1 h2
  exfalso
  rcases h1 with h1 | ⟨e1, h1 | ⟨f1, h1 | ⟨g1, h1⟩⟩⟩ <;> rcases h2 with h2 | ⟨e2, h2 | ⟨f2, h2 | ⟨g2, h2⟩⟩⟩ <;>
    linarith

/-- The lists of savings for a method. -/
def GaskellRanked (N : ℕ) (D : ℕ → ℕ → ℚ) : GaskellMethod → List (List Saving) → Prop
  | .both, lists => ∃ l m, lists = [l, m] ∧ Ranks N D (lambdaValue N D) l ∧ Ranks N D (piValue D) m
  | .lambda, lists => ∃ l, lists = [l] ∧ Ranks N D (lambdaValue N D) l
  | .pi, lists => ∃ l, lists = [l] ∧ Ranks N D (piValue D) l
  | .other, _ => False

theorem gaskellLists_spec {method : GaskellMethod} (hm : method ≠ .other) :
    ∃ lists, gaskellLists N D method = .ok lists ∧ GaskellRanked N D method lists ∧ lists ≠ [] ∧
      ∀ l ∈ lists, ∃ val, Ranks N D val l := by
  obtain ⟨h1, h2⟩ := C47_ranks N D
  cases method with
  | both =>
    refine ⟨_, rfl, ⟨_, _, rfl, h1, h2⟩, by simp, ?_⟩
    intro l hl
    simp only [List.mem_cons, List.not_mem_nil, or_false] at hl
    rcases hl with rfl | rfl
    exacts [⟨_, h1⟩, ⟨_, h2⟩]
  | lambda => exact ⟨_, rfl, ⟨_, rfl, h1⟩, by simp, fun l hl => by rw [List.mem_singleton.1 hl]; exact ⟨_, h1⟩⟩
  | pi => exact ⟨_, rfl, ⟨_, rfl, h2⟩, by simp, fun l hl => by rw [List.mem_singleton.1 hl]; exact ⟨_, h2⟩⟩
  | other => exact absurd rfl hm

theorem forall₂_right {α β : Type} {R : α → β → Prop} {l : List α} {m : List β} (h : List.Forall₂ R l m) :
    ∀ y ∈ m, ∃ x ∈ l, R x y := by
  induction h with
  | nil => intro y hy; cases hy
  | @cons a b l m hab _ ih =>
    intro y hy
    rcases List.mem_cons.1 hy with rfl | hy
    · exact ⟨a, by simp, hab⟩
    · obtain ⟨x, hx, h⟩ := ih y hy
      exact ⟨x, List.mem_cons_of_mem _ hx, h⟩

theorem forall₂_ne {α β : Type} {R : α → β → Prop} {l : List α} {m : List β} (h : List.Forall₂ R l m) (hl : l ≠ []) :
    m ≠ [] := by
  cases h with
  | nil => exact absurd rfl hl
  | cons => simp

/-- What is said of the solution of all the variants: it serves every customer, within the limits if possible
at all, and costs no more than serving each customer alone. -/
def VariantGood (N : ℕ) (D : ℕ → ℕ → ℚ) (d : ℕ → ℚ) (C L : Option ℚ) (mk : Bool) (sol : List ℕ) : Prop :=
  Solves N D d C L sol ∧ (mk = false → cost D sol ≤ cost D (trivialSol N))

theorem runs_good (hN : 2 ≤ N) (hD : Symm D) {lists : List (List Saving)} {cands : List (List ℕ)}
    (h : List.Forall₂ (SavRun N D d C L mk) lists cands) (hr : ∀ l ∈ lists, ∃ val, Ranks N D val l) :
    (∀ c ∈ cands, VariantGood N D d C L mk c) ∧
    (Triangle D → (∀ n, 0 ≤ d n) → ∀ c ∈ cands, Unmergeable D d C L c) := by
  constructor
  · intro c hc
    obtain ⟨l, hl, hs⟩ := forall₂_right h c hc
    obtain ⟨val, hv⟩ := hr l hl
    exact savRun_solves hN hD (ranks_valid hv) hs
  · intro hT hd c hc
    obtain ⟨l, hl, hs⟩ := forall₂_right h c hc
    obtain ⟨val, hv⟩ := hr l hl
    exact savRun_unmergeable hN hD hT hd hv hs

/-- **C47**. The solution is the best (the first of those) of the solutions of the parallel savings algorithm
with the lists of the method; it is a solution, not costlier than the trivial one unless the number of routes is
minimised, and with the triangle inequality no two routes of it can be joined. -/
theorem C47 (hN : 2 ≤ N) (hD : Symm D) (d : ℕ → ℚ) (C L : Option ℚ) (mk : Bool) {method : GaskellMethod}
    (hm : method ≠ .other) :
    ∃ lists cands sol, GaskellRanked N D method lists ∧ List.Forall₂ (SavRun N D d C L mk) lists cands ∧
      gaskell_savings_init N D d C L mk method none = .ok (.returned (some sol)) ∧ Winner D mk cands sol ∧
      VariantGood N D d C L mk sol ∧ (Triangle D → (∀ n, 0 ≤ d n) → Unmergeable D d C L sol) := by
  obtain ⟨lists, e, h1, h2, h3⟩ := gaskellLists_spec (N := N) (D := D) hm
  obtain ⟨cands, hc⟩ := savRuns_exist hN hD d C L mk (lists := lists) fun l hl => by
    obtain ⟨val, hv⟩ := h3 l hl
    exact ranks_valid hv
  obtain ⟨g1, g2⟩ := runs_good hN hD hc h3
  obtain ⟨sol, e1, e2⟩ := keepBetter_winner (D := D) (mk := mk) (forall₂_ne hc h2)
    fun c hc => ⟨(g1 c hc).1.ends, (g1 c hc).1.noEmpty⟩
  refine ⟨lists, cands, sol, h1, hc, ?_, e2, g1 sol e2.mem, fun hT hd => g2 hT hd sol e2.mem⟩
  simp only [gaskell_savings_init, e, gaskellRuns_all hc, e1]

/-- **C47**: other methods are refused. -/
theorem C47_other (N : ℕ) (D : ℕ → ℕ → ℚ) (d : ℕ → ℚ) (C L : Option ℚ) (mk : Bool) (int : Option (ℕ × SavInt)) :
    gaskell_savings_init N D d C L mk .other int = .error .valueError := rfl

/-- **C47**, an interrupt of a run of the savings procedure, except between the lines 172 and 173 of it (see
C26): the best of the solutions of the earlier runs and of the one at hand is handed out. -/
theorem C47_interrupted_partial (hN : 2 ≤ N) (hD : Symm D) (d : ℕ → ℚ) (C L : Option ℚ) (mk : Bool) {method : GaskellMethod}
    (hm : method ≠ .other) :
    ∃ lists, GaskellRanked N D method lists ∧ ∀ k savings, lists[k]? = some savings →
      ∃ cands res, List.Forall₂ (SavRun N D d C L mk) (lists.take k) cands ∧
        parallel_savings_init N D d C L mk savings = .ok res ∧
        ∀ m line isol, res.2[m]? = some (line, some isol) → line ≠ 172 →
          ∃ sol, gaskell_savings_init N D d C L mk method (some (k, .inSavings m)) = .ok (.interrupted (some sol)) ∧
            Winner D mk (cands ++ [isol]) sol ∧ Solves N D d C L sol := by
  obtain ⟨lists, e, h1, h2, h3⟩ := gaskellLists_spec (N := N) (D := D) hm
  refine ⟨lists, h1, fun k savings hk => ?_⟩
  have hval : ∀ l ∈ lists, ValidSavings N l := fun l hl => by
    obtain ⟨val, hv⟩ := h3 l hl
    exact ranks_valid hv
  obtain ⟨cands, hc⟩ := savRuns_exist hN hD d C L mk (lists := lists.take k) fun l hl => hval l (List.mem_of_mem_take hl)
  obtain ⟨c, seen, e1, e2⟩ := C26_parallel_partial hN hD d C L mk (hval savings (List.mem_of_getElem? hk))
  refine ⟨cands, _, hc, e1, fun m line isol hmm hline => ?_⟩
  obtain ⟨isol', e3, hs⟩ := e2 (line, some isol) (List.mem_of_getElem? hmm) hline
  simp only [Option.some.injEq] at e3
  subst e3
  obtain ⟨g1, -⟩ := runs_good hN hD hc fun l hl => h3 l (List.mem_of_mem_take hl)
  have hall : ∀ x ∈ cands ++ [isol], Solves N D d C L x := by
    intro x hx
    rcases List.mem_append.1 hx with hx | hx
    · exact (g1 x hx).1
    · rw [List.mem_singleton.1 hx]; exact hs
  obtain ⟨sol, w1, w2⟩ := keepBetter_winner (D := D) (mk := mk) (cands := cands ++ [isol]) (by simp)
    fun x hx => ⟨(hall x hx).ends, (hall x hx).noEmpty⟩
  refine ⟨sol, ?_, w2, hall sol w2.mem⟩
  have hkl : k < lists.length := (List.getElem?_eq_some_iff.1 hk).1
  have hsplit : lists = lists.take k ++ savings :: lists.drop (k + 1) := by
    conv_lhs => rw [← List.take_append_drop k lists, List.drop_eq_getElem_cons hkl]
    rw [(List.getElem?_eq_some_iff.1 hk).2]
  have := gaskellRuns_interrupted (mk := mk) (l2 := lists.drop (k + 1)) hc e1 hmm
  rw [List.length_take, Nat.min_eq_left (le_of_lt hkl), ← hsplit, w1] at this
  simp only [gaskell_savings_init, e, this]

/-- **C47**, an interrupt before the savings procedure has a solution is swallowed: its run is left out and the
heuristic goes on and returns. -/
theorem C47_swallowed (hN : 2 ≤ N) (hD : Symm D) (d : ℕ → ℚ) (C L : Option ℚ) (mk : Bool) :
    (∀ method, method = .lambda ∨ method = .pi →
      gaskell_savings_init N D d C L mk method (some (0, .before)) = .ok (.returned none)) ∧
    gaskell_savings_init N D d C L mk .both (some (0, .before)) = gaskell_savings_init N D d C L mk .pi none ∧
    gaskell_savings_init N D d C L mk .both (some (1, .before)) = gaskell_savings_init N D d C L mk .lambda none := by
  obtain ⟨h1, h2⟩ := C47_ranks N D
  have v1 := ranks_valid h1
  have v2 := ranks_valid h2
  obtain ⟨c1, hc1⟩ := savRuns_exist hN hD d C L mk (lists := [gaskell_lambda_savings_function N D])
    fun l hl => by rw [List.mem_singleton.1 hl]; exact v1
  obtain ⟨c2, hc2⟩ := savRuns_exist hN hD d C L mk (lists := [gaskell_pi_savings_function N D])
    fun l hl => by rw [List.mem_singleton.1 hl]; exact v2
  refine ⟨?_, ?_, ?_⟩
  · rintro method (rfl | rfl)
    · have := gaskellRuns_swallowed (d := d) (C := C) (L := L) (mk := mk) hN hD .nil .nil v1
      simpa [gaskell_savings_init, gaskellLists] using this
    · have := gaskellRuns_swallowed (d := d) (C := C) (L := L) (mk := mk) hN hD .nil .nil v2
      simpa [gaskell_savings_init, gaskellLists] using this
  · have := gaskellRuns_swallowed (d := d) (C := C) (L := L) (mk := mk) hN hD .nil hc2 v1
    simp only [gaskell_savings_init, gaskellLists, gaskellRuns_all hc2]
    simpa using this
  · have := gaskellRuns_swallowed (d := d) (C := C) (L := L) (mk := mk) hN hD hc1 .nil v2
    simp only [gaskell_savings_init, gaskellLists, gaskellRuns_all hc1]
    simpa using this

/-- Distances without the triangle inequality. -/
def exGap (i j : ℕ) : ℚ :=
  (([[0, 1, 1, 20], [1, 0, 3, 16], [1, 3, 0, 16], [20, 16, 16, 0]] : List (List ℚ)).getD i []).getD j 0

/-- **C47**: without the triangle inequality routes that it would pay to join can be left, as the loop over the
savings ends at the first negative saving of Clarke and Wright, and the list is in another order. -/
theorem C47_gap_false : Symm exGap ∧
    gaskell_savings_init 4 exGap (fun _ => 0) none none false .pi none = .ok (.returned (some [0, 1, 0, 2, 0, 3, 0])) ∧
    cost exGap [0, 1, 3, 0, 2, 0] < cost exGap [0, 1, 0, 2, 0, 3, 0] := by
  refine ⟨?_, by decide +kernel, by decide +kernel⟩
  intro i j
  match i, j with
  | 0, 0 | 0, 1 | 0, 2 | 0, 3 | 1, 0 | 1, 1 | 1, 2 | 1, 3 | 2, 0 | 2, 1 | 2, 2 | 2, 3 | 3, 0 | 3, 1 | 3, 2 | 3, 3 => rfl
  | i + 4, 0 | i + 4, 1 | i + 4, 2 | i + 4, 3 | 0, j + 4 | 1, j + 4 | 2, j + 4 | 3, j + 4 | i + 4, j + 4 => rfl

example : GaskellMethod.both ≠ .other ∧ Symm exM ∧ Triangle exM ∧
    gaskell_savings_init 5 exM exOne (some 2) none false .both none = .ok (.returned (some [0, 1, 3, 0, 2, 4, 0])) ∧
    gaskell_savings_init 5 exM exOne (some 2) none false .both (some (1, .inSavings 2)) =
      .ok (.interrupted (some [0, 1, 3, 0, 2, 4, 0])) :=
  ⟨by decide, exM_symm, exM_triangle, by decide +kernel, by decide +kernel⟩

example : gaskell_lambda_savings_function 5 exM = [(204 / 25, -4, 2, 4), (204 / 25, -4, 2, 3), (168 / 25, -3, 1, 3),
    (0, -5, 1, 4), (0, -7, 1, 2), (-64 / 25, -4, 3, 4)] := by decide +kernel

/-! ## C49: Holmes and Parker -/

/-- The list of Clarke and Wright is ranked by the savings. -/
theorem ranks_clarke_wright (N : ℕ) (D : ℕ → ℕ → ℚ) : Ranks N D (saved D) (clarke_wright_savings_function N D) :=
  ranks_sort N D fun i j => D i 0 + D 0 j - D i j

/-- The number of the runs: `n/7 + 5` or the given number, but not more than there are pairs. -/
def Spec.suppressionRuns (N : ℕ) (Lprime : Option ℕ) : ℕ :=
  min (Lprime.getD ((N - 1) / 7 + 5)) ((N - 1) * (N - 2) / 2)

theorem supCount_eq (N : ℕ) (Lprime : Option ℕ) : supCount N Lprime = suppressionRuns N Lprime := by
  have h : (N - 1) * (N - 1) - (N - 1) = (N - 1) * (N - 2) := by
    rw [show N - 2 = N - 1 - 1 by omega, Nat.mul_sub (N - 1) (N - 1) 1, Nat.mul_one]
  unfold supCount suppressionRuns
  simp only [h]
  cases Lprime <;> rfl

theorem suppression_lists (N : ℕ) (D : ℕ → ℕ → ℚ) (Lprime : Option ℕ) :
    (supLists N D (supCount N Lprime) []).length = suppressionRuns N Lprime ∧
    (∀ t l, (supLists N D (supCount N Lprime) [])[t]? = some l →
      Ranks N D (suppressedValue D (headPairs ((supLists N D (supCount N Lprime) []).take t))) l) := by
  refine ⟨by rw [supLists_length, supCount_eq], fun t l h => ?_⟩
  have := supLists_ranks N D _ _ t l h
  rwa [List.nil_append] at this

theorem suppression_eq (hN : 1 ≤ N) (D : ℕ → ℕ → ℚ) (d : ℕ → ℚ) (C L : Option ℚ) (mk : Bool) (Lprime : Option ℕ)
    {int : Option (ℕ × SavInt)} (hi : ∀ k, int ≠ some (k, .before)) :
    suppression_savings_init N D d C L mk Lprime int =
      gaskellRuns N D d C L mk int (supLists N D (supCount N Lprime) []) 0 none := by
  unfold suppression_savings_init
  exact supRuns_eq hN d C L mk hi _ 0 ⟨[], []⟩ none (Or.inl rfl) (by
    simp only [List.length_nil, supCount]
    omega)

/-- **C49**. There are as many runs as the paper has it. The list of each run has each pair once, best first; its
values are the savings without the negative ones, and zero for the pairs that headed the list of an earlier run.
The solution is the first of the best of the runs; with the triangle inequality no two routes of it can be joined. -/
theorem C49_partial (hN : 3 ≤ N) (hD : Symm D) (d : ℕ → ℚ) (C L : Option ℚ) (mk : Bool) {Lprime : Option ℕ} (hL : Lprime ≠ some 0) :
    ∃ lists cands sol, lists.length = suppressionRuns N Lprime ∧
      (∀ t l, lists[t]? = some l → Ranks N D (suppressedValue D (headPairs (lists.take t))) l) ∧
      List.Forall₂ (SavRun N D d C L mk) lists cands ∧
      suppression_savings_init N D d C L mk Lprime none = .ok (.returned (some sol)) ∧ Winner D mk cands sol ∧
      VariantGood N D d C L mk sol ∧ (Triangle D → (∀ n, 0 ≤ d n) → Unmergeable D d C L sol) := by
  obtain ⟨h1, h2⟩ := suppression_lists N D Lprime
  have hr : ∀ l ∈ supLists N D (supCount N Lprime) [], ∃ val, Ranks N D val l := by
    intro l hl
    obtain ⟨t, ht⟩ := List.getElem?_of_mem hl
    exact ⟨_, h2 t l ht⟩
  obtain ⟨cands, hc⟩ := savRuns_exist (by omega : 2 ≤ N) hD d C L mk (lists := supLists N D (supCount N Lprime) []) fun l hl => by
    obtain ⟨val, hv⟩ := hr l hl
    exact ranks_valid hv
  have hne : supLists N D (supCount N Lprime) [] ≠ [] := by
    intro e
    rw [e, List.length_nil] at h1
    have hp : 1 ≤ (N - 1) * (N - 2) / 2 := by
      have : 2 * 1 ≤ (N - 1) * (N - 2) := Nat.mul_le_mul (by omega) (by omega)
      omega
    unfold suppressionRuns at h1
    cases Lprime with
    | none => simp only [Option.getD_none] at h1; omega
    | some l =>
      have : l ≠ 0 := fun e => hL (by rw [e])
      simp only [Option.getD_some] at h1
      omega
  obtain ⟨g1, g2⟩ := runs_good (by omega) hD hc hr
  obtain ⟨sol, e1, e2⟩ := keepBetter_winner (D := D) (mk := mk) (forall₂_ne hc hne)
    fun c hc => ⟨(g1 c hc).1.ends, (g1 c hc).1.noEmpty⟩
  refine ⟨_, cands, sol, h1, h2, hc, ?_, e2, g1 sol e2.mem, fun hT hd => g2 hT hd sol e2.mem⟩
  rw [suppression_eq (by omega) D d C L mk Lprime (by simp), gaskellRuns_all hc, e1]

/-- **C49**: a run does not suppress a pair again, unless nothing is left to be saved. -/
theorem C49_progress {lists : List (List Saving)} (h : ∀ t l, lists[t]? = some l →
    Ranks N D (suppressedValue D (headPairs (lists.take t))) l) {t : ℕ} {sv : Saving} {rest : List Saving}
    (ht : lists[t]? = some (sv :: rest)) (hs : sv.2.2 ∈ headPairs (lists.take t)) :
    ∀ x ∈ sv :: rest, x.1 = 0 := by
  have hr := h t _ ht
  have hpos : ∀ x ∈ sv :: rest, 0 ≤ x.1 := by
    intro x hx
    obtain ⟨i, j, -, -, -, rfl⟩ := hr.only x hx
    simp only [suppressedValue]
    split
    · exact le_refl _
    · exact le_max_left _ _
  have h0 : sv.1 = 0 := by
    obtain ⟨i, j, -, -, -, e⟩ := hr.only sv (by simp)
    rw [e] at hs ⊢
    exact if_pos hs
  intro x hx
  rcases List.mem_cons.1 hx with rfl | hx'
  · exact h0
  · have := (List.pairwise_cons.1 hr.order).1 x hx'
    have hx0 := hpos x hx
    rcases this with h | ⟨h, -⟩ <;> linarith

/-- **C49**: with the triangle inequality the solution is never worse than that of Clarke and Wright. -/
theorem C49_clarke_wright (hN : 3 ≤ N) (hD : Symm D) (hT : Triangle D) (d : ℕ → ℚ) (C L : Option ℚ) (mk : Bool)
    {Lprime : Option ℕ} (hL : Lprime ≠ some 0) :
    ∃ c sol, SavRun N D d C L mk (clarke_wright_savings_function N D) c ∧
      suppression_savings_init N D d C L mk Lprime none = .ok (.returned (some sol)) ∧
      ¬ Better mk (cost D c, ((blocks c).length : ℚ)) (cost D sol, ((blocks sol).length : ℚ)) := by
  obtain ⟨lists, cands, sol, h1, h2, h3, h4, h5, -⟩ := C49_partial hN hD d C L mk hL
  cases h3 with
  | nil =>
    have := h5.mem
    cases this
  | @cons l c lists cands hc _ =>
    refine ⟨c, sol, ?_, h4, h5.best c (by simp)⟩
    have hr := h2 0 l rfl
    have e : l = clarke_wright_savings_function N D := by
      refine C47_ranks_unique (val := saved D) (N := N) (D := D) ?_ (ranks_clarke_wright N D)
      have hv : suppressedValue D (headPairs (List.take 0 (l :: lists))) = saved D := by
        funext i j
        have := hT i 0 j
        simp only [List.take_zero, headPairs, List.filterMap_nil, suppressedValue, List.not_mem_nil, if_false]
        exact max_eq_right (by unfold saved; linarith)
      rwa [hv] at hr
    rwa [e] at hc

/-- **C49**, an interrupt of a run of the savings procedure, except between the lines 172 and 173 of it. -/
theorem C49_interrupted_partial (hN : 2 ≤ N) (hD : Symm D) (d : ℕ → ℚ) (C L : Option ℚ) (mk : Bool) (Lprime : Option ℕ) :
    ∃ lists : List (List Saving), lists.length = suppressionRuns N Lprime ∧
      (∀ t l, lists[t]? = some l → Ranks N D (suppressedValue D (headPairs (lists.take t))) l) ∧
      ∀ k savings, lists[k]? = some savings →
      ∃ cands res, List.Forall₂ (SavRun N D d C L mk) (lists.take k) cands ∧
        parallel_savings_init N D d C L mk savings = .ok res ∧
        ∀ m line isol, res.2[m]? = some (line, some isol) → line ≠ 172 →
          ∃ sol, suppression_savings_init N D d C L mk Lprime (some (k, .inSavings m)) = .ok (.interrupted (some sol)) ∧
            Winner D mk (cands ++ [isol]) sol ∧ Solves N D d C L sol := by
  obtain ⟨h1, h2⟩ := suppression_lists N D Lprime
  have h3 : ∀ l ∈ supLists N D (supCount N Lprime) [], ∃ val, Ranks N D val l := by
    intro l hl
    obtain ⟨t, ht⟩ := List.getElem?_of_mem hl
    exact ⟨_, h2 t l ht⟩
  have e := fun int hi => suppression_eq (show 1 ≤ N by omega) D d C L mk Lprime (int := int) hi
  generalize supLists N D (supCount N Lprime) [] = lists at *
  refine ⟨lists, h1, h2, fun k savings hk => ?_⟩
  have hval : ∀ l ∈ lists, ValidSavings N l := fun l hl => by
    obtain ⟨val, hv⟩ := h3 l hl
    exact ranks_valid hv
  obtain ⟨cands, hc⟩ := savRuns_exist hN hD d C L mk (lists := lists.take k) fun l hl => hval l (List.mem_of_mem_take hl)
  obtain ⟨c, seen, e1, e2⟩ := C26_parallel_partial hN hD d C L mk (hval savings (List.mem_of_getElem? hk))
  refine ⟨cands, _, hc, e1, fun m line isol hmm hline => ?_⟩
  obtain ⟨isol', e3, hs⟩ := e2 (line, some isol) (List.mem_of_getElem? hmm) hline
  simp only [Option.some.injEq] at e3
  subst e3
  obtain ⟨g1, -⟩ := runs_good hN hD hc fun l hl => h3 l (List.mem_of_mem_take hl)
  have hall : ∀ x ∈ cands ++ [isol], Solves N D d C L x := by
    intro x hx
    rcases List.mem_append.1 hx with hx | hx
    · exact (g1 x hx).1
    · rw [List.mem_singleton.1 hx]; exact hs
  obtain ⟨sol, w1, w2⟩ := keepBetter_winner (D := D) (mk := mk) (cands := cands ++ [isol]) (by simp)
    fun x hx => ⟨(hall x hx).ends, (hall x hx).noEmpty⟩
  refine ⟨sol, ?_, w2, hall sol w2.mem⟩
  have hkl : k < lists.length := (List.getElem?_eq_some_iff.1 hk).1
  have hsplit : lists = lists.take k ++ savings :: lists.drop (k + 1) := by
    conv_lhs => rw [← List.take_append_drop k lists, List.drop_eq_getElem_cons hkl]
    rw [(List.getElem?_eq_some_iff.1 hk).2]
  have := gaskellRuns_interrupted (mk := mk) (l2 := lists.drop (k + 1)) hc e1 hmm
  rw [List.length_take, Nat.min_eq_left (le_of_lt hkl), ← hsplit, w1] at this
  rw [e _ (by simp), this]

/-- **C49**, an interrupt before the savings function is called is swallowed: the answer is that of one run less. -/
theorem C49_swallowed (hN : 2 ≤ N) (D : ℕ → ℕ → ℚ) (d : ℕ → ℚ) (C L : Option ℚ) (mk : Bool) (Lprime : Option ℕ) {k : ℕ}
    (hk : k < suppressionRuns N Lprime) :
    suppression_savings_init N D d C L mk Lprime (some (k, .before)) =
      suppression_savings_init N D d C L mk (some (suppressionRuns N Lprime - 1)) none := by
  have hle : suppressionRuns N Lprime ≤ (N - 1) * (N - 2) / 2 := min_le_right _ _
  rw [suppression_eq (show 1 ≤ N by omega) D d C L mk (some (suppressionRuns N Lprime - 1)) (by simp)]
  have e : supCount N (some (suppressionRuns N Lprime - 1)) = suppressionRuns N Lprime - 1 := by
    rw [supCount_eq]
    unfold suppressionRuns at hle ⊢
    simp only [Option.getD_some]
    omega
  rw [e]
  unfold suppression_savings_init
  rw [supRuns_before (by omega) d C L mk k _ 0 ⟨[], []⟩ none (Or.inl rfl) (by simp only [List.length_nil, supCount]; omega)
    (by omega) (by rw [supCount_eq]; omega), supCount_eq]

/-- **C49**: a single customer is not served at all, there are no runs. -/
theorem C49_single_false (D : ℕ → ℕ → ℚ) (d : ℕ → ℚ) (C L : Option ℚ) (mk : Bool) (Lprime : Option ℕ) :
    suppression_savings_init 2 D d C L mk Lprime none = .ok (.returned none) := by
  have : supCount 2 Lprime = 0 := by
    simp [supCount]
  unfold suppression_savings_init
  rw [this]
  rfl

example : suppression_savings_init 5 exM exOne (some 2) none false none none = .ok (.returned (some [0, 1, 3, 0, 2, 4, 0])) ∧
    suppressionRuns 5 none = 5 ∧ suppressionRuns 4 none = 3 ∧
    (supLists 5 exM 3 [])[2]? = some ([(4, -4, 3, 4), (2, -3, 1, 3), (0, -4, 2, 4), (0, -4, 2, 3), (0, -5, 1, 4),
      (0, -7, 1, 2)] : List Saving) := by
  decide +kernel

/-! ## C48: Paessens -/

/-- **C48**, the savings: each pair of customers once, with the value of the criterion, best first. -/
theorem C48_ranks (N : ℕ) (D : ℕ → ℕ → ℚ) (g f : ℚ) :
    Ranks N D (fun i j => D i 0 + D 0 j - g * D i j + f * |D i 0 - D 0 j|) (paessens_savings_function N D g f) :=
  ranks_sort _ _ _

theorem plan_ne {strategy : PaessensStrategy} (hs : strategy ≠ .list []) {ps : List GF} {cands : List (List ℕ)}
    (h : PaessensPlan D mk strategy ps cands) : ps ≠ [] := by
  cases strategy with
  | M1 =>
    have h : ps = _ := h
    rw [h]
    intro e
    have : (1, 0) ∈ planM1 := by decide +kernel
    rw [e] at this
    cases this
  | M4 =>
    obtain ⟨p, h, -⟩ := h
    rw [h]
    simp [planM4]
  | list l =>
    have h : ps = l := h
    rw [h]
    exact fun e => hs (by rw [e])

/-- **C48**. The parameters are tried one after the other; the strategy `M4` tries four pairs and then four around
the best of them. The solution is the first of the best of the runs. Each run improves a solution of the parallel
savings algorithm, if asked to, until no route of it can be improved by a 3-opt move. -/
theorem C48 (hN : 2 ≤ N) (hD : Symm D) (h00 : D 0 0 = 0) (hd0 : d 0 = 0) (C L : Option ℚ) (mk o : Bool)
    {strategy : PaessensStrategy} (hs : strategy ≠ .list []) :
    ∃ ps cands sol, PaessensPlan D mk strategy ps cands ∧ List.Forall₂ (PaessensRun N D d C L mk o) ps cands ∧
      (∃ F, ∀ fuel, F ≤ fuel → paessens_savings_init fuel N D d C L mk strategy o none = .ok (some (.returned (some sol)))) ∧
      Winner D mk cands sol ∧ VariantGood N D d C L mk sol ∧ (o = true → OptRoutes D [op3opt D] sol) := by
  obtain ⟨F, ps, cands, h1, h2, h3⟩ := paessens_prefix hN hD h00 hd0 C L mk o strategy
  have hrun := h2.imp fun _ _ h => h.run
  have hg : ∀ c ∈ cands, VariantGood N D d C L mk c ∧ (o = true → OptRoutes D [op3opt D] c) := by
    intro c hc
    obtain ⟨p, -, c0, hp, i1, i2, i3, -⟩ := forall₂_right hrun c hc
    refine ⟨⟨i1, fun hm => le_trans i2.cheaper ?_⟩, i3⟩
    exact (savRun_solves hN hD (ranks_valid (ranks_paessens N D p.1 p.2)) hp).2 hm
  obtain ⟨sol, e1, e2⟩ := keepBetter_winner (D := D) (mk := mk) (forall₂_ne hrun (plan_ne hs h1))
    fun c hc => ⟨(hg c hc).1.1.ends, (hg c hc).1.1.noEmpty⟩
  refine ⟨ps, cands, sol, h1, hrun, ⟨max F (ps.length + 1), fun fuel hf => ?_⟩, e2, (hg sol e2.mem).1, (hg sol e2.mem).2⟩
  have hf1 : F ≤ fuel := le_trans (le_max_left _ _) hf
  have hf2 : ps.length + 1 ≤ fuel := le_trans (le_max_right _ _) hf
  obtain ⟨rest, r1, r2⟩ := h3 fuel hf1 none ps.length (le_refl _) fun _ _ => rfl
  have hrest : rest = [] := by
    rw [List.getElem?_eq_none (le_refl _)] at r1
    exact List.head?_eq_none_iff.1 r1
  have hlen : (ps.zip cands).length = ps.length := by rw [List.length_zip, h2.length_eq, Nat.min_self]
  have hz : (ps.zip cands).take ps.length = ps.zip cands := List.take_of_length_le (by omega)
  have := r2 (fuel - ps.length)
  rw [Nat.sub_add_cancel (by omega), hrest, hz, paessensStep_fst, List.map_snd_zip (by rw [h2.length_eq])] at this
  obtain ⟨m, hm⟩ : ∃ m, fuel - ps.length = m + 1 := ⟨fuel - ps.length - 1, by omega⟩
  unfold paessens_savings_init
  rw [this, hm]
  simp only [paessensRuns, e1]

theorem better_of_inner {c0 c s : List ℕ} (h : InnerImproved D c0 c)
    (hb : Better mk (cost D c0, ((blocks c0).length : ℚ)) (cost D s, ((blocks s).length : ℚ))) :
    Better mk (cost D c, ((blocks c).length : ℚ)) (cost D s, ((blocks s).length : ℚ)) := by
  have h1 := h.cheaper
  have h2 := h.routes
  unfold Better at *
  rw [h2]
  split at hb
  · rename_i hm
    rw [if_pos hm]
    rcases hb with hb | ⟨hb, hc⟩
    · exact Or.inl hb
    · exact Or.inr ⟨hb, lt_of_le_of_lt h1 hc⟩
  · rename_i hm
    rw [if_neg hm]
    exact lt_of_le_of_lt h1 hb

/-- **C48**: if the parameters of Clarke and Wright, `(1, 0)`, are among those tried, the solution is never worse
than theirs. -/
theorem C48_clarke_wright (hN : 2 ≤ N) (hD : Symm D) (h00 : D 0 0 = 0) (hd0 : d 0 = 0) (C L : Option ℚ) (mk o : Bool)
    {l : List GF} (hl : (1, 0) ∈ l) {strategy : PaessensStrategy} (hs : strategy = .M1 ∨ strategy = .list l) :
    ∃ c sol, SavRun N D d C L mk (clarke_wright_savings_function N D) c ∧
      (∃ F, ∀ fuel, F ≤ fuel → paessens_savings_init fuel N D d C L mk strategy o none = .ok (some (.returned (some sol)))) ∧
      ¬ Better mk (cost D c, ((blocks c).length : ℚ)) (cost D sol, ((blocks sol).length : ℚ)) := by
  have hne : strategy ≠ .list [] := by
    rcases hs with rfl | rfl
    · simp
    · intro e
      simp only [PaessensStrategy.list.injEq] at e
      rw [e] at hl
      cases hl
  obtain ⟨ps, cands, sol, h1, h2, h3, h4, -⟩ := C48 (L := L) hN hD h00 hd0 C mk o hne
  have hmem : (1, 0) ∈ ps := by
    rcases hs with rfl | rfl
    · have h1 : ps = _ := h1
      rw [h1]
      decide +kernel
    · have h1 : ps = l := h1
      rw [h1]; exact hl
  obtain ⟨c, hc, c0, hc0, -, i2, -⟩ := forall₂_right h2.flip (1, 0) hmem
  have e : paessens_savings_function N D 1 0 = clarke_wright_savings_function N D := by
    refine C47_ranks_unique (val := saved D) (N := N) (D := D) ?_ (ranks_clarke_wright N D)
    have := C48_ranks N D 1 0
    have hv : (fun i j => D i 0 + D 0 j - 1 * D i j + 0 * |D i 0 - D 0 j|) = saved D := by
      funext i j
      unfold saved
      ring
    rwa [hv] at this
  simp only [e] at hc0
  exact ⟨c0, sol, hc0, h3, fun hb => h4.best c hc (better_of_inner i2 hb)⟩

/-- **C48**, an interrupt of the savings procedure of a run, except between the lines 172 and 173 of it: the best
of the solutions of the earlier runs and of the one at hand is handed out. -/
theorem C48_interrupted_partial (hN : 2 ≤ N) (hD : Symm D) (h00 : D 0 0 = 0) (hd0 : d 0 = 0) (C L : Option ℚ) (mk o : Bool)
    (strategy : PaessensStrategy) :
    ∃ ps cands, PaessensPlan D mk strategy ps cands ∧ List.Forall₂ (PaessensRun N D d C L mk o) ps cands ∧
      ∀ k p, ps[k]? = some p → ∃ res, parallel_savings_init N D d C L mk (paessens_savings_function N D p.1 p.2) = .ok res ∧
        ∀ m line isol, res.2[m]? = some (line, some isol) → line ≠ 172 →
          ∃ sol, (∃ F, ∀ fuel, F ≤ fuel → paessens_savings_init fuel N D d C L mk strategy o (some (k, .inSavings m)) =
              .ok (some (.interrupted (some sol)))) ∧
            Winner D mk (cands.take k ++ [isol]) sol ∧ Solves N D d C L sol := by
  obtain ⟨F, ps, cands, h1, h2, h3⟩ := paessens_prefix hN hD h00 hd0 C L mk o strategy
  have hrun := h2.imp fun _ _ h => h.run
  refine ⟨ps, cands, h1, hrun, fun k p hk => ?_⟩
  obtain ⟨c, seen, e1, e2⟩ := C26_parallel_partial hN hD d C L mk (ranks_valid (ranks_paessens N D p.1 p.2))
  refine ⟨_, e1, fun m line isol hmm hline => ?_⟩
  obtain ⟨isol', e3, hsol⟩ := e2 (line, some isol) (List.mem_of_getElem? hmm) hline
  simp only [Option.some.injEq] at e3
  subst e3
  have hall : ∀ x ∈ cands.take k ++ [isol], Solves N D d C L x := by
    intro x hx
    rcases List.mem_append.1 hx with hx | hx
    · obtain ⟨q, -, c0, -, i1, -⟩ := forall₂_right hrun x (List.mem_of_mem_take hx)
      exact i1
    · rw [List.mem_singleton.1 hx]; exact hsol
  obtain ⟨sol, w1, w2⟩ := keepBetter_winner (D := D) (mk := mk) (cands := cands.take k ++ [isol]) (by simp)
    fun x hx => ⟨(hall x hx).ends, (hall x hx).noEmpty⟩
  refine ⟨sol, ⟨max F (ps.length + 1), fun fuel hf => ?_⟩, w2, hall sol w2.mem⟩
  have hf1 : F ≤ fuel := le_trans (le_max_left _ _) hf
  have hf2 : ps.length + 1 ≤ fuel := le_trans (le_max_right _ _) hf
  have hkl : k < ps.length := (List.getElem?_eq_some_iff.1 hk).1
  obtain ⟨rest, r1, r2⟩ := h3 fuel hf1 (some (k, .inSavings m)) k (le_of_lt hkl) fun i hi => if_neg (by omega)
  rw [hk] at r1
  obtain ⟨t, rfl⟩ : ∃ t, rest = p :: t := by
    cases rest with
    | nil => simp at r1
    | cons a t => simp only [List.head?_cons, Option.some.injEq] at r1; exact ⟨t, by rw [r1]⟩
  have := r2 (fuel - k)
  have hz : (ps.zip cands).take k = (ps.take k).zip (cands.take k) := List.take_zipWith
  rw [Nat.sub_add_cancel (by omega), hz, paessensStep_fst, List.map_snd_zip (by
    rw [List.length_take, List.length_take, h2.length_eq])] at this
  obtain ⟨r, hr⟩ : ∃ r, fuel - k = r + 1 := ⟨fuel - k - 1, by omega⟩
  unfold paessens_savings_init
  rw [this, hr, paessensRuns, e1]
  have hat : savAt (some (k, .inSavings m)) k = some (.inSavings m) := if_pos rfl
  simp only [hat, paessensCall, savCaught, hmm]
  rw [List.foldl_append, List.foldl_cons, List.foldl_nil] at w1
  rw [← w1]
  rfl

/-- **C48**: an interrupt of the local search does not stop the heuristic; the run goes without its improvement. -/
theorem C48_swallowed_false : ∃ fuel,
    paessens_savings_init fuel 5 exM exOne none none false (.list [(1, 1), (1, 0)]) true (some (0, .inImprovement)) =
      .ok (some (.returned (some [0, 1, 3, 2, 4, 0]))) ∧
    paessens_savings_init fuel 5 exM exOne none none false (.list [(1, 1)]) true (some (0, .inImprovement)) =
      paessens_savings_init fuel 5 exM exOne none none false (.list [(1, 1)]) false none := ⟨20, by decide +kernel⟩

example : Symm exM ∧ exM 0 0 = 0 ∧ exOne 0 = 0 ∧ PaessensStrategy.M4 ≠ .list [] ∧ (1, 0) ∈ ([(1, 1), (1, 0)] : List GF) ∧
    paessens_savings_init 20 5 exM exOne (some 2) none false .M4 true none = .ok (some (.returned (some [0, 1, 3, 0, 2, 4, 0]))) :=
  ⟨exM_symm, by decide +kernel, rfl, by simp, by simp, by decide +kernel⟩

/-! ## C50: Robbins and Turner -/

/-- **C50**. The solution is one of Clarke and Wright with its routes improved until no 2-opt move improves any of
them; the routes keep their customers. -/
theorem C50_partial (hN : 2 ≤ N) (hD : Symm D) (h00 : D 0 0 = 0) (hd0 : d 0 = 0) (C L : Option ℚ) (mk : Bool) :
    ∃ c sol, SavRun N D d C L mk (clarke_wright_savings_function N D) c ∧
      (∃ F, ∀ fuel, F ≤ fuel → cawlip_savings_init fuel N D d C L mk = .ok (some sol)) ∧
      VariantGood N D d C L mk sol ∧ cost D sol ≤ cost D c ∧ (blocks sol).length = (blocks c).length ∧
      (∀ b ∈ blocks sol, ∃ b0 ∈ blocks c, b.Perm b0) ∧ ∀ b ∈ blocks sol, NoBetter D Nb2opt (wrap b) := by
  have hv := ranks_valid (ranks_clarke_wright N D)
  obtain ⟨c, seen, e, h1, h2⟩ := C25_solves hN hD d C L mk hv
  obtain ⟨sol, ⟨F, hF⟩, i1, i2, i3⟩ := inner_search hD h00 hd0 (ops := [op2opt D])
    (fun op ho => by simp only [List.mem_singleton] at ho; simp [innerOps, ho]) .BEST_ACCEPT .ALL_ACCEPT h1
  refine ⟨c, sol, ⟨seen, e⟩, ⟨F, fun fuel hf => ?_⟩, ⟨i1, fun hm => le_trans i2.cheaper (h2 hm)⟩, i2.cheaper, i2.routes, i2.same,
    i3.1 (by simp)⟩
  simp only [cawlip_savings_init, e, Option.getD_some, hF fuel hf]

/-- Four customers; the cheapest arc is between the first two, and none of the others should use it. -/
def exPair (i j : ℕ) : ℚ :=
  (([[0, 10, 10, 10, 10], [10, 0, 10, 11, 20], [10, 10, 0, 20, 11], [10, 11, 20, 0, 20], [10, 20, 11, 20, 0]] :
    List (List ℚ)).getD i []).getD j 0

/-- **C50**: the documentation promises that all ways of connecting any two edges of the solution are searched;
there are none between routes. -/
theorem C50_star_false :
    cawlip_savings_init 20 5 exPair exOne (some 2) none false = .ok (some [0, 1, 2, 0, 3, 4, 0]) ∧
    ¬ NoBetterG exPair Nb2optStar (FitsAll exPair (some exOne) (some 2) none C_EPS S_EPS) [wrap [1, 2], wrap [3, 4]] := by
  refine ⟨by decide +kernel, fun h => ?_⟩
  refine h [[0, 1] ++ [0, 3].reverse, [2, 0].reverse ++ [4, 0]]
    ⟨[0, 1], [2, 0], [0, 3], [4, 0], by simp, by simp, by simp, by simp, rfl, Or.inl rfl⟩ ?_ (by decide +kernel)
  intro r hr
  simp only [List.mem_cons, List.not_mem_nil, or_false] at hr
  rcases hr with rfl | rfl
  · refine ⟨fun f hf => ?_, by simp [FitsL, Within]⟩
    simp only [Option.some.injEq] at hf
    subst hf
    intro c hc _
    cases hc
    decide +kernel
  · refine ⟨fun f hf => ?_, by simp [FitsL, Within]⟩
    simp only [Option.some.injEq] at hf
    subst hf
    intro c hc _
    cases hc
    decide +kernel

example : cawlip_savings_init 20 5 exM exOne (some 4) none false = .ok (some [0, 1, 3, 2, 4, 0]) := by decide +kernel

/-- **C50**, without an interrupt the heuristic returns, and with one it raises: an interrupt of the savings procedure
is passed on, except between the lines 172 and 173 of it with a complete and feasible solution that does not depend on
the local search. -/
theorem C50_interrupted_partial (hN : 2 ≤ N) (hD : Symm D) (h00 : D 0 0 = 0) (hd0 : d 0 = 0) (C L : Option ℚ) (mk : Bool) :
    (∃ F sol, VariantGood N D d C L mk sol ∧ ∀ fuel, F ≤ fuel →
      cawlip_savings_init fuel N D d C L mk = .ok (some sol) ∧
      cawlip_savings_end fuel N D d C L mk none = .ok (some (.returned (some sol)))) ∧
    ∃ res, parallel_savings_init N D d C L mk (clarke_wright_savings_function N D) = .ok res ∧
      ∀ m line att, res.2[m]? = some (line, att) → line ≠ 172 → ∃ isol, att = some isol ∧ Solves N D d C L isol ∧
        ∀ fuel, cawlip_savings_end fuel N D d C L mk (some (.inSavings m)) = .ok (some (.interrupted (some isol))) := by
  obtain ⟨c, seen, e1, e2⟩ := C26_parallel_partial hN hD d C L mk (ranks_valid (ranks_clarke_wright N D))
  refine ⟨?_, _, e1, fun m line att hm hl => ?_⟩
  · obtain ⟨-, sol, -, ⟨F, hF⟩, hg, -⟩ := C50_partial hN hD h00 hd0 C L mk
    refine ⟨F, sol, hg, fun fuel hf => ?_⟩
    have h := hF fuel hf
    refine ⟨h, ?_⟩
    simp only [cawlip_savings_init, e1] at h
    simp only [cawlip_savings_end, e1, h]
  · obtain ⟨isol, e3, hs⟩ := e2 (line, att) (List.mem_of_getElem? hm) hl
    dsimp only at e3
    subst e3
    refine ⟨isol, rfl, hs, fun fuel => ?_⟩
    simp only [cawlip_savings_end, e1, hm, Option.map_some]

/-- **C50**: an interrupt of the improvement carries nothing, although there is a complete and feasible solution by
then. This happens for all instances. -/
theorem C50_interrupted_false (hN : 2 ≤ N) (hD : Symm D) (d : ℕ → ℚ) (C L : Option ℚ) (mk : Bool) :
    (∃ c, SavRun N D d C L mk (clarke_wright_savings_function N D) c ∧ Solves N D d C L c) ∧
    ∀ fuel, cawlip_savings_end fuel N D d C L mk (some .inImprovement) = .ok (some (.interrupted none)) := by
  obtain ⟨c, seen, e, h1, -⟩ := C25_solves hN hD d C L mk (ranks_valid (ranks_clarke_wright N D))
  exact ⟨⟨c, ⟨seen, e⟩, h1⟩, fun fuel => by simp only [cawlip_savings_end, e]⟩

example : Symm exM ∧ exM 0 0 = 0 ∧ exOne 0 = 0 ∧
    cawlip_savings_end 20 5 exM exOne (some 4) none false none = .ok (some (.returned (some [0, 1, 3, 2, 4, 0]))) ∧
    cawlip_savings_end 20 5 exM exOne (some 4) none false (some (.inSavings 0)) =
      .ok (some (.interrupted (some [0, 1, 0, 2, 0, 3, 0, 4, 0]))) ∧
    cawlip_savings_end 20 5 exM exOne (some 4) none false (some .inImprovement) = .ok (some (.interrupted none)) :=
  ⟨exM_symm, by decide +kernel, rfl, by decide +kernel, by decide +kernel, by decide +kernel⟩

end Verif
