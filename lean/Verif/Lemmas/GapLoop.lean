import Verif.Lemmas.Gap

/-! # Lemmas on the generalised assignment heuristic: the main loop -/

namespace Verif

open Spec

/-! ## What the loop knows -/

/-- The best solution is the best of those found, and the solutions found are `P`. -/
structure GapInv (D : ℕ → ℕ → ℚ) (mk : Bool) (P : List ℕ → Prop) (s : GapSt) : Prop where
  good : ∀ x ∈ s.log, P x
  none : s.best_sol = Option.none → s.log = [] ∧ s.best_f = Option.none ∧ s.best_K = Option.none
  some : ∀ sol, s.best_sol = Option.some sol → sol ∈ s.log ∧ s.best_f = Option.some (cost D sol) ∧
    s.best_K = Option.some ((blocks sol).length : ℚ) ∧ ∀ x ∈ s.log, AsGood D mk sol x

theorem asGood_refl (D : ℕ → ℕ → ℚ) (mk : Bool) (s : List ℕ) : AsGood D mk s s := by
  unfold AsGood; split_ifs
  · exact Or.inr ⟨rfl, le_refl _⟩
  · exact le_refl _

theorem asGood_trans {D : ℕ → ℕ → ℚ} {mk : Bool} {a b c : List ℕ} (h : AsGood D mk a b) (h' : AsGood D mk b c) :
    AsGood D mk a c := by
  unfold AsGood at *
  split_ifs at * with hm
  · rcases h with h | h <;> rcases h' with h' | h'
    · left; omega
    · left; omega
    · left; omega
    · right; exact ⟨by omega, by linarith [h.2, h'.2]⟩
  · linarith

theorem is_better_asGood {D : ℕ → ℕ → ℚ} {mk : Bool} {b x : List ℕ} :
    (is_better_sol (some (cost D b)) (some ((blocks b).length : ℚ)) (some (cost D x)) (some ((blocks x).length : ℚ)) mk
      = true → AsGood D mk x b) ∧
    (is_better_sol (some (cost D b)) (some ((blocks b).length : ℚ)) (some (cost D x)) (some ((blocks x).length : ℚ)) mk
      = false → AsGood D mk b x) := by
  unfold AsGood is_better_sol
  cases mk
  · simp only [Bool.false_eq_true, if_false, decide_eq_true_eq, decide_eq_false_iff_not, not_lt]
    exact ⟨fun h => h.le, fun h => h⟩
  · simp only [if_true, Bool.or_eq_true, Bool.and_eq_true, decide_eq_true_eq, Nat.cast_lt, Nat.cast_inj,
      Bool.or_eq_false_iff, Bool.and_eq_false_iff, decide_eq_false_iff_not, not_lt]
    constructor
    · rintro (h | h)
      · exact Or.inl h
      · exact Or.inr ⟨h.1, h.2.le⟩
    · rintro ⟨h1, h2⟩
      rcases Nat.lt_or_ge (blocks b).length (blocks x).length with h | h
      · exact Or.inl h
      · have he : (blocks x).length = (blocks b).length := by omega
        exact Or.inr ⟨he.symm, h2.resolve_left (fun hn => hn he)⟩

theorem gapStore_inv {a : GapArgs} {P : List ℕ → Prop} {s : GapSt} (h : GapInv a.D a.minimize_K P s)
    {found : Option (List ℕ × ℚ × ℕ)}
    (hf : ∀ sol f K, found = some (sol, f, K) → P sol ∧ f = cost a.D sol ∧ K = (blocks sol).length) :
    GapInv a.D a.minimize_K P (gapStore a found s) := by
  cases found with
  | none => exact h
  | some p =>
    obtain ⟨sol, f, K⟩ := p
    obtain ⟨hP, rfl, rfl⟩ := hf sol f K rfl
    have hgood : ∀ x ∈ s.log ++ [sol], P x := by
      intro x hx
      rcases List.mem_append.1 hx with hx | hx
      · exact h.good x hx
      · rw [List.mem_singleton.1 hx]; exact hP
    cases hb : s.best_sol with
    | none =>
      obtain ⟨h1, h2, h3⟩ := h.none hb
      simp only [gapStore, h2, is_better_sol, if_true]
      refine ⟨hgood, fun hc => (by cases hc), fun x hx => ?_⟩
      cases hx
      refine ⟨by simp, rfl, rfl, fun x hx => ?_⟩
      rw [h1] at hx
      have : x = sol := by simpa using hx
      rw [this]; exact asGood_refl _ _ _
    | some b =>
      obtain ⟨h1, h2, h3, h4⟩ := h.some b hb
      have hbt := is_better_asGood (D := a.D) (mk := a.minimize_K) (b := b) (x := sol)
      simp only [gapStore, h2, h3]
      by_cases hi : is_better_sol (some (cost a.D b)) (some ((blocks b).length : ℚ)) (some (cost a.D sol))
          (some ((blocks sol).length : ℚ)) a.minimize_K = true
      · rw [if_pos hi]
        refine ⟨hgood, fun hc => (by cases hc), fun x hx => ?_⟩
        cases hx
        refine ⟨by simp, rfl, rfl, fun x hx => ?_⟩
        rcases List.mem_append.1 hx with hx | hx
        · exact asGood_trans (hbt.1 hi) (h4 x hx)
        · rw [List.mem_singleton.1 hx]; exact asGood_refl _ _ _
      · rw [if_neg hi]
        refine ⟨hgood, fun hc => ?_, fun x hx => ?_⟩
        · rw [show _ = s.best_sol from rfl, hb] at hc; cases hc
        · have hx' : s.best_sol = some x := hx
          rw [hb] at hx'
          cases hx'
          refine ⟨List.mem_append_left _ h1, rfl, rfl, fun y hy => ?_⟩
          rcases List.mem_append.1 hy with hy | hy
          · exact h4 y hy
          · rw [List.mem_singleton.1 hy]; exact hbt.2 (by simpa using hi)

/-- A state that differs in the counters only. -/
def SameBest (s t : GapSt) : Prop :=
  t.best_sol = s.best_sol ∧ t.best_f = s.best_f ∧ t.best_K = s.best_K ∧ t.log = s.log

theorem gapInv_same {D : ℕ → ℕ → ℚ} {mk : Bool} {P : List ℕ → Prop} {s t : GapSt} (h : GapInv D mk P s)
    (hs : SameBest s t) : GapInv D mk P t := by
  obtain ⟨h1, h2, h3, h4⟩ := hs
  refine ⟨?_, ?_, ?_⟩
  · rw [h4]; exact h.good
  · rw [h1, h2, h3, h4]; exact h.none
  · rw [h1, h2, h3, h4]; exact h.some

theorem gapTimeout_same {a : GapArgs} {m K : ℕ} {s t : GapSt} {b : Bool} (h : gapTimeout a m K s = some (t, b)) :
    SameBest s t := by
  unfold gapTimeout at h
  dsimp only at h
  split_ifs at h <;> (cases h; exact ⟨rfl, rfl, rfl, rfl⟩)

theorem gapAdapt_same (a : GapArgs) (m K : ℕ) (b : Bool) (s : GapSt) : SameBest s (gapAdapt a m K b s).1 := by
  unfold gapAdapt
  dsimp only
  split_ifs <;> exact ⟨rfl, rfl, rfl, rfl⟩

/-- The state with which an iteration ends. -/
def GapOut.st : GapOut → GapSt
  | .again s => s
  | .next s => s
  | .interrupted s => s
  | .gurobiError s => s

theorem gapTurn_same (a : GapArgs) (b : Bool) (s : GapSt) : SameBest s (gapTurn a b s).st := by
  unfold gapTurn
  dsimp only
  split_ifs <;> exact ⟨rfl, rfl, rfl, rfl⟩

theorem gapAllCosts_length {N : ℕ} {D : ℕ → ℕ → ℚ} {S : List (ℕ → ℚ)} : ∀ {ks : List ℕ} {cs : List (List ℚ)},
    gapAllCosts N D S ks = .ok cs → cs.length = ks.length := by
  intro ks
  induction ks with
  | nil => intro cs h; cases h; rfl
  | cons k ks ih =>
    intro cs h
    simp only [gapAllCosts] at h
    cases h1 : gapRow D S k with
    | error e => rw [h1] at h; cases h
    | ok row =>
      rw [h1] at h
      cases h2 : gapAllCosts N D S ks with
      | error e => rw [h2] at h; cases h
      | ok rest => rw [h2] at h; cases h; simp [ih h2]

theorem gapProgramme_eq {a : GapArgs} {K : ℕ} {s : GapSt} {M : GapModel} (h : gapProgramme a K s = .ok M) :
    ∃ costs, M = ⟨costs, (pyRange 1 a.N).map a.d, a.C, a.L, s.mult⟩ ∧ costs.length = K := by
  unfold gapProgramme at h
  cases h1 : a.seeds K s.trial with
  | error e => rw [h1] at h; cases h
  | ok S =>
    rw [h1] at h
    dsimp only at h
    cases h2 : gapAllCosts a.N a.D (gapSeedRows a.st a.int_dists S) (List.range K) with
    | error e => rw [h2] at h; cases h
    | ok cs => rw [h2] at h; cases h; exact ⟨cs, rfl, by rw [gapAllCosts_length h2, List.length_range]⟩

/-- The solutions with at most `K` routes. -/
def GapP (a : GapArgs) (K : ℕ) (sol : List ℕ) : Prop := ∃ vs, GapGood a.N a.D a.d a.C a.L K sol vs

theorem gapGood_blocks {N : ℕ} {D : ℕ → ℕ → ℚ} {d : ℕ → ℚ} {C L : Option ℚ} {K : ℕ} {sol : List ℕ}
    {vs : List (List ℕ)} (h : GapGood N D d C L K sol vs) : blocks sol = vs := by
  rw [h.sol]
  refine blocks_tour_of_routes vs fun u hu => ⟨fun e => h.noEmpty (e ▸ hu), fun x hx h0 => ?_⟩
  have := h.all.mem_iff.1 (List.mem_flatten.2 ⟨u, hu, hx⟩)
  rw [List.mem_range'_1] at this
  omega

/-- The answers of the solver are good assignments. -/
theorem solve_gap_hard {a : GapArgs} (h : GapHyp a) {c : ℕ} {M : GapModel} {as : List (List ℕ)}
    (hs : solve_gap a.opt a.rlx c a.N M = .ok (some as)) : ∃ Y, as = gapAssign a.N Y ∧ M.Hard Y := by
  unfold solve_gap at hs
  cases h1 : a.opt c M with
  | optimal Y => rw [h1] at hs; cases hs; exact ⟨Y, rfl, (h.solver.optimal c M Y h1).1.toHard⟩
  | timeLimit => rw [h1] at hs; cases hs
  | interrupted => rw [h1] at hs; cases hs
  | other => rw [h1] at hs; cases hs
  | infeasible =>
    rw [h1] at hs
    dsimp only at hs
    by_cases hL : truthy M.L = true
    swap
    · rw [if_neg hL] at hs; cases hs
    rw [if_pos hL] at hs
    cases h2 : a.rlx c M with
    | optimal Y => rw [h2] at hs; cases hs; exact ⟨Y, rfl, h.solver.relaxed c M Y h2⟩
    | timeLimit => rw [h2] at hs; cases hs
    | interrupted => rw [h2] at hs; cases hs
    | other => rw [h2] at hs; cases hs
    | infeasible => rw [h2] at hs; cases hs

theorem gapTrial_good {a : GapArgs} (h : GapHyp a) {c K : ℕ} {s : GapSt} {M : GapModel}
    (hM : gapProgramme a K s = .ok M) {as : Option (List (List ℕ))}
    (hs : solve_gap a.opt a.rlx c a.N M = .ok as) {sol : List ℕ} {f : ℚ} {k : ℕ}
    (hf : gapTrial a.N a.d a.C a.L a.tsp as = some (sol, f, k)) :
    GapP a K sol ∧ f = cost a.D sol ∧ k = (blocks sol).length := by
  cases as with
  | none => cases hf
  | some as =>
    obtain ⟨Y, rfl, hY⟩ := solve_gap_hard h hs
    obtain ⟨costs, rfl, hl⟩ := gapProgramme_eq hM
    obtain ⟨h1, h2, h3⟩ := gapAssign_hard hY
    obtain ⟨vs, hg, e1, e2⟩ := gapTrial_spec h.tsp h1 h3 hf
    rw [h2, hl] at hg
    exact ⟨⟨vs, hg⟩, e1, by rw [e2, gapGood_blocks hg]⟩

/-- One iteration. -/
theorem gapIter_inv' {a : GapArgs} {P : List ℕ → Prop} {m K : ℕ} {s : GapSt}
    (hP : ∀ M c as sol f k, gapProgramme a (K + s.incK) s = .ok M → solve_gap a.opt a.rlx c a.N M = .ok as →
      gapTrial a.N a.d a.C a.L a.tsp as = some (sol, f, k) → P sol ∧ f = cost a.D sol ∧ k = (blocks sol).length)
    (hi : GapInv a.D a.minimize_K P s)
    {o : GapOut} (h : gapIter a m K s = .ok o) : GapInv a.D a.minimize_K P o.st := by
  unfold gapIter at h
  cases h1 : gapProgramme a (K + s.incK) s with
  | error e => rw [h1] at h; cases h
  | ok M =>
    rw [h1] at h
    dsimp only at h
    have hi' : GapInv a.D a.minimize_K P { s with calls := s.calls + 1 } := gapInv_same hi ⟨rfl, rfl, rfl, rfl⟩
    cases h2 : solve_gap a.opt a.rlx s.calls a.N M with
    | interrupted => rw [h2] at h; cases h; exact hi'
    | gurobiError =>
      rw [h2] at h
      dsimp only at h
      cases h3 : gapTimeout a m K { s with calls := s.calls + 1 } with
      | none => rw [h3] at h; cases h; exact hi'
      | some p =>
        obtain ⟨t, take⟩ := p
        rw [h3] at h
        dsimp only at h
        have ht := gapInv_same hi' (gapTimeout_same h3)
        split_ifs at h
        · cases h; exact ht
        · cases h; exact gapInv_same ht (gapTurn_same a take t)
    | ok as =>
      rw [h2] at h
      dsimp only at h
      have ht := gapStore_inv (gapInv_same (gapInv_same hi' (t := { s with calls := s.calls + 1, corrective := s.corrective || (as.getD []).isEmpty })
        ⟨rfl, rfl, rfl, rfl⟩) (gapAdapt_same a m K (gapTrial a.N a.d a.C a.L a.tsp as).isSome _))
        (fun sol f k e => hP M s.calls as sol f k h1 h2 e)
      split_ifs at h
      · cases h; exact ht
      · cases h; exact gapInv_same ht (gapTurn_same a _ _)

theorem gapSeedLoop_inv {a : GapArgs} {P : List ℕ → Prop} {m K : ℕ}
    (hP : ∀ s M c as sol f k, gapProgramme a (K + s.incK) s = .ok M → solve_gap a.opt a.rlx c a.N M = .ok as →
      gapTrial a.N a.d a.C a.L a.tsp as = some (sol, f, k) → P sol ∧ f = cost a.D sol ∧ k = (blocks sol).length) :
    ∀ (fuel : ℕ) {s : GapSt}, GapInv a.D a.minimize_K P s → ∀ {o : GapOut},
    gapSeedLoop a m K fuel s = .ok (some o) → GapInv a.D a.minimize_K P o.st := by
  intro fuel
  induction fuel with
  | zero => intro s _ o h; cases h
  | succ fuel ih =>
    intro s hi o h
    simp only [gapSeedLoop] at h
    cases h1 : gapIter a m K s with
    | error e => rw [h1] at h; cases h
    | ok o1 =>
      rw [h1] at h
      have := gapIter_inv' (hP s) hi h1
      cases o1 with
      | again t => exact ih this h
      | next t => cases h; exact this
      | interrupted t => cases h; exact this
      | gurobiError t => cases h; exact this

/-! ## The end of the loops -/

/-- The bounds of the counters. -/
structure GapBnd (a : GapArgs) (m : ℕ) (s : GapSt) : Prop where
  trial : s.trial < a.N
  incK : s.incK ≤ m
  tries : s.tries ≤ 3

/-- What becomes smaller with each iteration. -/
def gapMeasure (a : GapArgs) (m : ℕ) (s : GapSt) : ℕ :=
  (a.N - s.trial) * (4 * (m + 1)) + (m - s.incK) * 4 + (3 - s.tries)

/-- The counters have moved on; `take` asks for the next seed. -/
structure GapMoved (m : ℕ) (s t : GapSt) (take : Bool) : Prop where
  trial : t.trial = s.trial
  incK : t.incK ≤ m
  tries : t.tries ≤ 3
  less : take = false → (m - t.incK) * 4 + (3 - t.tries) < (m - s.incK) * 4 + (3 - s.tries)

theorem gapTimeout_moved {a : GapArgs} {m K : ℕ} {s t : GapSt} {take : Bool} (hb : GapBnd a m s)
    (h : gapTimeout a m K s = some (t, take)) : GapMoved m s t take := by
  have h1 := hb.incK; have h2 := hb.tries
  unfold gapTimeout at h
  by_cases c1 : (a.adapts && decide (s.tries < 3)) = true
  · rw [if_pos c1] at h
    cases h
    simp only [Bool.and_eq_true, decide_eq_true_eq] at c1
    refine ⟨rfl, h1, ?_, fun _ => ?_⟩
    · show s.tries + 1 ≤ 3; omega
    · show (m - s.incK) * 4 + (3 - (s.tries + 1)) < _; omega
  · rw [if_neg c1] at h
    by_cases c2 : (a.increase_K && decide (K + s.incK + 1 ≤ m)) = true
    · rw [if_pos c2] at h
      simp only [Bool.and_eq_true, decide_eq_true_eq] at c2
      dsimp only at h
      split_ifs at h
      · cases h
        refine ⟨rfl, ?_, ?_, fun _ => ?_⟩
        · show s.incK + 1 ≤ m; omega
        · show 0 ≤ 3; omega
        · show (m - (s.incK + 1)) * 4 + (3 - 0) < _; omega
      · cases h
        refine ⟨rfl, ?_, h2, fun _ => ?_⟩
        · show s.incK + 1 ≤ m; omega
        · show (m - (s.incK + 1)) * 4 + (3 - s.tries) < _; omega
    · rw [if_neg c2] at h
      split_ifs at h
      cases h
      exact ⟨rfl, h1, h2, fun hc => by cases hc⟩

theorem gapAdapt_moved {a : GapArgs} {m K : ℕ} {b : Bool} {s : GapSt} (h1 : s.incK ≤ m) (h2 : s.tries ≤ 3) :
    GapMoved m s (gapAdapt a m K b s).1 (gapAdapt a m K b s).2 := by
  unfold gapAdapt
  by_cases c1 : a.adapts = true
  · rw [if_pos c1]
    by_cases c2 : (b || decide (3 ≤ s.tries)) = true
    · rw [if_pos c2]
      dsimp only
      by_cases c3 : (!b && (a.increase_K && decide (K + s.incK + 1 ≤ m))) = true
      · rw [if_pos c3]
        simp only [Bool.and_eq_true, decide_eq_true_eq] at c3
        refine ⟨rfl, ?_, ?_, fun _ => ?_⟩
        · show s.incK + 1 ≤ m; omega
        · show 0 ≤ 3; omega
        · show (m - (s.incK + 1)) * 4 + (3 - 0) < _; omega
      · rw [if_neg c3]
        exact ⟨rfl, h1, by show 0 ≤ 3; omega, fun hc => by cases hc⟩
    · rw [if_neg c2]
      simp only [Bool.or_eq_true, decide_eq_true_eq, not_or, not_le] at c2
      refine ⟨rfl, h1, ?_, fun _ => ?_⟩
      · show s.tries + 1 ≤ 3; omega
      · show (m - s.incK) * 4 + (3 - (s.tries + 1)) < _; omega
  · rw [if_neg c1]
    by_cases c3 : (!b && (a.increase_K && decide (K + s.incK + 1 ≤ m))) = true
    · rw [if_pos c3]
      simp only [Bool.and_eq_true, decide_eq_true_eq] at c3
      refine ⟨rfl, ?_, h2, fun _ => ?_⟩
      · show s.incK + 1 ≤ m; omega
      · show (m - (s.incK + 1)) * 4 + (3 - s.tries) < _; omega
    · rw [if_neg c3]
      exact ⟨rfl, h1, h2, fun hc => by cases hc⟩

theorem gapStore_counters (a : GapArgs) (found : Option (List ℕ × ℚ × ℕ)) (s : GapSt) :
    (gapStore a found s).trial = s.trial ∧ (gapStore a found s).incK = s.incK ∧ (gapStore a found s).tries = s.tries ∧
    (gapStore a found s).corrective = s.corrective ∧ (gapStore a found s).mult = s.mult ∧
    (gapStore a found s).calls = s.calls := by
  cases found with
  | none => exact ⟨rfl, rfl, rfl, rfl, rfl, rfl⟩
  | some p =>
    unfold gapStore
    dsimp only
    split_ifs <;> exact ⟨rfl, rfl, rfl, rfl, rfl, rfl⟩

/-- How the counters are when the loop goes on, and when it is left for the next number of vehicles. -/
def GapTurned (a : GapArgs) (m : ℕ) (s : GapSt) : GapOut → Prop
  | .again t => GapBnd a m t ∧ gapMeasure a m t < gapMeasure a m s
  | .next t => t.incK = 0 ∧ t.tries ≤ 3
  | _ => True

theorem gapTurn_turned {a : GapArgs} {m : ℕ} {s t : GapSt} {take : Bool} (hb : GapBnd a m s)
    (hm : GapMoved m s t take) : GapTurned a m s (gapTurn a take t) := by
  have h0 := hb.trial
  unfold gapTurn
  dsimp only
  cases take with
  | false =>
    simp only [Bool.false_eq_true, if_false, Bool.false_and]
    rw [if_neg (by rw [hm.trial]; omega)]
    refine ⟨⟨by rw [hm.trial]; exact h0, hm.incK, hm.tries⟩, ?_⟩
    have := hm.less rfl
    unfold gapMeasure
    rw [hm.trial]
    omega
  | true =>
    simp only [if_true, Bool.true_and]
    by_cases c1 : (!a.find_optimal_seeds) = true
    · rw [if_pos c1]
      exact ⟨rfl, hm.tries⟩
    · rw [if_neg c1]
      by_cases c2 : t.trial + 1 = a.N
      · rw [if_pos c2]
        exact ⟨rfl, hm.tries⟩
      · rw [if_neg c2]
        have e : t.trial = s.trial := hm.trial
        refine ⟨⟨?_, ?_, hm.tries⟩, ?_⟩
        · show t.trial + 1 < a.N; omega
        · show 0 ≤ m; omega
        · unfold gapMeasure
          show (a.N - (t.trial + 1)) * (4 * (m + 1)) + (m - 0) * 4 + (3 - t.tries) < _
          have h3 : a.N - s.trial = (a.N - (t.trial + 1)) + 1 := by omega
          rw [h3, Nat.add_mul]
          omega

theorem gapIter_turned {a : GapArgs} {m K : ℕ} {s : GapSt} (hb : GapBnd a m s) {o : GapOut}
    (h : gapIter a m K s = .ok o) : GapTurned a m s o := by
  unfold gapIter at h
  cases h1 : gapProgramme a (K + s.incK) s with
  | error e => rw [h1] at h; cases h
  | ok M =>
    rw [h1] at h
    dsimp only at h
    cases h2 : solve_gap a.opt a.rlx s.calls a.N M with
    | interrupted => rw [h2] at h; cases h; trivial
    | gurobiError =>
      rw [h2] at h
      dsimp only at h
      cases h3 : gapTimeout a m K { s with calls := s.calls + 1 } with
      | none => rw [h3] at h; cases h; trivial
      | some p =>
        obtain ⟨t, take⟩ := p
        rw [h3] at h
        dsimp only at h
        have hm : GapMoved m s t take := by
          obtain ⟨a1, a2, a3, a4⟩ := gapTimeout_moved (s := { s with calls := s.calls + 1 }) ⟨hb.trial, hb.incK, hb.tries⟩ h3
          exact ⟨a1, a2, a3, a4⟩
        split_ifs at h
        · cases h; trivial
        · cases h; exact gapTurn_turned hb hm
    | ok as =>
      rw [h2] at h
      dsimp only at h
      split_ifs at h
      · cases h; trivial
      · cases h
        refine gapTurn_turned hb ?_
        obtain ⟨a1, a2, a3, a4⟩ := gapAdapt_moved (a := a) (K := K) (b := (gapTrial a.N a.d a.C a.L a.tsp as).isSome)
          (s := { s with calls := s.calls + 1, corrective := s.corrective || (as.getD []).isEmpty }) hb.incK hb.tries
        obtain ⟨b1, b2, b3, -⟩ := gapStore_counters a (gapTrial a.N a.d a.C a.L a.tsp as)
          (gapAdapt a m K (gapTrial a.N a.d a.C a.L a.tsp as).isSome
            { s with calls := s.calls + 1, corrective := s.corrective || (as.getD []).isEmpty }).1
        exact ⟨b1.trans a1, b2 ▸ a2, b3 ▸ a3, fun hc => by rw [b2, b3]; exact a4 hc⟩

/-- The seed loop ends. -/
theorem gapSeedLoop_ends {a : GapArgs} {m K : ℕ} : ∀ (n : ℕ) (s : GapSt), GapBnd a m s → gapMeasure a m s < n →
    ∃ r, (∀ fuel ≥ n, gapSeedLoop a m K fuel s = r) ∧ r ≠ .ok none ∧
      (∀ t, r ≠ .ok (some (.again t))) ∧ ∀ t, r = .ok (some (.next t)) → t.incK = 0 ∧ t.tries ≤ 3 := by
  intro n
  induction n with
  | zero => intro s _ h; omega
  | succ n ih =>
    intro s hb hm
    have step : ∀ fuel ≥ n + 1, ∃ f, fuel = f + 1 ∧ n ≤ f := fun fuel hf => ⟨fuel - 1, by omega, by omega⟩
    cases h1 : gapIter a m K s with
    | error e =>
      refine ⟨.error e, fun fuel hf => ?_, by simp, by simp, by simp⟩
      obtain ⟨f, rfl, -⟩ := step fuel hf
      simp only [gapSeedLoop, h1]
    | ok o =>
      have ht := gapIter_turned hb h1
      cases o with
      | again t =>
        obtain ⟨r, hr, h2⟩ := ih t ht.1 (by have := ht.2; omega)
        refine ⟨r, fun fuel hf => ?_, h2⟩
        obtain ⟨f, rfl, hf'⟩ := step fuel hf
        simp only [gapSeedLoop, h1]
        exact hr f hf'
      | next t =>
        refine ⟨.ok (some (.next t)), fun fuel hf => ?_, by simp, by simp, fun t' e => ?_⟩
        · obtain ⟨f, rfl, -⟩ := step fuel hf
          simp only [gapSeedLoop, h1]
        · cases e; exact ht
      | interrupted t =>
        refine ⟨.ok (some (.interrupted t)), fun fuel hf => ?_, by simp, by simp, by simp⟩
        obtain ⟨f, rfl, -⟩ := step fuel hf
        simp only [gapSeedLoop, h1]
      | gurobiError t =>
        refine ⟨.ok (some (.gurobiError t)), fun fuel hf => ?_, by simp, by simp, by simp⟩
        obtain ⟨f, rfl, -⟩ := step fuel hf
        simp only [gapSeedLoop, h1]

/-- The loop over the number of vehicles ends. -/
theorem gapKLoop_ends {a : GapArgs} (hN : 1 ≤ a.N) {m : ℕ} : ∀ (Ks : List ℕ) (s : GapSt), s.incK = 0 → s.tries ≤ 3 →
    ∃ F r, (∀ fuel ≥ F, gapKLoop a m fuel Ks s = r) ∧ r ≠ .ok none := by
  intro Ks
  induction Ks with
  | nil => intro s _ _; exact ⟨0, _, fun _ _ => rfl, by simp⟩
  | cons K Ks ih =>
    intro s h1 h2
    obtain ⟨G, hG⟩ : ∃ G, G = gapMeasure a m { s with found := false, trial := 0 } + 1 := ⟨_, rfl⟩
    obtain ⟨r, hr, r1, r2, r3⟩ := gapSeedLoop_ends (a := a) (m := m) (K := K) G { s with found := false, trial := 0 }
      ⟨hN, by show s.incK ≤ m; omega, h2⟩ (by omega)
    cases r with
    | error e =>
      exact ⟨G, .error e, fun fuel hf => by simp only [gapKLoop, hr fuel hf], by simp⟩
    | ok o =>
      cases o with
      | none => exact absurd rfl r1
      | some o =>
        cases o with
        | again t => exact absurd rfl (r2 t)
        | interrupted t =>
          exact ⟨G, .ok (some (.interrupted t.best_sol t.log)), fun fuel hf => by simp only [gapKLoop, hr fuel hf], by simp⟩
        | gurobiError t =>
          exact ⟨G, .ok (some (.gurobiError t.log)), fun fuel hf => by simp only [gapKLoop, hr fuel hf], by simp⟩
        | next t =>
          by_cases hs : gapStop a t = true
          · exact ⟨G, .ok (some (.ret t.best_sol t.log)), fun fuel hf => by
              simp only [gapKLoop, hr fuel hf, if_pos hs], by simp⟩
          · obtain ⟨h3, h4⟩ := r3 t rfl
            obtain ⟨F, r', hF, h5⟩ := ih t h3 h4
            exact ⟨max G F, r', fun fuel hf => by
              simp only [gapKLoop, hr fuel (le_trans (le_max_left _ _) hf), if_neg hs]
              exact hF fuel (le_trans (le_max_right _ _) hf), h5⟩

/-! ## The result -/

/-- What the result says. -/
def GapResInv (D : ℕ → ℕ → ℚ) (mk : Bool) (P : List ℕ → Prop) : GapResult → Prop
  | .ret b l => (∀ x ∈ l, P x) ∧ (b = none → l = []) ∧ ∀ sol, b = some sol → sol ∈ l ∧ ∀ x ∈ l, AsGood D mk sol x
  | .interrupted b l =>
    (∀ x ∈ l, P x) ∧ (b = none → l = []) ∧ ∀ sol, b = some sol → sol ∈ l ∧ ∀ x ∈ l, AsGood D mk sol x
  | .gurobiError l => ∀ x ∈ l, P x

theorem gapKLoop_inv {a : GapArgs} {P : List ℕ → Prop} {m fuel : ℕ}
    (hP : ∀ K s M c as sol f k, gapProgramme a (K + s.incK) s = .ok M → solve_gap a.opt a.rlx c a.N M = .ok as →
      gapTrial a.N a.d a.C a.L a.tsp as = some (sol, f, k) → P sol ∧ f = cost a.D sol ∧ k = (blocks sol).length) :
    ∀ (Ks : List ℕ) {s : GapSt}, GapInv a.D a.minimize_K P s → ∀ {r : GapResult},
    gapKLoop a m fuel Ks s = .ok (some r) → GapResInv a.D a.minimize_K P r := by
  have fin : ∀ {t : GapSt}, GapInv a.D a.minimize_K P t → (∀ x ∈ t.log, P x) ∧ (t.best_sol = none → t.log = []) ∧
      ∀ sol, t.best_sol = some sol → sol ∈ t.log ∧ ∀ x ∈ t.log, AsGood a.D a.minimize_K sol x := by
    intro t ht
    exact ⟨ht.good, fun h => (ht.none h).1, fun sol h => ⟨(ht.some sol h).1, (ht.some sol h).2.2.2⟩⟩
  intro Ks
  induction Ks with
  | nil => intro s hi r h; cases h; exact fin hi
  | cons K Ks ih =>
    intro s hi r h
    simp only [gapKLoop] at h
    cases h1 : gapSeedLoop a m K fuel { s with found := false, trial := 0 } with
    | error e => rw [h1] at h; cases h
    | ok o =>
      rw [h1] at h
      cases o with
      | none => cases h
      | some o =>
        have ho := gapSeedLoop_inv (hP K) fuel (gapInv_same hi (t := { s with found := false, trial := 0 })
          ⟨rfl, rfl, rfl, rfl⟩) h1
        cases o with
        | again t => cases h
        | interrupted t => cases h; exact fin ho
        | gurobiError t => cases h; exact ho.good
        | next t =>
          dsimp only at h
          split_ifs at h
          · cases h; exact fin ho
          · exact ih ho h

end Verif
