import Verif.Lemmas.GapLoop

/-! # The number of vehicles of the trials of the generalized assignment heuristic (C58) -/

namespace Verif
open Spec

/-- By how many vehicles a trial may exceed the number of the outer loop. -/
def gapMore (a : GapArgs) (m K : ℕ) : ℕ := if a.increase_K then m - K else 0

theorem gapMore_step {a : GapArgs} {m K i : ℕ} (h : (a.increase_K && decide (K + i + 1 ≤ m)) = true) : i + 1 ≤ gapMore a m K := by
  rw [Bool.and_eq_true, decide_eq_true_eq] at h
  unfold gapMore
  rw [if_pos h.1]
  omega

theorem gapTimeout_more {a : GapArgs} {m K : ℕ} {s t : GapSt} {b : Bool} (hs : s.incK ≤ gapMore a m K)
    (h : gapTimeout a m K s = some (t, b)) : t.incK ≤ gapMore a m K := by
  unfold gapTimeout at h
  dsimp only at h
  by_cases h1 : (a.adapts && decide (s.tries < 3)) = true
  · rw [if_pos h1] at h; cases h; exact hs
  rw [if_neg h1] at h
  by_cases h2 : (a.increase_K && decide (K + s.incK + 1 ≤ m)) = true
  · rw [if_pos h2] at h
    by_cases h3 : (a.adapts && decide (3 ≤ s.tries)) = true
    · rw [if_pos h3] at h; cases h; exact gapMore_step h2
    · rw [if_neg h3] at h; cases h; exact gapMore_step h2
  rw [if_neg h2] at h
  split_ifs at h
  cases h; exact hs

theorem gapAdapt_more {a : GapArgs} {m K : ℕ} {s : GapSt} (b : Bool) (hs : s.incK ≤ gapMore a m K) :
    (gapAdapt a m K b s).1.incK ≤ gapMore a m K := by
  unfold gapAdapt
  dsimp only
  have hx : ∀ {b : Bool}, (b && (a.increase_K && decide (K + s.incK + 1 ≤ m))) = true → s.incK + 1 ≤ gapMore a m K := by
    intro b h
    rw [Bool.and_eq_true] at h
    exact gapMore_step h.2
  split_ifs with h1 h2 h3 h3
  · exact hx h3
  · exact hs
  · exact hs
  · exact hx h3
  · exact hs

theorem gapStore_incK (a : GapArgs) (f : Option (List ℕ × ℚ × ℕ)) (s : GapSt) : (gapStore a f s).incK = s.incK := by
  cases f with
  | none => rfl
  | some p =>
    obtain ⟨sol, x, K⟩ := p
    simp only [gapStore]
    split_ifs <;> rfl

theorem gapTurn_more {a : GapArgs} {s : GapSt} {B : ℕ} (b : Bool) (hs : s.incK ≤ B) : (gapTurn a b s).st.incK ≤ B := by
  unfold gapTurn
  dsimp only
  split_ifs <;> first | exact hs | exact Nat.zero_le _

theorem gapIter_more {a : GapArgs} {m K : ℕ} {s : GapSt} (hs : s.incK ≤ gapMore a m K) {o : GapOut}
    (h : gapIter a m K s = .ok o) : o.st.incK ≤ gapMore a m K := by
  unfold gapIter at h
  cases h1 : gapProgramme a (K + s.incK) s with
  | error e => rw [h1] at h; cases h
  | ok M =>
    rw [h1] at h
    dsimp only at h
    cases h2 : solve_gap a.opt a.rlx s.calls a.N M with
    | interrupted => rw [h2] at h; cases h; exact hs
    | gurobiError =>
      rw [h2] at h
      dsimp only at h
      cases h3 : gapTimeout a m K { s with calls := s.calls + 1 } with
      | none => rw [h3] at h; cases h; exact hs
      | some p =>
        obtain ⟨t, take⟩ := p
        rw [h3] at h
        dsimp only at h
        have ht := gapTimeout_more (s := { s with calls := s.calls + 1 }) hs h3
        split_ifs at h
        · cases h; exact ht
        · cases h; exact gapTurn_more take ht
    | ok as =>
      rw [h2] at h
      dsimp only at h
      have ht : (gapStore a (gapTrial a.N a.d a.C a.L a.tsp as) (gapAdapt a m K (gapTrial a.N a.d a.C a.L a.tsp as).isSome
          { s with calls := s.calls + 1, corrective := s.corrective || (as.getD []).isEmpty }).1).incK ≤ gapMore a m K := by
        rw [gapStore_incK]
        exact gapAdapt_more _ hs
      split_ifs at h
      · cases h; exact ht
      · cases h; exact gapTurn_more _ ht

theorem gapSeedLoop_more {a : GapArgs} {P : List ℕ → Prop} {m K : ℕ}
    (hP : ∀ s M c as sol f k, s.incK ≤ gapMore a m K → gapProgramme a (K + s.incK) s = .ok M →
      solve_gap a.opt a.rlx c a.N M = .ok as →
      gapTrial a.N a.d a.C a.L a.tsp as = some (sol, f, k) → P sol ∧ f = cost a.D sol ∧ k = (blocks sol).length) :
    ∀ (fuel : ℕ) {s : GapSt}, GapInv a.D a.minimize_K P s → s.incK ≤ gapMore a m K → ∀ {o : GapOut},
    gapSeedLoop a m K fuel s = .ok (some o) → GapInv a.D a.minimize_K P o.st := by
  intro fuel
  induction fuel with
  | zero => intro s _ _ o h; cases h
  | succ fuel ih =>
    intro s hi hs o h
    simp only [gapSeedLoop] at h
    cases h1 : gapIter a m K s with
    | error e => rw [h1] at h; cases h
    | ok o1 =>
      rw [h1] at h
      have h2 := gapIter_inv' (fun M c as sol f k => hP s M c as sol f k hs) hi h1
      have h3 := gapIter_more hs h1
      cases o1 with
      | again t => exact ih h2 h3 h
      | next t => cases h; exact h2
      | interrupted t => cases h; exact h2
      | gurobiError t => cases h; exact h2

/-- With a single number of vehicles all the solutions found have at most the routes a trial may have. -/
theorem gapKLoop_more {a : GapArgs} (h : GapHyp a) {m fuel K : ℕ} {s : GapSt}
    (hi : GapInv a.D a.minimize_K (GapP a (K + gapMore a m K)) s) (hs : s.incK = 0) {r : GapResult}
    (hr : gapKLoop a m fuel [K] s = .ok (some r)) : GapResInv a.D a.minimize_K (GapP a (K + gapMore a m K)) r := by
  have fin : ∀ {t : GapSt}, GapInv a.D a.minimize_K (GapP a (K + gapMore a m K)) t →
      (∀ x ∈ t.log, GapP a (K + gapMore a m K) x) ∧ (t.best_sol = none → t.log = []) ∧
      ∀ sol, t.best_sol = some sol → sol ∈ t.log ∧ ∀ x ∈ t.log, AsGood a.D a.minimize_K sol x := by
    intro t ht
    exact ⟨ht.good, fun h => (ht.none h).1, fun sol h => ⟨(ht.some sol h).1, (ht.some sol h).2.2.2⟩⟩
  simp only [gapKLoop] at hr
  cases h1 : gapSeedLoop a m K fuel { s with found := false, trial := 0 } with
  | error e => rw [h1] at hr; cases hr
  | ok o =>
    rw [h1] at hr
    cases o with
    | none => cases hr
    | some o =>
      have ho := gapSeedLoop_more (P := GapP a (K + gapMore a m K)) (m := m) (K := K) (fun s M c as sol f k hb hM hs hf => by
        obtain ⟨⟨vs, hg⟩, h2, h3⟩ := gapTrial_good h hM hs hf
        exact ⟨⟨vs, { hg with few := le_trans hg.few (by omega) }⟩, h2, h3⟩) fuel
        (gapInv_same hi (t := { s with found := false, trial := 0 }) ⟨rfl, rfl, rfl, rfl⟩)
        (by show s.incK ≤ _; omega) h1
      cases o with
      | again t => cases hr
      | interrupted t => cases hr; exact fin ho
      | gurobiError t => cases hr; exact ho.good
      | next t =>
        dsimp only at hr
        split_ifs at hr
        · cases hr; exact fin ho
        · cases hr; exact fin ho

end Verif
