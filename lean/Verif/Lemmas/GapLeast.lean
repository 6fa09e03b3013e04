import Verif.Lemmas.GapCount
import Verif.Lemmas.GapLoop
import Mathlib.Algebra.Order.Archimedean.Basic
import Mathlib.Tactic.FieldSimp

/-! # Lemmas on the generalised assignment heuristic: errors, seeds, the number of vehicles -/

namespace Verif

open Spec

/-! ## Exceptions -/

theorem gapAllCosts_ok {N : ℕ} {D : ℕ → ℕ → ℚ} {S : List (ℕ → ℚ)} : ∀ {ks : List ℕ}, (∀ k ∈ ks, k < S.length + 1) →
    ∃ cs, gapAllCosts N D S ks = .ok cs := by
  intro ks
  induction ks with
  | nil => intro _; exact ⟨[], rfl⟩
  | cons k ks ih =>
    intro h
    obtain ⟨cs, hc⟩ := ih fun x hx => h x (List.mem_cons_of_mem _ hx)
    have hk : k < (D 0 :: S).length := by simpa using h k List.mem_cons_self
    have : gapRow D S k = .ok (D 0 :: S)[k] := by
      unfold gapRow idx
      rw [List.getElem?_eq_getElem hk]
    simp only [gapAllCosts, this, hc]
    exact ⟨_, rfl⟩

theorem gapSeedRows_length (st : Option ℚ) (b : Bool) (S : List (ℕ → ℚ)) : (gapSeedRows st b S).length = S.length := by
  unfold gapSeedRows
  dsimp only
  split_ifs <;> simp

theorem gapProgramme_ok {a : GapArgs} {hi : ℕ} (h : SeedsOk a.N hi a.seeds) {K : ℕ} (hK : 1 ≤ K) (hK' : K ≤ hi) {s : GapSt}
    (ht : s.trial < a.N) : ∃ M, gapProgramme a K s = .ok M := by
  obtain ⟨S, h1, h2⟩ := h K s.trial hK hK' ht
  obtain ⟨cs, h3⟩ := gapAllCosts_ok (N := a.N) (D := a.D) (S := gapSeedRows a.st a.int_dists S) (ks := List.range K)
    (fun k hk => by rw [gapSeedRows_length]; have := List.mem_range.1 hk; omega)
  simp only [gapProgramme, h1, h3]
  exact ⟨_, rfl⟩

theorem exceeds_falsy {lim : Option ℚ} {eps x : ℚ} (h : truthy lim = false) : exceeds lim eps x = false := by
  cases lim with
  | none => rfl
  | some c =>
    simp only [truthy, bne_eq_false_iff_eq] at h
    simp [exceeds, h]

theorem gapRoutes_noL {d : ℕ → ℚ} {C L : Option ℚ} {tsp : Router} (hL : truthy L = false) :
    ∀ (us : List (List ℕ)) (t : GapTry), t.gapInf = false → t.lInf = false →
    (gapRoutes d C L tsp us t).gapInf = false ∧ (gapRoutes d C L tsp us t).lInf = false := by
  intro us
  induction us with
  | nil => intro t h1 h2; exact ⟨h1, h2⟩
  | cons u us ih =>
    intro t h1 h2
    by_cases hu : u = []
    · simp only [gapRoutes, if_pos hu]; exact ih t h1 h2
    · simp only [gapRoutes, if_neg hu, hL, Bool.false_and, Bool.false_eq_true, if_false, exceeds_falsy hL]
      exact ih _ h1 h2

theorem gapTrial_noL {N : ℕ} {d : ℕ → ℚ} {C L : Option ℚ} {tsp : Router} (hL : truthy L = false)
    {as : Option (List (List ℕ))} : (gapTrial N d C L tsp as).isSome = !(as.getD []).isEmpty := by
  cases as with
  | none => rfl
  | some as =>
    cases as with
    | nil => rfl
    | cons u us =>
      obtain ⟨h1, h2⟩ := gapRoutes_noL (d := d) (C := C) (tsp := tsp) hL (u :: us) ⟨[0], 0, 0, false, false, []⟩ rfl rfl
      simp only [gapTrial, h1, h2, hL, Bool.not_false, Bool.and_false, Bool.false_and, Bool.or_false, Bool.and_true,
        if_true, Option.isSome_some, Option.getD_some, List.isEmpty_cons]

/-- What the tries tell about the message. -/
def GapTold (a : GapArgs) (s : GapSt) : Prop := a.adapts = true → 3 ≤ s.tries → s.corrective = true

theorem gapTurn_told {a : GapArgs} {take : Bool} {s : GapSt} (h : GapTold a s) : GapTold a (gapTurn a take s).st := by
  unfold gapTurn
  dsimp only
  split_ifs <;> exact h

theorem gapIter_ok {a : GapArgs} {B : ℕ} (hs : SeedsOk a.N B a.seeds) (hq : GapQuiet a) {m K : ℕ} (hK : 1 ≤ K) {s : GapSt}
    (hB : K + s.incK ≤ B)
    (hb : s.trial < a.N) (ht : GapTold a s) :
    ∃ o, gapIter a m K s = .ok o ∧ GapTold a o.st := by
  obtain ⟨M, hM⟩ := gapProgramme_ok hs (K := K + s.incK) (by omega) hB hb
  unfold gapIter
  rw [hM]
  dsimp only
  cases h2 : solve_gap a.opt a.rlx s.calls a.N M with
  | interrupted => exact ⟨_, rfl, ht⟩
  | gurobiError =>
    dsimp only
    cases h3 : gapTimeout a m K { s with calls := s.calls + 1 } with
    | none => exact ⟨_, rfl, ht⟩
    | some p =>
      obtain ⟨t, take⟩ := p
      dsimp only
      have hc : (a.adapts = true → t.corrective = true) := by
        intro ha
        unfold gapTimeout at h3
        rw [ha] at h3
        simp only [Bool.true_and] at h3
        by_cases c1 : s.tries < 3
        · rw [if_pos (by simpa using c1)] at h3; cases h3; rfl
        · have c0 : 3 ≤ s.tries := by omega
          rw [if_neg (by simpa using c0)] at h3
          split_ifs at h3
          · cases h3; rfl
          · cases h3; rfl
          · cases h3; exact ht ha c0
      have hmsg : gapMessage a false t = false := by
        rcases hq with h | h | h
        · simp [gapMessage, h]
        · simp [gapMessage, hc h]
        · exfalso
          unfold solve_gap at h2
          cases h4 : a.opt s.calls M with
          | timeLimit => exact h.2 _ _ h4
          | optimal Y => rw [h4] at h2; cases h2
          | interrupted => rw [h4] at h2; cases h2
          | other => rw [h4] at h2; cases h2
          | infeasible =>
            rw [h4] at h2
            obtain ⟨cs, rfl, -⟩ := gapProgramme_eq hM
            simp only [h.1, Bool.false_eq_true, if_false] at h2
            cases h2
      rw [hmsg]
      simp only [Bool.false_eq_true, if_false]
      split_ifs
      · exact ⟨_, rfl, fun ha _ => hc ha⟩
      · exact ⟨_, rfl, gapTurn_told fun ha _ => hc ha⟩
  | ok as =>
    dsimp only
    obtain ⟨b1, b2, b3, b4, -, -⟩ := gapStore_counters a (gapTrial a.N a.d a.C a.L a.tsp as)
      (gapAdapt a m K (gapTrial a.N a.d a.C a.L a.tsp as).isSome
        { s with calls := s.calls + 1, corrective := s.corrective || (as.getD []).isEmpty }).1
    have hc : a.adapts = true → (gapAdapt a m K (gapTrial a.N a.d a.C a.L a.tsp as).isSome
        { s with calls := s.calls + 1, corrective := s.corrective || (as.getD []).isEmpty }).1.corrective = true := by
      intro ha
      unfold gapAdapt
      rw [if_pos ha]
      dsimp only
      split_ifs <;> rfl
    have hmsg : gapMessage a (gapTrial a.N a.d a.C a.L a.tsp as).isSome (gapStore a (gapTrial a.N a.d a.C a.L a.tsp as)
        (gapAdapt a m K (gapTrial a.N a.d a.C a.L a.tsp as).isSome
        { s with calls := s.calls + 1, corrective := s.corrective || (as.getD []).isEmpty }).1) = false := by
      unfold gapMessage
      rw [b4]
      rcases hq with h | h | h
      · simp [h]
      · simp [hc h]
      · have e : (gapTrial a.N a.d a.C a.L a.tsp as).isSome = !(as.getD []).isEmpty := gapTrial_noL h.1
        cases he : (as.getD []).isEmpty
        · simp [e, he]
        · have : (gapAdapt a m K (gapTrial a.N a.d a.C a.L a.tsp as).isSome
              { s with calls := s.calls + 1, corrective := s.corrective || true }).1.corrective = true := by
            unfold gapAdapt
            dsimp only
            split_ifs <;> simp
          rw [this]
          simp
    rw [hmsg]
    simp only [Bool.false_eq_true, if_false]
    have hto : GapTold a (gapStore a (gapTrial a.N a.d a.C a.L a.tsp as)
        (gapAdapt a m K (gapTrial a.N a.d a.C a.L a.tsp as).isSome
        { s with calls := s.calls + 1, corrective := s.corrective || (as.getD []).isEmpty }).1) := by
      intro ha _
      rw [b4]
      exact hc ha
    split_ifs
    · exact ⟨_, rfl, hto⟩
    · exact ⟨_, rfl, gapTurn_told hto⟩

theorem gapSeedLoop_ok {a : GapArgs} {B : ℕ} (hs : SeedsOk a.N B a.seeds) (hq : GapQuiet a) {m K : ℕ} (hK : 1 ≤ K)
    (hB : K + gapMore a m K ≤ B) : ∀ (fuel : ℕ) {s : GapSt}, s.incK ≤ gapMore a m K → GapBnd a m s → GapTold a s → ∃ o, gapSeedLoop a m K fuel s = .ok o ∧
      ∀ p, o = some p → GapTold a p.st ∧ ∀ t, p = .next t → t.incK = 0 ∧ t.tries ≤ 3 := by
  intro fuel
  induction fuel with
  | zero => intro s _ _ _; exact ⟨none, rfl, by simp⟩
  | succ fuel ih =>
    intro s hi hb ht
    obtain ⟨o, ho, h1⟩ := gapIter_ok hs hq (m := m) hK (by omega) hb.trial ht
    have h3 := gapIter_more hi ho
    have h2 := gapIter_turned hb ho
    simp only [gapSeedLoop, ho]
    cases o with
    | again t => exact ih h3 h2.1 h1
    | next t => exact ⟨_, rfl, fun p e => by cases e; exact ⟨h1, fun t' e => by cases e; exact h2⟩⟩
    | interrupted t => exact ⟨_, rfl, fun p e => by cases e; exact ⟨h1, fun t' e => by cases e⟩⟩
    | gurobiError t => exact ⟨_, rfl, fun p e => by cases e; exact ⟨h1, fun t' e => by cases e⟩⟩

theorem gapKLoop_ok {a : GapArgs} (hN : 1 ≤ a.N) {B : ℕ} (hs : SeedsOk a.N B a.seeds) (hq : GapQuiet a) {m fuel : ℕ} :
    ∀ (Ks : List ℕ), (∀ K ∈ Ks, 1 ≤ K ∧ K + gapMore a m K ≤ B) → ∀ {s : GapSt}, s.incK = 0 → s.tries ≤ 3 → GapTold a s →
    ∃ o, gapKLoop a m fuel Ks s = .ok o := by
  intro Ks
  induction Ks with
  | nil => intro _ s _ _ _; exact ⟨_, rfl⟩
  | cons K Ks ih =>
    intro hK s h0 h3 ht
    obtain ⟨o, ho, h1⟩ := gapSeedLoop_ok hs hq (m := m) (hK K List.mem_cons_self).1 (hK K List.mem_cons_self).2 fuel
      (s := { s with found := false, trial := 0 }) (by show s.incK ≤ _; omega) ⟨hN, by show s.incK ≤ m; omega, h3⟩ ht
    simp only [gapKLoop, ho]
    cases o with
    | none => exact ⟨_, rfl⟩
    | some o =>
      cases o with
      | again t => exact ⟨_, rfl⟩
      | interrupted t => exact ⟨_, rfl⟩
      | gurobiError t => exact ⟨_, rfl⟩
      | next t =>
        dsimp only
        obtain ⟨h4, h5⟩ := h1 _ rfl
        obtain ⟨h6, h7⟩ := h5 t rfl
        split_ifs
        · exact ⟨_, rfl⟩
        · exact ih (fun k hk => hK k (List.mem_cons_of_mem _ hk)) h6 h7 h4

/-! ## The message if the number of vehicles may be increased -/

/-- The cost of the best solution is set with it. -/
def GapPaired (s : GapSt) : Prop := s.best_sol = none → s.best_f = none

theorem gapStore_paired {a : GapArgs} {found : Option (List ℕ × ℚ × ℕ)} {s : GapSt} (h : GapPaired s) :
    GapPaired (gapStore a found s) ∧ (found.isSome = true → (gapStore a found s).best_sol.isSome = true) := by
  cases found with
  | none => exact ⟨h, by simp⟩
  | some p =>
    obtain ⟨sol, f, K⟩ := p
    unfold gapStore
    dsimp only
    by_cases hb : is_better_sol s.best_f s.best_K (some f) (some (K : ℚ)) a.minimize_K = true
    · rw [if_pos hb]
      exact ⟨fun e => by simp at e, fun _ => rfl⟩
    · rw [if_neg hb]
      refine ⟨h, fun _ => ?_⟩
      show s.best_sol.isSome = true
      cases hn : s.best_sol with
      | some => rfl
      | none => rw [h hn] at hb; exact absurd rfl hb

theorem gapTurn_kept {a : GapArgs} {take : Bool} {s t : GapSt} (h : gapTurn a take s = .again t ∨ gapTurn a take s = .next t) :
    t.best_sol = s.best_sol ∧ t.best_f = s.best_f ∧ t.corrective = s.corrective ∧ (s.incK = 0 → t.incK = 0) := by
  unfold gapTurn at h
  dsimp only at h
  split_ifs at h <;> rcases h with h | h <;> cases h <;> exact ⟨rfl, rfl, rfl, fun e => by first | rfl | exact e⟩

theorem gapIter_corrective {a : GapArgs} {m K : ℕ} {s : GapSt} {o : GapOut} (h : gapIter a m K s = .ok o)
    (hc : s.corrective = true) : ∀ t, (o = .again t ∨ o = .next t) → t.corrective = true := by
  intro t ht
  unfold gapIter at h
  split at h
  · cases h
  · dsimp only at h
    split at h
    · cases h; rcases ht with e | e <;> cases e
    · split at h
      · cases h; rcases ht with e | e <;> cases e
      · rename_i t1 take h3
        split_ifs at h
        · cases h; rcases ht with e | e <;> cases e
        · cases h
          rw [(gapTurn_kept ht).2.2.1]
          unfold gapTimeout at h3
          dsimp only at h3
          split_ifs at h3 <;> cases h3 <;> first | rfl | exact hc
    · split_ifs at h
      · cases h; rcases ht with e | e <;> cases e
      · cases h
        rw [(gapTurn_kept ht).2.2.1, (gapStore_counters a _ _).2.2.2.1]
        unfold gapAdapt
        dsimp only
        split_ifs <;> simp [hc]

theorem gapIter_inc {a : GapArgs} {B : ℕ} (hs : SeedsOk a.N B a.seeds) (hinc : a.increase_K = true) (hna : a.adapts = false)
    {m K : ℕ} (hK : 1 ≤ K) {s : GapSt} (hB : K + s.incK ≤ B) (hb : s.trial < a.N) (hp : GapPaired s)
    (ht : s.corrective = true ∨ (s.incK = 0 ∧ K + 1 ≤ m)) :
    ∃ o, gapIter a m K s = .ok o ∧ ∀ t, (o = .again t ∨ o = .next t) → GapPaired t ∧
      (t.corrective = true ∨ (t.incK = 0 ∧ t.best_sol.isSome = true)) := by
  obtain ⟨M, hM⟩ := gapProgramme_ok hs (K := K + s.incK) (by omega) hB hb
  unfold gapIter
  rw [hM]
  dsimp only
  cases h2 : solve_gap a.opt a.rlx s.calls a.N M with
  | interrupted => exact ⟨_, rfl, fun t e => by rcases e with e | e <;> cases e⟩
  | gurobiError =>
    dsimp only
    cases h3 : gapTimeout a m K { s with calls := s.calls + 1 } with
    | none => exact ⟨_, rfl, fun t e => by rcases e with e | e <;> cases e⟩
    | some p =>
      obtain ⟨t, take⟩ := p
      dsimp only
      have hc : t.corrective = true ∧ GapPaired t := by
        unfold gapTimeout at h3
        rw [hna, hinc] at h3
        simp only [Bool.false_and, Bool.true_and, Bool.false_eq_true, if_false] at h3
        by_cases c1 : K + s.incK + 1 ≤ m
        · rw [if_pos (by simpa using c1)] at h3; cases h3; exact ⟨rfl, hp⟩
        · rw [if_neg (by simpa using c1)] at h3
          split_ifs at h3
          cases h3
          refine ⟨?_, hp⟩
          rcases ht with ht | ⟨h0, h1⟩
          · exact ht
          · omega
      have hmsg : gapMessage a false t = false := by simp [gapMessage, hc.1]
      rw [hmsg]
      simp only [Bool.false_eq_true, if_false]
      split_ifs
      · exact ⟨_, rfl, fun t e => by rcases e with e | e <;> cases e⟩
      · refine ⟨_, rfl, fun t' e => ?_⟩
        obtain ⟨e1, e2, e3, -⟩ := gapTurn_kept e
        exact ⟨fun h => by rw [e2]; exact hc.2 (e1 ▸ h), Or.inl (e3.trans hc.1)⟩
  | ok as =>
    dsimp only
    obtain ⟨b1, b2, b3, b4, -, -⟩ := gapStore_counters a (gapTrial a.N a.d a.C a.L a.tsp as)
      (gapAdapt a m K (gapTrial a.N a.d a.C a.L a.tsp as).isSome
        { s with calls := s.calls + 1, corrective := s.corrective || (as.getD []).isEmpty }).1
    have hc : GapPaired (gapAdapt a m K (gapTrial a.N a.d a.C a.L a.tsp as).isSome
        { s with calls := s.calls + 1, corrective := s.corrective || (as.getD []).isEmpty }).1 ∧
        ((gapAdapt a m K (gapTrial a.N a.d a.C a.L a.tsp as).isSome
          { s with calls := s.calls + 1, corrective := s.corrective || (as.getD []).isEmpty }).1.corrective = true ∨
        ((gapTrial a.N a.d a.C a.L a.tsp as).isSome = true ∧ (gapAdapt a m K (gapTrial a.N a.d a.C a.L a.tsp as).isSome
          { s with calls := s.calls + 1, corrective := s.corrective || (as.getD []).isEmpty }).1.incK = 0)) := by
      unfold gapAdapt
      rw [if_neg (by rw [hna]; simp), hinc]
      dsimp only
      cases hf : (gapTrial a.N a.d a.C a.L a.tsp as).isSome
      · by_cases c1 : K + s.incK + 1 ≤ m
        · rw [if_pos (by simpa using c1)]; exact ⟨hp, Or.inl rfl⟩
        · rw [if_neg (by simpa using c1)]
          refine ⟨hp, Or.inl ?_⟩
          rcases ht with ht | ⟨h0, h1⟩
          · show (s.corrective || _) = true
            rw [ht]; rfl
          · omega
      · rw [if_neg (by simp)]
        refine ⟨hp, ?_⟩
        rcases ht with ht | ⟨h0, h1⟩
        · left
          show (s.corrective || _) = true
          rw [ht]; rfl
        · exact Or.inr ⟨rfl, h0⟩
    obtain ⟨g1, g2⟩ := gapStore_paired (a := a) (found := gapTrial a.N a.d a.C a.L a.tsp as) hc.1
    have hmsg : gapMessage a (gapTrial a.N a.d a.C a.L a.tsp as).isSome (gapStore a (gapTrial a.N a.d a.C a.L a.tsp as)
        (gapAdapt a m K (gapTrial a.N a.d a.C a.L a.tsp as).isSome
        { s with calls := s.calls + 1, corrective := s.corrective || (as.getD []).isEmpty }).1) = false := by
      unfold gapMessage
      rw [b4]
      rcases hc.2 with h | h
      · simp [h]
      · simp [h.1]
    rw [hmsg]
    simp only [Bool.false_eq_true, if_false]
    split_ifs
    · exact ⟨_, rfl, fun t e => by rcases e with e | e <;> cases e⟩
    · refine ⟨_, rfl, fun t' e => ?_⟩
      obtain ⟨e1, e2, e3, e4⟩ := gapTurn_kept e
      refine ⟨fun h => by rw [e2]; exact g1 (e1 ▸ h), ?_⟩
      rcases hc.2 with h | h
      · exact Or.inl (by rw [e3, b4]; exact h)
      · exact Or.inr ⟨e4 (by rw [b2]; exact h.2), by rw [e1]; exact g2 h.1⟩

theorem gapSeedLoop_inc {a : GapArgs} {B : ℕ} (hs : SeedsOk a.N B a.seeds) (hinc : a.increase_K = true) (hna : a.adapts = false)
    {m K : ℕ} (hK : 1 ≤ K) (hB : K + gapMore a m K ≤ B) : ∀ (fuel : ℕ) {s : GapSt}, s.incK ≤ gapMore a m K → GapBnd a m s → GapPaired s →
    (s.corrective = true ∨ (s.incK = 0 ∧ K + 1 ≤ m)) → ∃ o, gapSeedLoop a m K fuel s = .ok o ∧
      ∀ t, o = some (.next t) → t.incK = 0 ∧ t.tries ≤ 3 ∧ GapPaired t ∧ (t.corrective = true ∨ t.best_sol.isSome = true) := by
  intro fuel
  induction fuel with
  | zero => intro s _ _ _ _; exact ⟨none, rfl, by simp⟩
  | succ fuel ih =>
    intro s hi hb hp ht
    obtain ⟨o, ho, h1⟩ := gapIter_inc hs hinc hna (m := m) hK (by omega) hb.trial hp ht
    have h3 := gapIter_more hi ho
    have h2 := gapIter_turned hb ho
    simp only [gapSeedLoop, ho]
    cases o with
    | again t =>
      obtain ⟨g1, g2⟩ := h1 t (Or.inl rfl)
      refine ih h3 h2.1 g1 ?_
      rcases g2 with g2 | g2
      · exact Or.inl g2
      · rcases ht with ht | ht
        · by_cases hc : t.corrective = true
          · exact Or.inl hc
          · exact absurd (gapIter_corrective ho ht t (Or.inl rfl)) hc
        · exact Or.inr ⟨g2.1, ht.2⟩
    | next t =>
      obtain ⟨g1, g2⟩ := h1 t (Or.inr rfl)
      exact ⟨_, rfl, fun t' e => by cases e; exact ⟨h2.1, h2.2, g1, g2.imp id And.right⟩⟩
    | interrupted t => exact ⟨_, rfl, fun t' e => by cases e⟩
    | gurobiError t => exact ⟨_, rfl, fun t' e => by cases e⟩

theorem gapKLoop_inc {a : GapArgs} (hN : 1 ≤ a.N) {B : ℕ} (hs : SeedsOk a.N B a.seeds) (hinc : a.increase_K = true)
    (hna : a.adapts = false) (hmin : a.minimize_K = true) {m fuel : ℕ} :
    ∀ (Ks : List ℕ), (∀ K ∈ Ks, 1 ≤ K ∧ K + gapMore a m K ≤ B) → ∀ {s : GapSt}, s.incK = 0 → s.tries ≤ 3 → GapPaired s →
    (s.corrective = true ∨ ∀ K, Ks.head? = some K → K + 1 ≤ m) → ∃ o, gapKLoop a m fuel Ks s = .ok o := by
  intro Ks
  induction Ks with
  | nil => intro _ s _ _ _ _; exact ⟨_, rfl⟩
  | cons K Ks ih =>
    intro hK s h0 h3 hp ht
    obtain ⟨o, ho, h1⟩ := gapSeedLoop_inc hs hinc hna (m := m) (hK K List.mem_cons_self).1 (hK K List.mem_cons_self).2 fuel
      (s := { s with found := false, trial := 0 }) (by show s.incK ≤ _; omega) ⟨hN, by show s.incK ≤ m; omega, h3⟩ hp
      (ht.imp id fun h => ⟨h0, h K rfl⟩)
    simp only [gapKLoop, ho]
    match o, h1 with
    | none, _ => exact ⟨_, rfl⟩
    | some (.again t), _ => exact ⟨_, rfl⟩
    | some (.interrupted t), _ => exact ⟨_, rfl⟩
    | some (.gurobiError t), _ => exact ⟨_, rfl⟩
    | some (.next t), h1 =>
      dsimp only
      obtain ⟨h5, h6, h7, h8⟩ := h1 t rfl
      by_cases hst : gapStop a t = true
      · rw [if_pos hst]; exact ⟨_, rfl⟩
      · rw [if_neg hst]
        refine ih (fun k hk => hK k (List.mem_cons_of_mem _ hk)) h5 h6 h7 (Or.inl ?_)
        rcases h8 with h | h
        · exact h
        · unfold gapStop at hst
          rw [if_pos hmin] at hst
          exact absurd h hst

/-! ## The bound on the number of vehicles -/

theorem gapLeastL_ends {f : ℚ} {edges : List ℚ} {l : ℚ} (hl : 0 < l) (K : ℕ) :
    ∃ F r, (∀ fuel ≥ F, gapLeastL f edges l fuel K = some r) ∧ K ≤ r ∧
      f + (edges.take (r * 2)).sum ≤ r * l ∧ ∀ k, K ≤ k → k < r → (k : ℚ) * l < f + (edges.take (k * 2)).sum := by
  obtain ⟨B, hB⟩ := exists_nat_ge ((f + edges.sum) / l)
  have hbig : ∀ k, max B edges.length ≤ k → f + (edges.take (k * 2)).sum ≤ k * l := by
    intro k hk
    rw [List.take_of_length_le (by have := le_max_right B edges.length; omega)]
    rw [div_le_iff₀ hl] at hB
    have : (B : ℚ) ≤ k := by exact_mod_cast le_trans (le_max_left _ _) hk
    nlinarith
  have main : ∀ n K, max B edges.length ≤ K + n → ∃ F r, (∀ fuel ≥ F, gapLeastL f edges l fuel K = some r) ∧ K ≤ r ∧
      f + (edges.take (r * 2)).sum ≤ r * l ∧ ∀ k, K ≤ k → k < r → (k : ℚ) * l < f + (edges.take (k * 2)).sum := by
    intro n
    induction n with
    | zero =>
      intro K hK
      refine ⟨1, K, fun fuel hf => ?_, le_refl _, hbig K (by omega), fun k h1 h2 => absurd h2 (by omega)⟩
      obtain ⟨g, rfl⟩ : ∃ g, fuel = g + 1 := ⟨fuel - 1, by omega⟩
      simp only [gapLeastL]
      rw [if_pos (hbig K (by omega))]
    | succ n ih =>
      intro K hK
      by_cases hc : f + (edges.take (K * 2)).sum ≤ K * l
      · refine ⟨1, K, fun fuel hf => ?_, le_refl _, hc, fun k h1 h2 => absurd h2 (by omega)⟩
        obtain ⟨g, rfl⟩ : ∃ g, fuel = g + 1 := ⟨fuel - 1, by omega⟩
        simp only [gapLeastL]
        rw [if_pos hc]
      · obtain ⟨F, r, hF, h1, h2, h3⟩ := ih (K + 1) (by omega)
        refine ⟨F + 1, r, fun fuel hf => ?_, by omega, h2, fun k hk1 hk2 => ?_⟩
        · obtain ⟨g, rfl⟩ : ∃ g, fuel = g + 1 := ⟨fuel - 1, by omega⟩
          simp only [gapLeastL]
          rw [if_neg hc]
          exact hF g (by omega)
        · by_cases he : k = K
          · subst he; simpa using hc
          · exact h3 k (by omega) hk2
  exact main (max B edges.length) K (by omega)

theorem gapRange_ends (a : GapArgs) (K : Option ℕ)
    (h : 0 < K.getD 0 ∨ truthy a.C = true ∨ truthy a.L = false ∨ 0 < a.L.getD 0) :
    ∃ F r, (∀ fuel ≥ F, gapRange fuel a K = r) ∧ r ≠ .ok none := by
  unfold gapRange
  by_cases h1 : 0 < K.getD 0
  · exact ⟨0, _, fun _ _ => by rw [if_pos h1], by simp⟩
  by_cases h2 : truthy a.C = true
  · exact ⟨0, _, fun _ _ => by rw [if_neg h1, if_pos h2], by simp⟩
  by_cases h3 : truthy a.L = true
  · have hl : 0 < a.L.getD 0 := by
      rcases h with h | h | h | h
      · exact absurd h h1
      · exact absurd h h2
      · rw [h3] at h; cases h
      · exact h
    obtain ⟨F, r, hF, -⟩ := gapLeastL_ends (f := (a.tsp (pyRange 1 a.N)).2)
      (edges := pySort (fun x y => decide (x ≤ y)) ((pyRange 1 a.N).map fun i => a.D 0 i)) hl
      ⌈(a.tsp (pyRange 1 a.N)).2 / a.L.getD 0⌉₊
    refine ⟨F, .ok (some (r, a.N - 1)), fun fuel hf => ?_, by simp⟩
    rw [if_neg h1, if_neg h2, if_pos h3]
    dsimp only
    rw [hF fuel hf]
  · exact ⟨0, _, fun _ _ => by rw [if_neg h1, if_neg h2, if_neg h3], by simp⟩

theorem gap_init_ends {a : GapArgs} (hN : 1 ≤ a.N) {K : Option ℕ}
    (h : 0 < K.getD 0 ∨ truthy a.C = true ∨ truthy a.L = false ∨ 0 < a.L.getD 0) (ld pts : Bool) :
    ∃ F r, (∀ fuel ≥ F, gap_init fuel a K ld pts = r) ∧ r ≠ .ok none := by
  unfold gap_init
  by_cases h1 : (ld && !truthy a.C) = true
  · exact ⟨0, _, fun _ _ => by rw [if_pos h1], by simp⟩
  by_cases h2 : (!pts) = true
  · exact ⟨0, _, fun _ _ => by rw [if_neg h1, if_pos h2], by simp⟩
  obtain ⟨F, r, hF, hr⟩ := gapRange_ends a K h
  cases r with
  | error e =>
    exact ⟨F, .error e, fun fuel hf => by rw [if_neg h1, if_neg h2, hF fuel hf], by simp⟩
  | ok o =>
    cases o with
    | none => exact absurd rfl hr
    | some p =>
      obtain ⟨k1, k2⟩ := p
      obtain ⟨G, r, hG, hr⟩ := gapKLoop_ends hN (m := gapMaxInc k1) (pyRange k1 (k2 + 1))
        ⟨none, none, none, 0, 0, if a.adapts then L_MPLR_INIT else L_MPLR_DEFAULT, 0, false, false, 0, []⟩ rfl
        (by show 0 ≤ 3; omega)
      refine ⟨max F G, r, fun fuel hf => ?_, hr⟩
      rw [if_neg h1, if_neg h2, hF fuel (le_trans (le_max_left _ _) hf)]
      exact hG fuel (le_trans (le_max_right _ _) hf)

/-! ## The last seed point -/

theorem gapAllCosts_congr {N : ℕ} {D : ℕ → ℕ → ℚ} {S S' : List (ℕ → ℚ)} : ∀ {ks : List ℕ},
    (∀ k ∈ ks, (D 0 :: S)[k]? = (D 0 :: S')[k]?) → gapAllCosts N D S ks = gapAllCosts N D S' ks := by
  intro ks
  induction ks with
  | nil => intro _; rfl
  | cons k ks ih =>
    intro h
    have h1 : gapRow D S k = gapRow D S' k := by
      unfold gapRow idx
      rw [h k List.mem_cons_self]
    simp only [gapAllCosts, h1, ih fun x hx => h x (List.mem_cons_of_mem _ hx)]

theorem gapSeedRows_get (st : Option ℚ) (b : Bool) {S S' : List (ℕ → ℚ)} {k : ℕ} (h : S[k]? = S'[k]?) :
    (gapSeedRows st b S)[k]? = (gapSeedRows st b S')[k]? := by
  unfold gapSeedRows
  dsimp only
  split_ifs <;> simp [h]

theorem gapProgramme_congr {a : GapArgs} {seeds' : ℕ → ℕ → Py (List (ℕ → ℚ))}
    (h : ∀ K t, (a.seeds K t).map (·.take (K - 1)) = (seeds' K t).map (·.take (K - 1))) (K : ℕ) (s : GapSt) :
    gapProgramme a K s = gapProgramme { a with seeds := seeds' } K s := by
  have hK := h K s.trial
  unfold gapProgramme
  dsimp only
  cases h1 : a.seeds K s.trial with
  | error e =>
    rw [h1] at hK
    cases h2 : seeds' K s.trial with
    | error e' => rw [h2] at hK; cases hK; rfl
    | ok S' => rw [h2] at hK; cases hK
  | ok S =>
    rw [h1] at hK
    cases h2 : seeds' K s.trial with
    | error e' => rw [h2] at hK; cases hK
    | ok S' =>
      rw [h2] at hK
      have he : S.take (K - 1) = S'.take (K - 1) := by
        simpa [Except.map] using hK
      have hc : gapAllCosts a.N a.D (gapSeedRows a.st a.int_dists S) (List.range K) =
          gapAllCosts a.N a.D (gapSeedRows a.st a.int_dists S') (List.range K) := by
        refine gapAllCosts_congr fun k hk => ?_
        cases k with
        | zero => rfl
        | succ k =>
          rw [List.getElem?_cons_succ, List.getElem?_cons_succ]
          refine gapSeedRows_get _ _ ?_
          have hlt : k < K - 1 := by have := List.mem_range.1 hk; omega
          have := congrArg (fun l => l[k]?) he
          simpa [List.getElem?_take, hlt] using this
      dsimp only
      rw [hc]

theorem gapIter_congr {a : GapArgs} {seeds' : ℕ → ℕ → Py (List (ℕ → ℚ))} {st' : Option ℚ} {b : Bool}
    (h : ∀ K s, gapProgramme a K s = gapProgramme { a with seeds := seeds', st := st', int_dists := b } K s) (m K : ℕ) (s : GapSt) :
    gapIter a m K s = gapIter { a with seeds := seeds', st := st', int_dists := b } m K s := by
  unfold gapIter
  rw [h]
  rfl

theorem gapSeedLoop_congr {a : GapArgs} {seeds' : ℕ → ℕ → Py (List (ℕ → ℚ))} {st' : Option ℚ} {b : Bool}
    (h : ∀ K s, gapProgramme a K s = gapProgramme { a with seeds := seeds', st := st', int_dists := b } K s) (m K : ℕ) :
    ∀ (fuel : ℕ) (s : GapSt), gapSeedLoop a m K fuel s =
      gapSeedLoop { a with seeds := seeds', st := st', int_dists := b } m K fuel s := by
  intro fuel
  induction fuel with
  | zero => intro s; rfl
  | succ fuel ih =>
    intro s
    simp only [gapSeedLoop, ← gapIter_congr h]
    cases gapIter a m K s with
    | error e => rfl
    | ok o => cases o <;> simp [ih]

theorem gapKLoop_congr {a : GapArgs} {seeds' : ℕ → ℕ → Py (List (ℕ → ℚ))} {st' : Option ℚ} {b : Bool}
    (h : ∀ K s, gapProgramme a K s = gapProgramme { a with seeds := seeds', st := st', int_dists := b } K s) (m fuel : ℕ) :
    ∀ (Ks : List ℕ) (s : GapSt), gapKLoop a m fuel Ks s =
      gapKLoop { a with seeds := seeds', st := st', int_dists := b } m fuel Ks s := by
  intro Ks
  induction Ks with
  | nil => intro s; rfl
  | cons K Ks ih =>
    intro s
    simp only [gapKLoop, ← gapSeedLoop_congr h, ← ih]
    rfl

theorem gap_init_congr {a : GapArgs} {seeds' : ℕ → ℕ → Py (List (ℕ → ℚ))} {st' : Option ℚ} {b : Bool}
    (h : ∀ K s, gapProgramme a K s = gapProgramme { a with seeds := seeds', st := st', int_dists := b } K s) (fuel : ℕ) (K : Option ℕ)
    (ld pts : Bool) : gap_init fuel a K ld pts =
      gap_init fuel { a with seeds := seeds', st := st', int_dists := b } K ld pts := by
  unfold gap_init
  have hr : gapRange fuel { a with seeds := seeds', st := st', int_dists := b } K = gapRange fuel a K := rfl
  rw [hr]
  simp only [gapKLoop_congr h]
  rfl

/-! ## The least number of vehicles -/

/-- The customers can be given to `k` vehicles. -/
def GapFeas (N : ℕ) (d : ℕ → ℚ) (c : ℚ) (k : ℕ) : Prop :=
  ∃ us : List (List ℕ), us.length = k ∧ us.flatten.Perm (List.range' 1 (N - 1)) ∧ ∀ u ∈ us, demand d u ≤ c

theorem linExpr_mem {d : ℕ → ℚ} {u l : List ℕ} (hu : u.Nodup) (hl : l.Nodup) (hs : ∀ x ∈ u, x ∈ l) :
    linExpr (l.map d) (l.map fun i => decide (i ∈ u)) = demand d u := by
  have hp : u.Perm (l.filter fun i => decide (i ∈ u)) := by
    rw [List.perm_ext_iff_of_nodup hu (hl.filter _)]
    intro x
    simp only [List.mem_filter, decide_eq_true_eq]
    exact ⟨fun h => ⟨hs x h, h⟩, fun h => h.2⟩
  rw [demand_perm d hp]
  clear hp hs hl
  induction l with
  | nil => rfl
  | cons a l ih =>
    have e : linExpr ((a :: l).map d) ((a :: l).map fun i => decide (i ∈ u)) =
        (if a ∈ u then d a else 0) + linExpr (l.map d) (l.map fun i => decide (i ∈ u)) := by
      by_cases ha : a ∈ u <;> simp [linExpr, ha]
    rw [e, ih]
    by_cases ha : a ∈ u
    · rw [if_pos ha, List.filter_cons_of_pos (by simpa using ha)]; rfl
    · rw [if_neg ha, List.filter_cons_of_neg (by simpa using ha), zero_add]

theorem filter_mem_one {us : List (List ℕ)} (hn : us.flatten.Nodup) {x : ℕ} (hx : x ∈ us.flatten) :
    (us.filter fun u => decide (x ∈ u)).length = 1 := by
  induction us with
  | nil => cases hx
  | cons u us ih =>
    rw [List.flatten_cons, List.nodup_append] at hn
    obtain ⟨h1, h2, h3⟩ := hn
    by_cases hu : x ∈ u
    · have h0 : us.filter (fun u => decide (x ∈ u)) = [] := by
        rw [List.filter_eq_nil_iff]
        intro v hv hc
        exact h3 x hu x (List.mem_flatten.2 ⟨v, hv, by simpa using hc⟩) rfl
      rw [List.filter_cons_of_pos (by simpa using hu), h0]; rfl
    · rw [List.filter_cons_of_neg (by simpa using hu)]
      rw [List.flatten_cons, List.mem_append] at hx
      exact ih h2 (hx.resolve_left hu)

/-- The programme has a solution if and only if the customers can be given to the vehicles. -/
theorem gapSat_iff {N : ℕ} {costs : List (List ℚ)} {d : ℕ → ℚ} {c : ℚ} (hc : c ≠ 0) {L : Option ℚ} (hL : truthy L = false)
    {m : ℚ} : (∃ Y, (GapModel.mk costs ((pyRange 1 N).map d) (some c) L m).Sat Y) ↔ GapFeas N d c costs.length := by
  have htr : truthy (some c) = true := by simpa [truthy] using hc
  constructor
  · rintro ⟨Y, hY⟩
    obtain ⟨h1, h2, h3⟩ := gapAssign_hard hY.toHard
    exact ⟨gapAssign N Y, h2, h1, fun u hu => h3 htr u hu⟩
  · rintro ⟨us, h1, h2, h3⟩
    have hnd : us.flatten.Nodup := h2.nodup_iff.2 List.nodup_range'
    refine ⟨us.map fun u => (pyRange 1 N).map fun i => decide (i ∈ u), ⟨⟨by simpa using h1, ?_, ?_, ?_⟩, ?_⟩⟩
    · intro row hr
      obtain ⟨u, -, rfl⟩ := List.mem_map.1 hr
      simp
    · intro _ row hr
      obtain ⟨u, hu, rfl⟩ := List.mem_map.1 hr
      show linExpr ((pyRange 1 N).map d) _ ≤ c
      rw [linExpr_mem (l := pyRange 1 N) ((List.nodup_flatten.1 hnd).1 u hu) List.nodup_range'
        (fun x hx => h2.mem_iff.1 (List.mem_flatten.2 ⟨u, hu, hx⟩))]
      exact h3 u hu
    · intro j hj
      have hj' : j < N - 1 := by simpa [pyRange] using hj
      rw [List.filter_map, List.length_map]
      have : (fun u => decide (((pyRange 1 N).map fun i => decide (i ∈ u))[j]? = some true)) =
          fun u : List ℕ => decide (1 + j ∈ u) := by
        funext u
        have hg : (pyRange 1 N)[j]? = some (1 + j) := by
          unfold pyRange
          rw [List.getElem?_range' hj']
          simp
        rw [List.getElem?_map, hg]
        simp
      rw [show ((fun row : List Bool => decide (row[j]? = some true)) ∘ fun u => (pyRange 1 N).map fun i => decide (i ∈ u)) =
        fun u : List ℕ => decide (1 + j ∈ u) from this]
      exact filter_mem_one hnd (h2.mem_iff.2 (List.mem_range'_1.2 ⟨by omega, by omega⟩))
    · intro h; rw [show truthy L = true from h] at hL; cases hL

theorem demand_flatten_le {d : ℕ → ℚ} {c : ℚ} {us : List (List ℕ)} (h : ∀ u ∈ us, demand d u ≤ c) :
    demand d us.flatten ≤ us.length * c := by
  induction us with
  | nil => simp
  | cons u us ih =>
    have h1 := h u List.mem_cons_self
    have h2 := ih fun v hv => h v (List.mem_cons_of_mem _ hv)
    have e : demand d (u :: us).flatten = demand d u + demand d us.flatten := by
      rw [List.flatten_cons, demand_append]
    rw [e]
    push_cast [List.length_cons]
    linarith

theorem gapLeastC_le {N : ℕ} {d : ℕ → ℚ} {c : ℚ} (hc : 0 < c) (h0 : d 0 = 0) {k : ℕ} (h : GapFeas N d c k) :
    gapLeastC N d c ≤ k := by
  obtain ⟨us, h1, h2, h3⟩ := h
  unfold gapLeastC
  rw [Nat.ceil_le, div_le_iff₀ hc]
  have e : ((List.range N).map d).sum = demand d us.flatten := by
    rw [demand_perm d h2, ← totald_demand]
    show _ = ((List.range' 1 (N - 1)).map d).sum
    cases N with
    | zero => simp
    | succ n =>
      rw [List.range_succ_eq_map, List.map_cons, List.sum_cons, h0, zero_add, List.map_map, List.range'_eq_map_range,
        List.map_map]
      congr 1
      apply List.map_congr_left
      intro i _
      simp [Nat.add_comm]
  rw [e, ← h1]
  exact demand_flatten_le h3

theorem gapIter_exact {a : GapArgs} {c : ℚ} (h : GapExact a c) {m K : ℕ} (hK : 1 ≤ K) (hK' : K ≤ a.N - 1) {s : GapSt} (hb : s.trial < a.N) (h0 : s.incK = 0)
    {P : List ℕ → Prop} (hi : GapInv a.D a.minimize_K P s) :
    ∃ t, (gapIter a m K s = .ok (.again t) ∨ gapIter a m K s = .ok (.next t)) ∧ t.incK = 0 ∧
      (¬ GapFeas a.N a.d c K → SameBest s t) ∧ (GapFeas a.N a.d c K → t.best_sol.isSome = true) := by
  obtain ⟨M, hM⟩ := gapProgramme_ok h.seeds (K := K + s.incK) (by omega) (by omega) hb
  obtain ⟨costs, hMe, hlen⟩ := gapProgramme_eq hM
  rw [h0, Nat.add_zero] at hlen
  have hadapt : a.adapts = false := by simp [GapArgs.adapts, h.noL]
  have hsat : (∃ Y, M.Sat Y) ↔ GapFeas a.N a.d c K := by
    rw [hMe, h.cap, ← hlen]
    exact gapSat_iff (ne_of_gt h.pos) h.noL
  have hturn : ∀ (take : Bool) (t : GapSt), t.incK = 0 → ∃ t', (gapTurn a take t = .again t' ∨ gapTurn a take t = .next t') ∧
      t'.incK = 0 ∧ SameBest t t' := by
    intro take t ht
    unfold gapTurn
    dsimp only
    split_ifs <;> first
      | exact ⟨_, Or.inr rfl, rfl, rfl, rfl, rfl, rfl⟩
      | exact ⟨_, Or.inl rfl, rfl, rfl, rfl, rfl, rfl⟩
      | exact ⟨_, Or.inr rfl, ht, rfl, rfl, rfl, rfl⟩
      | exact ⟨_, Or.inl rfl, ht, rfl, rfl, rfl, rfl⟩
  have hgen : ∀ as, solve_gap a.opt a.rlx s.calls a.N M = .ok as → ∃ t t1,
      (gapIter a m K s = .ok (.again t) ∨ gapIter a m K s = .ok (.next t)) ∧ t.incK = 0 ∧ SameBest s t1 ∧
      SameBest (gapStore a (gapTrial a.N a.d a.C a.L a.tsp as) t1) t := by
    intro as has
    unfold gapIter
    rw [hM]
    dsimp only
    rw [has]
    dsimp only
    obtain ⟨b1, b2, b3, b4, -, -⟩ := gapStore_counters a (gapTrial a.N a.d a.C a.L a.tsp as)
      (gapAdapt a m K (gapTrial a.N a.d a.C a.L a.tsp as).isSome
        { s with calls := s.calls + 1, corrective := s.corrective || (as.getD []).isEmpty }).1
    have had : gapAdapt a m K (gapTrial a.N a.d a.C a.L a.tsp as).isSome
        { s with calls := s.calls + 1, corrective := s.corrective || (as.getD []).isEmpty } =
        ({ s with calls := s.calls + 1, corrective := s.corrective || (as.getD []).isEmpty }, true) := by
      unfold gapAdapt
      rw [hadapt, h.inc]
      simp
    have hmsg : gapMessage a (gapTrial a.N a.d a.C a.L a.tsp as).isSome (gapStore a (gapTrial a.N a.d a.C a.L a.tsp as)
        (gapAdapt a m K (gapTrial a.N a.d a.C a.L a.tsp as).isSome
        { s with calls := s.calls + 1, corrective := s.corrective || (as.getD []).isEmpty }).1) = false := by
      unfold gapMessage
      rw [b4, had]
      have e : (gapTrial a.N a.d a.C a.L a.tsp as).isSome = !(as.getD []).isEmpty := gapTrial_noL h.noL
      rw [e]
      cases (as.getD []).isEmpty <;> simp
    rw [hmsg, h.late]
    simp only [Bool.false_eq_true, if_false]
    obtain ⟨t', ht1, ht2, ht3⟩ := hturn (gapAdapt a m K (gapTrial a.N a.d a.C a.L a.tsp as).isSome
        { s with calls := s.calls + 1, corrective := s.corrective || (as.getD []).isEmpty }).2 (gapStore a (gapTrial a.N a.d a.C a.L a.tsp as)
        (gapAdapt a m K (gapTrial a.N a.d a.C a.L a.tsp as).isSome
        { s with calls := s.calls + 1, corrective := s.corrective || (as.getD []).isEmpty }).1) (by rw [b2, had]; exact h0)
    refine ⟨t', _, ?_, ht2, ?_, ht3⟩
    swap
    · rw [had]; exact ⟨rfl, rfl, rfl, rfl⟩
    rcases ht1 with e | e <;> rw [e]
    · exact Or.inl rfl
    · exact Or.inr rfl
  rcases h.answers s.calls M with ho | ⟨Y, ho⟩
  · have hno : ¬ GapFeas a.N a.d c K := by
      rw [← hsat]
      rintro ⟨Y, hY⟩
      exact h.solver.infeasible _ _ ho Y hY
    have has : solve_gap a.opt a.rlx s.calls a.N M = .ok none := by
      unfold solve_gap
      rw [ho]
      have : truthy M.L = false := by rw [hMe]; exact h.noL
      simp [this]
    obtain ⟨t, t1, h1, h2, h3, h4⟩ := hgen none has
    refine ⟨t, h1, h2, fun _ => ?_, fun hf => absurd hf hno⟩
    obtain ⟨a1, a2, a3, a4⟩ := h3
    obtain ⟨b1, b2, b3, b4⟩ := h4
    exact ⟨b1.trans a1, b2.trans a2, b3.trans a3, b4.trans a4⟩
  · have hyes : GapFeas a.N a.d c K := hsat.1 ⟨Y, (h.solver.optimal _ _ _ ho).1⟩
    have has : solve_gap a.opt a.rlx s.calls a.N M = .ok (some (gapAssign a.N Y)) := by
      unfold solve_gap
      rw [ho]
    obtain ⟨t, t1, h1, h2, h3, h4⟩ := hgen _ has
    refine ⟨t, h1, h2, fun hn => absurd hyes hn, fun _ => ?_⟩
    rw [h4.1]
    have hlenY : (gapAssign a.N Y).length = K := by
      have := (h.solver.optimal _ _ _ ho).1.toHard
      rw [hMe] at this
      rw [(gapAssign_hard this).2.1, hlen]
    have hsome : (gapTrial a.N a.d a.C a.L a.tsp (some (gapAssign a.N Y))).isSome = true := by
      rw [gapTrial_noL h.noL]
      cases hg : gapAssign a.N Y with
      | nil => rw [hg] at hlenY; simp at hlenY; omega
      | cons => rfl
    obtain ⟨p, hp⟩ := Option.isSome_iff_exists.1 hsome
    obtain ⟨sol, f, k⟩ := p
    rw [hp]
    unfold gapStore
    dsimp only
    by_cases hb : is_better_sol t1.best_f t1.best_K (some f) (some (k : ℚ)) a.minimize_K = true
    · rw [if_pos hb]; rfl
    · rw [if_neg hb]
      show t1.best_sol.isSome = true
      cases hn : t1.best_sol with
      | some => rfl
      | none =>
        have hf := ((gapInv_same hi h3).none hn).2.1
        rw [hf] at hb
        exact absurd rfl hb

theorem gapSeedLoop_exact {a : GapArgs} {c : ℚ} (h : GapExact a c) {m K : ℕ} (hK : 1 ≤ K) (hK' : K ≤ a.N - 1) :
    ∀ (fuel : ℕ) {s : GapSt}, GapBnd a m s → s.incK = 0 → ∀ {P : List ℕ → Prop}, (∀ sol, GapP a K sol → P sol) → GapInv a.D a.minimize_K P s →
    gapSeedLoop a m K fuel s = .ok none ∨ ∃ t, gapSeedLoop a m K fuel s = .ok (some (.next t)) ∧ t.incK = 0 ∧ t.tries ≤ 3 ∧
      GapInv a.D a.minimize_K P t ∧
      (¬ GapFeas a.N a.d c K → SameBest s t) ∧ (GapFeas a.N a.d c K → t.best_sol.isSome = true) := by
  intro fuel
  induction fuel with
  | zero => intro s _ _ P _ _; exact Or.inl rfl
  | succ fuel ih =>
    intro s hb h0 P hP hi
    obtain ⟨t, h1, h2, h3, h4⟩ := gapIter_exact h (m := m) hK hK' hb.trial h0 hi
    have hinv : ∀ o, gapIter a m K s = .ok o → GapInv a.D a.minimize_K P o.st := by
      intro o ho
      have hP0 : ∀ M cc as sol f k, gapProgramme a (K + s.incK) s = .ok M → solve_gap a.opt a.rlx cc a.N M = .ok as →
          gapTrial a.N a.d a.C a.L a.tsp as = some (sol, f, k) → P sol ∧ f = cost a.D sol ∧ k = (blocks sol).length := by
        intro M cc as sol f k e1 e2 e3
        rw [h0, Nat.add_zero] at e1
        obtain ⟨r1, r2, r3⟩ := gapTrial_good h.toGapHyp e1 e2 e3
        exact ⟨hP sol r1, r2, r3⟩
      exact gapIter_inv' hP0 hi ho
    simp only [gapSeedLoop]
    rcases h1 with e | e
    · rw [e]
      have hit := hinv _ e
      rcases ih (gapIter_turned hb e).1 h2 hP hit with e1 | ⟨t', e1, a1, a0, a2, a3, a4⟩
      · exact Or.inl e1
      · refine Or.inr ⟨t', e1, a1, a0, a2, fun hn => ?_, a4⟩
        obtain ⟨b1, b2, b3, b4⟩ := h3 hn
        obtain ⟨c1, c2, c3, c4⟩ := a3 hn
        exact ⟨c1.trans b1, c2.trans b2, c3.trans b3, c4.trans b4⟩
    · rw [e]
      exact Or.inr ⟨t, rfl, h2, (gapIter_turned hb e).2, hinv _ e, h3, h4⟩

/-- The first number of vehicles that is enough is used. -/
theorem gapKLoop_exact {a : GapArgs} {c : ℚ} (h : GapExact a c) (hmin : a.minimize_K = true) {m fuel : ℕ} (hN : 1 ≤ a.N) : ∀ (n k : ℕ)
    {s : GapSt}, k + n ≤ a.N → s.incK = 0 → s.tries ≤ 3 → GapInv a.D a.minimize_K (fun _ => False) s → (∀ j < k, ¬ GapFeas a.N a.d c j) → 1 ≤ k →
    gapKLoop a m fuel (List.range' k n) s = .ok none ∨
    ((∀ j < k + n, ¬ GapFeas a.N a.d c j) ∧ gapKLoop a m fuel (List.range' k n) s = .ok (some (.ret none []))) ∨
    ∃ K0 sol log, K0 < k + n ∧ GapFeas a.N a.d c K0 ∧ (∀ j < K0, ¬ GapFeas a.N a.d c j) ∧
      gapKLoop a m fuel (List.range' k n) s = .ok (some (.ret (some sol) log)) ∧ GapP a K0 sol := by
  intro n
  induction n with
  | zero =>
    intro k s _ h0 _ hi hj _
    have hl : s.log = [] := List.eq_nil_iff_forall_not_mem.2 fun x hx => hi.good x hx
    have hb : s.best_sol = none := by
      cases hb : s.best_sol with
      | none => rfl
      | some b => exact absurd (hi.some b hb).1 (by rw [hl]; simp)
    refine Or.inr (Or.inl ⟨fun j hlt => hj j (by omega), ?_⟩)
    simp only [List.range'_zero, gapKLoop, hl, hb]
  | succ n ih =>
    intro k s hkn h0 h30 hi hj hk
    have hl : s.log = [] := List.eq_nil_iff_forall_not_mem.2 fun x hx => hi.good x hx
    have hb : s.best_sol = none := by
      cases hb : s.best_sol with
      | none => rfl
      | some b => exact absurd (hi.some b hb).1 (by rw [hl]; simp)
    have hi' : GapInv a.D a.minimize_K (GapP a k) { s with found := false, trial := 0 } :=
      ⟨fun x hx => absurd hx (by rw [show _ = s.log from rfl, hl]; simp), hi.none, fun sol hs => by
        rw [show _ = s.best_sol from rfl, hb] at hs; cases hs⟩
    rw [List.range'_succ]
    simp only [gapKLoop]
    rcases gapSeedLoop_exact h (m := m) hk (by omega) fuel (s := { s with found := false, trial := 0 })
      ⟨hN, by show s.incK ≤ m; omega, h30⟩ h0 (fun _ hp => hp) hi' with e | ⟨t, e, h1, h13, h2, h3, h4⟩
    · rw [e]; exact Or.inl rfl
    · rw [e]
      dsimp only
      by_cases hf : GapFeas a.N a.d c k
      · obtain ⟨sol, hs⟩ := Option.isSome_iff_exists.1 (h4 hf)
        have hst : gapStop a t = true := by unfold gapStop; rw [hmin, hs]; rfl
        rw [if_pos hst, hs]
        exact Or.inr (Or.inr ⟨k, sol, t.log, by omega, hf, hj, rfl, h2.good sol (h2.some sol hs).1⟩)
      · obtain ⟨a1, a2, a3, a4⟩ := h3 hf
        have hst : ¬ gapStop a t = true := by
          unfold gapStop; rw [hmin, a1]; simp [hb]
        rw [if_neg hst]
        have hit : GapInv a.D a.minimize_K (fun _ => False) t := gapInv_same hi (t := t) ⟨a1, a2, a3, a4⟩
        have := ih (k + 1) (by omega) h1 h13 hit (fun j hlt => by
          rcases Nat.lt_or_ge j k with hlt' | hge
          · exact hj j hlt'
          · have : j = k := by omega
            rw [this]; exact hf) (by omega)
        rw [show k + 1 + n = k + (n + 1) by omega] at this
        exact this

/-- A solution is found as soon as the vehicles are enough, whether or not the number of routes counts. -/
theorem gapKLoop_found {a : GapArgs} {c : ℚ} (h : GapExact a c) {m fuel : ℕ} (hN : 1 ≤ a.N) : ∀ (n k : ℕ)
    {s : GapSt}, k + n ≤ a.N → s.incK = 0 → s.tries ≤ 3 → GapInv a.D a.minimize_K (fun _ => True) s →
    (s.best_sol.isSome = true ∨ ∀ j < k, ¬ GapFeas a.N a.d c j) → 1 ≤ k →
    gapKLoop a m fuel (List.range' k n) s = .ok none ∨
    ∃ b log, gapKLoop a m fuel (List.range' k n) s = .ok (some (.ret b log)) ∧
      (b.isSome = true ∨ ∀ j < k + n, ¬ GapFeas a.N a.d c j) := by
  intro n
  induction n with
  | zero =>
    intro k s _ _ _ _ hj _
    exact Or.inr ⟨_, _, rfl, hj⟩
  | succ n ih =>
    intro k s hkn h0 h30 hi hj hk
    have hi' : GapInv a.D a.minimize_K (fun _ => True) { s with found := false, trial := 0 } :=
      ⟨hi.good, hi.none, hi.some⟩
    rw [List.range'_succ]
    simp only [gapKLoop]
    rcases gapSeedLoop_exact h (m := m) hk (by omega) fuel (s := { s with found := false, trial := 0 })
      ⟨hN, by show s.incK ≤ m; omega, h30⟩ h0 (fun _ _ => trivial) hi' with e | ⟨t, e, h1, h13, h2, h3, h4⟩
    · rw [e]; exact Or.inl rfl
    · rw [e]
      dsimp only
      have hsome : t.best_sol.isSome = true ∨ ∀ j < k + 1, ¬ GapFeas a.N a.d c j := by
        by_cases hf : GapFeas a.N a.d c k
        · exact Or.inl (h4 hf)
        · rcases hj with hj | hj
          · exact Or.inl (by rw [(h3 hf).1]; exact hj)
          · refine Or.inr fun j hlt => ?_
            rcases Nat.lt_or_ge j k with hlt' | hge
            · exact hj j hlt'
            · have : j = k := by omega
              rw [this]; exact hf
      by_cases hst : gapStop a t = true
      · rw [if_pos hst]
        refine Or.inr ⟨_, _, rfl, Or.inl ?_⟩
        unfold gapStop at hst
        split_ifs at hst
        · exact hst
        · rw [Bool.and_eq_true] at hst
          exact hst.1
      · rw [if_neg hst]
        have := ih (k + 1) (by omega) h1 h13 h2 hsome (by omega)
        rw [show k + 1 + n = k + (n + 1) by omega] at this
        exact this

end Verif
