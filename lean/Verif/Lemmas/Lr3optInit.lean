import Verif.Props.Lr3optMove
import Verif.Props.Lr3opt
import Verif.Props.CvrpOps
import Mathlib.Algebra.Order.Archimedean.Basic
import Mathlib.Data.Set.Finite.Lattice
import Mathlib.Data.Finite.Prod
import Mathlib.Data.Finset.Prod
import Mathlib.Data.Finset.Max
import Mathlib.Data.Finset.Order

/-! # Lemmas for the heuristic of Stewart and Golden -/

namespace Verif
open Spec

theorem priced_double {C L : Option ℚ} {lam : Lambdas} (h : Priced C L lam.lc lam.ll) :
    Priced C L (lrDouble lam).lc (lrDouble lam).ll := by
  refine ⟨fun c hc => ⟨(h.cap c hc).1, fun h0 => ?_⟩, fun c hc => ⟨(h.len c hc).1, fun h0 => ?_⟩, fun x hx => ?_, fun x hx => ?_⟩
  · have := (h.cap c hc).2 h0
    simpa [lrDouble] using this
  · have := (h.len c hc).2 h0
    simpa [lrDouble] using this
  · simp only [lrDouble, Option.map_eq_some_iff] at hx
    obtain ⟨y, hy, rfl⟩ := hx
    have := h.pc y hy; linarith
  · simp only [lrDouble, Option.map_eq_some_iff] at hx
    obtain ⟨y, hy, rfl⟩ := hx
    have := h.pl y hy; linarith

/-- Padding adds at most one depot. -/
theorem lrPad_spec {sol : List ℕ} (hd : DepotEnds sol) (hc : customers sol ≠ []) :
    ∃ s, lrPad sol = .ok s ∧ DepotEnds s ∧ (s = sol ∨ s = sol ++ [0]) ∧ squeeze s = squeeze sol := by
  rcases depotEnds_cases hd with rfl | ⟨m, rfl⟩
  · simp [customers] at hc
  · have hm : m ≠ [] := by rintro rfl; simp [customers, wrap] at hc
    obtain ⟨m', x, rfl⟩ := exists_snoc hm
    have i1 : idxNeg (wrap (m' ++ [x])) 1 = .ok 0 := by
      simp [idxNeg, idx, wrap]
    have i2 : idxNeg (wrap (m' ++ [x])) 2 = .ok x := by
      have e : wrap (m' ++ [x]) = (0 :: m') ++ x :: [0] := by simp [wrap]
      rw [e, idxNeg, if_neg (by simp)]
      have : ((0 :: m') ++ x :: [0]).length - 2 = (0 :: m').length := by simp
      rw [this, idx]
      simp
    unfold lrPad lrPadded
    rw [i1]
    simp only [if_true, i2]
    by_cases hx : x = 0
    · subst hx
      exact ⟨_, rfl, hd, .inl rfl, rfl⟩
    · have j1 : idxNeg (wrap (m' ++ [x]) ++ [0]) 1 = .ok 0 := by simp [idxNeg, idx, wrap]
      have j2 : idxNeg (wrap (m' ++ [x]) ++ [0]) 2 = .ok 0 := by
        have e : wrap (m' ++ [x]) ++ [0] = (0 :: (m' ++ [x])) ++ 0 :: [0] := by simp [wrap]
        rw [e, idxNeg, if_neg (by simp)]
        have : ((0 :: (m' ++ [x])) ++ 0 :: [0]).length - 2 = (0 :: (m' ++ [x])).length := by simp
        rw [this, idx]
        simp
      simp only [hx, decide_false, j1, if_true, j2, decide_true]
      refine ⟨_, rfl, ⟨by simp [wrap], by simp⟩, .inr rfl, ?_⟩
      have e : wrap (m' ++ [x]) ++ [0] = (0 :: (m' ++ [x])) ++ 0 :: 0 :: [] := by simp [wrap]
      have e2 : wrap (m' ++ [x]) = (0 :: (m' ++ [x])) ++ 0 :: [] := by simp [wrap]
      rw [e, squeeze_double, ← e2]

section
variable {D : ℕ → ℕ → ℚ} {d : ℕ → ℚ} {C L : Option ℚ}

/-- A solution forced to the limits. -/
def LrForced (D : ℕ → ℕ → ℚ) (d : ℕ → ℚ) (C L : Option ℚ) (init : List ℕ) (r : Option (List ℕ)) : Prop :=
  ∃ s, r = some s ∧ DepotEnds s ∧ squeeze s = s ∧ (customers s).Perm (customers init) ∧
    ((∀ n ∈ customers init, RouteOk D d C L [n]) → Feasible D d C L s)

/-- What holds in each state. -/
def LrInv (D : ℕ → ℕ → ℚ) (d : ℕ → ℚ) (C L : Option ℚ) (init : List ℕ) : LrState → Prop
  | .search sol lam _ => DepotEnds sol ∧ (customers sol).Perm (customers init) ∧ Priced C L lam.lc lam.ll
  | .post sol => DepotEnds sol ∧ (customers sol).Perm (customers init) ∧ Feasible D d C L sol
  | .done sol => DepotEnds sol ∧ squeeze sol = sol ∧ (customers sol).Perm (customers init) ∧ Feasible D d C L sol
  | .forced r => LrForced D d C L init r

theorem lrForced_of {init sol : List ℕ} (hd : DepotEnds sol) (hp : (customers sol).Perm (customers init)) (hc : customers init ≠ []) :
    LrForced D d C L init (force_feasible sol D d C L) := by
  obtain ⟨s, h1, h2, h3, h4, h5, _⟩ := C32_force hd (fun e => hc (by rw [e] at hp; simpa using hp.symm.eq_nil)) D d C L
  exact ⟨s, h1, h2, h3, h4 ▸ hp, fun h => h5 fun n hn => h n (hp.mem_iff.1 hn)⟩

theorem feas_sameRoutes (hs : Symm D) {s t : List ℕ} (h : SameRoutes (blocks s) (blocks t)) (hf : Feasible D d C L s) :
    Feasible D d C L t := by
  obtain ⟨cs, h1, h2⟩ := h
  intro b hb
  have hcs : ∀ c ∈ cs, RouteOk D d C L c := fun c hc => hf c (h1.mem_iff.1 hc)
  clear h1 hf
  generalize blocks t = bs at h2 hb
  induction h2 with
  | nil => simp at hb
  | @cons c b' cs bs h _ ih =>
    rcases List.mem_cons.1 hb with rfl | hb
    · rcases h with rfl | rfl
      · exact hcs _ (by simp)
      · have := routeOk_reverse hs (hcs b.reverse (by simp))
        simpa using this
    · exact ih (fun c hc => hcs c (by simp [hc])) hb

theorem lrReturn_spec (hs : Symm D) {init sol : List ℕ} (hd : DepotEnds sol) (hp : (customers sol).Perm (customers init))
    (hf : Feasible D d C L sol) : ∃ s, lrReturn sol = .ok (.done s) ∧ normalize_solution sol = .ok s ∧ LrInv D d C L init (.done s) := by
  have hne : sol ≠ [] := by rintro rfl; simp [DepotEnds] at hd
  obtain ⟨n, h1, h2, h3, h4, _⟩ := C08_normalize sol hne
  obtain ⟨n', k1, k2, _⟩ := C08_normalize_cost sol hd (fun _ _ => 0) rfl (fun _ _ => rfl)
  rw [h1] at k1
  obtain rfl := Except.ok.inj k1
  refine ⟨n, by rw [lrReturn, h1], h1, h2, ?_, k2.trans hp, feas_sameRoutes hs h3 hf⟩
  rw [squeeze_depotEnds h2]; exact h4.symm

theorem lrOptimum_inv (o : LrOpts) (hs : Symm D) {init sol : List ℕ} {lam : Lambdas} {incs : ℕ} (hd : DepotEnds sol)
    (hp : (customers sol).Perm (customers init)) (hl : Priced C L lam.lc lam.ll) (hc : customers init ≠ []) :
    ∃ s, lrOptimum o D d C L sol lam incs = .ok s ∧ LrInv D d C L init s := by
  unfold lrOptimum
  by_cases h : check_CL_constraints sol D d C L = true
  · rw [if_pos h]
    have hf := C32_check_sound hd h
    by_cases ho : o.postoptimize = true
    · rw [if_pos ho]; exact ⟨_, rfl, hd, hp, hf⟩
    · rw [if_neg ho]
      obtain ⟨s, h1, _, h2⟩ := lrReturn_spec hs hd hp hf
      exact ⟨_, h1, h2⟩
  · rw [if_neg h]
    refine ⟨_, rfl, ?_⟩
    unfold lrTighten
    simp only
    split
    · exact lrForced_of hd hp hc
    · exact ⟨hd, hp, priced_double hl⟩

theorem customers_pad {s sol : List ℕ} (h : s = sol ∨ s = sol ++ [0]) : customers s = customers sol := by
  rcases h with rfl | rfl
  · rfl
  · simp [customers]

theorem lrStep_inv (o : LrOpts) (hs : Symm D) (h0 : D 0 0 = 0) {init : List ℕ} (hc : customers init ≠ []) {st : LrState}
    (h : LrInv D d C L init st) : ∃ s, lrStep o D d C L st = .ok s ∧ LrInv D d C L init s := by
  cases st with
  | search sol lam incs =>
    obtain ⟨hd, hp, hl⟩ := h
    have hc' : customers sol ≠ [] := fun e => hc (by rw [e] at hp; simpa using hp.symm.eq_nil)
    obtain ⟨s, p1, p2, p3, _⟩ := lrPad_spec hd hc'
    have hp' : (customers s).Perm (customers init) := by rw [customers_pad p3]; exact hp
    obtain ⟨r, g1, g2⟩ := C43 (D := D) hs h0 d hl p2 true none
    rw [lrStep, p1]
    simp only [g1]
    rcases r with _ | ⟨new, δ⟩
    · exact lrOptimum_inv o hs p2 hp' hl hc
    · simp only
      split
      · exact lrOptimum_inv o hs p2 hp' hl hc
      · obtain ⟨k1, k2, _⟩ := g2 new δ rfl
        exact ⟨_, rfl, k1, k2.trans hp', hl⟩
  | post sol =>
    obtain ⟨hd, hp, hf⟩ := h
    obtain ⟨r, g1, g2⟩ := C22 (D := D) hs h0 d C L hd true none
    rw [lrStep, g1]
    rcases r with _ | ⟨new, δ⟩
    · obtain ⟨s, h1, _, h2⟩ := lrReturn_spec hs hd hp hf
      exact ⟨_, h1, h2⟩
    · obtain ⟨k1, k2, _, _, k5⟩ := g2 new δ rfl
      exact ⟨_, rfl, k1, k2.trans hp, k5 hf⟩
  | done s => exact ⟨_, rfl, h⟩
  | forced r => exact ⟨_, rfl, h⟩

theorem lrRun_inv (o : LrOpts) (hs : Symm D) (h0 : D 0 0 = 0) {init : List ℕ} (hc : customers init ≠ []) (n : ℕ) {st : LrState}
    (h : LrInv D d C L init st) : ∃ s, lrRun o D d C L n st = .ok s ∧ LrInv D d C L init s := by
  induction n generalizing st with
  | zero => exact ⟨_, rfl, h⟩
  | succ n ih =>
    obtain ⟨s, h1, h2⟩ := lrStep_inv o hs h0 hc h
    rw [lrRun, h1]
    exact ih h2

/-! ## Termination -/

/-- The heuristic has returned. -/
def LrFinished : LrState → Prop
  | .done _ => True
  | .forced _ => True
  | _ => False

/-- From a state the heuristic returns. -/
def LrEnds (o : LrOpts) (D : ℕ → ℕ → ℚ) (d : ℕ → ℚ) (C L : Option ℚ) (st : LrState) : Prop :=
  ∃ n s, lrRun o D d C L n st = .ok s ∧ LrFinished s

theorem lrEnds_fin {o : LrOpts} {st : LrState} (h : LrFinished st) : LrEnds o D d C L st := ⟨0, st, rfl, h⟩

theorem lrEnds_step {o : LrOpts} {st st' : LrState} (h : lrStep o D d C L st = .ok st') (he : LrEnds o D d C L st') :
    LrEnds o D d C L st := by
  obtain ⟨n, s, h1, h2⟩ := he
  exact ⟨n + 1, s, by rw [lrRun, h]; exact h1, h2⟩

theorem lrRun_fin {o : LrOpts} {st : LrState} (h : LrFinished st) (n : ℕ) : lrRun o D d C L n st = .ok st := by
  induction n with
  | zero => rfl
  | succ n ih =>
    have : lrStep o D d C L st = .ok st := by
      cases st with
      | search _ _ _ => exact h.elim
      | post _ => exact h.elim
      | done _ => rfl
      | forced _ => rfl
    rw [lrRun, this]; exact ih

theorem lrRun_add {o : LrOpts} (n m : ℕ) {st s : LrState} (h : lrRun o D d C L n st = .ok s) :
    lrRun o D d C L (n + m) st = lrRun o D d C L m s := by
  induction n generalizing st with
  | zero =>
    obtain rfl := Except.ok.inj (show Except.ok st = Except.ok s from h)
    rw [Nat.zero_add]
  | succ n ih =>
    rw [lrRun] at h
    rw [Nat.succ_add, lrRun]
    cases hstep : lrStep o D d C L st with
    | error x => rw [hstep] at h; exact nomatch h
    | ok st' =>
      rw [hstep] at h
      exact ih h

theorem LrEnds.all {o : LrOpts} {st : LrState} (h : LrEnds o D d C L st) :
    ∃ F s, LrFinished s ∧ ∀ n, F ≤ n → lrRun o D d C L n st = .ok s := by
  obtain ⟨F, s, h1, h2⟩ := h
  refine ⟨F, s, h2, fun n hn => ?_⟩
  obtain ⟨m, rfl⟩ := Nat.exists_eq_add_of_le hn
  rw [lrRun_add F m h1, lrRun_fin h2]

theorem lrEnds_post (o : LrOpts) (hs : Symm D) (hn : ∀ i j, 0 ≤ D i j) (h0 : D 0 0 = 0) {init sol : List ℕ}
    (h : LrInv D d C L init (.post sol)) : LrEnds o D d C L (.post sol) := by
  obtain ⟨k, hk⟩ := exists_nat_gt (cost D sol / S_EPS)
  rw [div_lt_iff₀ S_EPS_pos] at hk
  induction k generalizing sol with
  | zero =>
    have := cost_nonneg hn sol
    simp at hk; linarith
  | succ k ih =>
    obtain ⟨hd, hp, hf⟩ := h
    obtain ⟨r, g1, g2⟩ := C22 (D := D) hs h0 d C L hd true none
    rcases r with _ | ⟨new, δ⟩
    · obtain ⟨s, h1, _⟩ := lrReturn_spec hs hd hp hf
      have e : lrStep o D d C L (.post sol) = lrReturn sol := by rw [lrStep, g1]
      exact lrEnds_step (e.trans h1) (lrEnds_fin trivial)
    · obtain ⟨k1, k2, k3, k4, k5⟩ := g2 new δ rfl
      have e : lrStep o D d C L (.post sol) = .ok (.post new) := by rw [lrStep, g1]
      refine lrEnds_step e (ih ⟨k1, k2.trans hp, k5 hf⟩ ?_)
      simp only [Option.getD_none] at k4
      push_cast at hk
      linarith

/-- Relaxed objective with the multipliers of the heuristic. -/
def lrObj (D : ℕ → ℕ → ℚ) (d : ℕ → ℚ) (C L : Option ℚ) (lam : Lambdas) (sol : List ℕ) : ℚ :=
  relaxed D d C L (lam.lc.getD 0) (lam.ll.getD 0) sol

theorem lrObj_squeeze (h0 : D 0 0 = 0) {s t : List ℕ} (h : squeeze s = squeeze t) (lam : Lambdas) :
    lrObj D d C L lam s = lrObj D d C L lam t := by
  unfold lrObj
  rw [← relaxed_squeeze h0 _ _ s, h, relaxed_squeeze h0]

/-- One round in the relaxed problem: no move is left, or there is a better solution. -/
theorem lrStep_search (o : LrOpts) (hs : Symm D) (h0 : D 0 0 = 0) {init sol : List ℕ} {lam : Lambdas} (incs : ℕ)
    (hc : customers init ≠ []) (hd : DepotEnds sol) (hp : (customers sol).Perm (customers init)) (hl : Priced C L lam.lc lam.ll) :
    (∃ s, DepotEnds s ∧ (customers s).Perm (customers init) ∧ squeeze s = squeeze sol ∧
      lrStep o D d C L (.search sol lam incs) = lrOptimum o D d C L s lam incs) ∨
    ∃ new, DepotEnds new ∧ (customers new).Perm (customers init) ∧ lrObj D d C L lam new + S_EPS < lrObj D d C L lam sol ∧
      lrStep o D d C L (.search sol lam incs) = .ok (.search new lam 0) := by
  have hc' : customers sol ≠ [] := fun e => hc (by rw [e] at hp; simpa using hp.symm.eq_nil)
  obtain ⟨s, p1, p2, p3, p4⟩ := lrPad_spec hd hc'
  have hp' : (customers s).Perm (customers init) := by rw [customers_pad p3]; exact hp
  obtain ⟨r, g1, g2⟩ := C43 (D := D) hs h0 d hl p2 true none
  rw [lrStep, p1]
  simp only [g1]
  rcases r with _ | ⟨new, δ⟩
  · left; exact ⟨s, p2, hp', p4, rfl⟩
  · obtain ⟨k1, k2, k3, k4⟩ := g2 new δ rfl
    have hobj : lrObj D d C L lam new + S_EPS < lrObj D d C L lam sol := by
      rw [← lrObj_squeeze h0 p4]
      simp only [Option.getD_none] at k4
      unfold lrObj
      linarith
    have hne : s ≠ new := by
      rintro rfl
      rw [← lrObj_squeeze h0 p4] at hobj
      have := S_EPS_pos
      linarith
    right
    exact ⟨new, k1, k2.trans hp', hobj, if_neg hne⟩

theorem lrObj_nonneg (hn : ∀ i j, 0 ≤ D i j) {lam : Lambdas} (hl : Priced C L lam.lc lam.ll) (sol : List ℕ) :
    0 ≤ lrObj D d C L lam sol := by
  have h1 := cost_nonneg hn sol
  have : 0 ≤ tot (lrPay D d C L lam) sol := by
    unfold tot
    generalize blocks sol = bs
    induction bs with
    | nil => simp
    | cons b bs ih =>
      rw [List.map_cons, List.sum_cons]
      exact add_nonneg (lrPay_nonneg (lamOk_of_priced hl) b) ih
  exact add_nonneg h1 this

/-- If the heuristic returns whenever no move is left, then it returns. -/
theorem lrEnds_search (o : LrOpts) (hs : Symm D) (hn : ∀ i j, 0 ≤ D i j) (h0 : D 0 0 = 0) {init : List ℕ} {lam : Lambdas}
    (hc : customers init ≠ []) (hl : Priced C L lam.lc lam.ll)
    (hopt : ∀ s incs st, DepotEnds s → (customers s).Perm (customers init) → lrOptimum o D d C L s lam incs = .ok st →
      LrEnds o D d C L st) {sol : List ℕ} (incs : ℕ) (hd : DepotEnds sol) (hp : (customers sol).Perm (customers init)) :
    LrEnds o D d C L (.search sol lam incs) := by
  obtain ⟨k, hk⟩ := exists_nat_gt (lrObj D d C L lam sol / S_EPS)
  rw [div_lt_iff₀ S_EPS_pos] at hk
  induction k generalizing sol incs with
  | zero =>
    have := lrObj_nonneg (d := d) hn hl sol
    simp at hk; linarith
  | succ k ih =>
    rcases lrStep_search (d := d) o hs h0 incs hc hd hp hl with ⟨s, a1, a2, _, a3⟩ | ⟨new, a1, a2, a3, a4⟩
    · obtain ⟨st, b1, _⟩ := lrOptimum_inv (d := d) o hs (incs := incs) a1 a2 hl hc
      exact lrEnds_step (a3.trans b1) (hopt s incs st a1 a2 b1)
    · refine lrEnds_step a4 (ih 0 a1 a2 ?_)
      push_cast at hk
      linarith

/-- When no move is left the heuristic returns or goes on with doubled multipliers. -/
theorem lrOptimum_cases (o : LrOpts) (hs : Symm D) (hn : ∀ i j, 0 ≤ D i j) (h0 : D 0 0 = 0) {init : List ℕ} {lam : Lambdas}
    (hl : Priced C L lam.lc lam.ll) (hc : customers init ≠ []) {s : List ℕ} {incs : ℕ} {st : LrState} (hd : DepotEnds s)
    (hp : (customers s).Perm (customers init)) (h : lrOptimum o D d C L s lam incs = .ok st) :
    LrEnds o D d C L st ∨ (st = .search s (lrDouble lam) (incs + 1) ∧ (∀ m, o.max_incs = some m → incs + 1 ≤ m) ∧
      ∀ x, lam.lc = some x → x * 2 ≤ o.huge) := by
  obtain ⟨st', h1, h2⟩ := lrOptimum_inv (d := d) o hs (incs := incs) hd hp hl hc
  rw [h] at h1
  obtain rfl := Except.ok.inj h1
  unfold lrOptimum at h
  split at h
  · left
    split at h
    · obtain rfl := Except.ok.inj h
      exact lrEnds_post o hs hn h0 h2
    · unfold lrReturn at h
      split at h
      · exact nomatch h
      · obtain rfl := Except.ok.inj h
        exact lrEnds_fin trivial
  · obtain rfl := Except.ok.inj h
    unfold lrTighten
    simp only
    split
    · left; exact lrEnds_fin trivial
    · rename_i hcond
      right
      simp only [Bool.or_eq_true, not_or, Bool.not_eq_true] at hcond
      obtain ⟨⟨c1, c2⟩, c3⟩ := hcond
      refine ⟨rfl, fun m hm => ?_, fun x hx => ?_⟩
      · simp only [lrOver, hm, decide_eq_false_iff_not] at c3
        omega
      · simp only [lrDouble, hx, Option.isSome_some, Bool.true_and, Option.map_some, lrInf, decide_eq_false_iff_not] at c1
        linarith

/-- With a positive multiplier for the capacity the heuristic returns: the multiplier gets too large in the end. -/
theorem lrEnds_capacity (o : LrOpts) (hs : Symm D) (hn : ∀ i j, 0 ≤ D i j) (h0 : D 0 0 = 0) {init : List ℕ} {lam : Lambdas}
    (hc : customers init ≠ []) (hl : Priced C L lam.lc lam.ll) {x : ℚ} (hx : lam.lc = some x) (hx0 : 0 < x) {sol : List ℕ} (incs : ℕ)
    (hd : DepotEnds sol) (hp : (customers sol).Perm (customers init)) : LrEnds o D d C L (.search sol lam incs) := by
  obtain ⟨k, hk⟩ : ∃ k : ℕ, o.huge < x * 2 ^ k := by
    obtain ⟨k, hk⟩ := pow_unbounded_of_one_lt (o.huge / x) (one_lt_two)
    rw [div_lt_iff₀ hx0] at hk
    exact ⟨k, by linarith⟩
  induction k generalizing sol incs lam x with
  | zero =>
    refine lrEnds_search o hs hn h0 hc hl (fun s incs st a1 a2 a3 => ?_) incs hd hp
    rcases lrOptimum_cases o hs hn h0 hl hc a1 a2 a3 with h | ⟨_, _, h⟩
    · exact h
    · have := h x hx
      simp at hk; linarith
  | succ k ih =>
    refine lrEnds_search o hs hn h0 hc hl (fun s incs st a1 a2 a3 => ?_) incs hd hp
    rcases lrOptimum_cases o hs hn h0 hl hc a1 a2 a3 with h | ⟨rfl, _, _⟩
    · exact h
    · refine ih (priced_double hl) (x := x * 2) (by simp [lrDouble, hx]) (by linarith) _ a1 a2 ?_
      rw [pow_succ] at hk
      linarith

/-! ### With a bound on the increases -/

/-- The multipliers after a number of increases. -/
def lrScale (lam : Lambdas) (n : ℕ) : Lambdas := ⟨lam.lc.map (· * 2 ^ n), lam.ll.map (· * 2 ^ n)⟩

theorem lrScale_succ (lam : Lambdas) (n : ℕ) : lrDouble (lrScale lam n) = lrScale lam (n + 1) := by
  unfold lrDouble lrScale
  simp only [Option.map_map]
  congr 1 <;> congr 1 <;> funext x <;> simp [pow_succ, mul_assoc]

theorem lrScale_zero (lam : Lambdas) : lrScale lam 0 = lam := by
  cases lam with
  | mk a b => cases a <;> cases b <;> simp [lrScale]

theorem lrScale_priced {lam : Lambdas} (hl : Priced C L lam.lc lam.ll) (n : ℕ) : Priced C L (lrScale lam n).lc (lrScale lam n).ll := by
  induction n with
  | zero => rw [lrScale_zero]; exact hl
  | succ n ih => rw [← lrScale_succ]; exact priced_double ih

theorem getD_scale (o : Option ℚ) (a : ℚ) : (o.map (· * a)).getD 0 = o.getD 0 * a := by
  cases o <;> simp

/-- The payments without the factor of the multipliers. -/
def lrQ (D : ℕ → ℕ → ℚ) (d : ℕ → ℚ) (C L : Option ℚ) (lam : Lambdas) (sol : List ℕ) : ℚ := tot (lrPay D d C L lam) sol

theorem lrObj_scale (lam : Lambdas) (n : ℕ) (sol : List ℕ) :
    lrObj D d C L (lrScale lam n) sol = cost D sol + 2 ^ n * lrQ D d C L lam sol := by
  unfold lrObj relaxed penalties lrQ tot
  congr 1
  generalize blocks sol = bs
  induction bs with
  | nil => simp
  | cons b bs ih =>
    rw [List.map_cons, List.sum_cons, ih, List.map_cons, List.sum_cons, mul_add]
    congr 1
    simp only [lrScale, getD_scale, lrPay, penalty]
    ring

theorem lrQ_squeeze (lam : Lambdas) (s : List ℕ) : lrQ D d C L lam (squeeze s) = lrQ D d C L lam s := by
  unfold lrQ tot
  rw [blocks_squeeze]

/-- Finitely many lists of bounded length over finitely many nodes. -/
theorem finite_lists {A : Set ℕ} (hA : A.Finite) (m : ℕ) : {l : List ℕ | l.length ≤ m ∧ ∀ x ∈ l, x ∈ A}.Finite := by
  induction m with
  | zero =>
    refine (Set.finite_singleton []).subset fun l hl => ?_
    simpa using hl.1
  | succ m ih =>
    refine ((Set.finite_singleton []).union ((hA.prod ih).image fun p => p.1 :: p.2)).subset fun l hl => ?_
    cases l with
    | nil => simp
    | cons a t =>
      right
      refine ⟨(a, t), ⟨hl.2 a (by simp), ?_, fun x hx => hl.2 x (by simp [hx])⟩, rfl⟩
      have := hl.1
      simp at this
      omega

theorem length_tour (bs : List (List ℕ)) : (tour bs).length = bs.flatten.length + bs.length + 1 := by
  induction bs with
  | nil => rfl
  | cons b bs ih => simp only [tour, List.length_cons, List.length_append, ih, List.flatten_cons]; omega

theorem length_blocks (l : List ℕ) : (blocks l).length ≤ (customers l).length := by
  rw [← blocks_flatten]
  have h : ∀ b ∈ blocks l, b ≠ [] := fun b hb => (mem_blocks l b hb).1
  generalize blocks l = bs at h
  induction bs with
  | nil => simp
  | cons b bs ih =>
    have h1 := ih fun b hb => h b (by simp [hb])
    have h2 := List.length_pos_iff.2 (h b (by simp))
    simp only [List.length_cons, List.flatten_cons, List.length_append]
    omega

/-- Finitely many solutions without empty routes have given customers. -/
theorem finite_solutions (init : List ℕ) : ∃ V : Finset (List ℕ), ∀ s, DepotEnds s → (customers s).Perm (customers init) →
    squeeze s ∈ V := by
  have hfin := finite_lists (A := {x | x = 0 ∨ x ∈ customers init})
    ((Set.finite_singleton 0).union (List.finite_toSet (customers init))) (2 * (customers init).length + 1)
  refine ⟨hfin.toFinset, fun s hd hp => ?_⟩
  rw [Set.Finite.mem_toFinset]
  constructor
  · have h1 := length_blocks s
    rw [squeeze_depotEnds hd, length_tour, blocks_flatten]
    rw [hp.length_eq] at h1 ⊢
    omega
  · intro x hx
    by_cases h0 : x = 0
    · exact .inl h0
    · right
      have : x ∈ customers (squeeze s) := by simp [customers, hx, h0]
      rw [customers_squeeze] at this
      exact hp.mem_iff.1 this

theorem finset_gap (S : Finset ℚ) : ∃ g, 0 < g ∧ ∀ x ∈ S, ∀ y ∈ S, x < y → x + g ≤ y := by
  by_cases h : (((S ×ˢ S).image fun p => p.2 - p.1).filter (0 < ·)).Nonempty
  · obtain ⟨m, hm, hmin⟩ := Finset.exists_min_image _ id h
    refine ⟨m, (Finset.mem_filter.1 hm).2, fun x hx y hy hxy => ?_⟩
    have := hmin (y - x) (Finset.mem_filter.2 ⟨Finset.mem_image.2 ⟨(x, y), Finset.mem_product.2 ⟨hx, hy⟩, rfl⟩, by linarith⟩)
    simp only [id] at this
    linarith
  · refine ⟨1, one_pos, fun x hx y hy hxy => ?_⟩
    exact absurd ⟨y - x, Finset.mem_filter.2 ⟨Finset.mem_image.2 ⟨(x, y), Finset.mem_product.2 ⟨hx, hy⟩, rfl⟩, by linarith⟩⟩ h

/-- With large multipliers a better solution pays less, or pays the same and costs less. -/
theorem lr_large (h0 : D 0 0 = 0) (lam : Lambdas) (init : List ℕ) : ∃ n0, ∀ n, n0 ≤ n → ∀ s t, DepotEnds s → DepotEnds t →
    (customers s).Perm (customers init) → (customers t).Perm (customers init) →
    lrObj D d C L (lrScale lam n) t < lrObj D d C L (lrScale lam n) s →
    lrQ D d C L lam t < lrQ D d C L lam s ∨ (lrQ D d C L lam t = lrQ D d C L lam s ∧ cost D t < cost D s) := by
  obtain ⟨V, hV⟩ := finite_solutions init
  obtain ⟨g, g0, hg⟩ := finset_gap (V.image (lrQ D d C L lam))
  obtain ⟨M, hM⟩ := (V.image (cost D)).exists_le
  obtain ⟨m, hm⟩ := (V.image fun s => - cost D s).exists_le
  obtain ⟨n0, hn0⟩ := pow_unbounded_of_one_lt ((M + m) / g) (one_lt_two)
  refine ⟨n0, fun n hn s t ds dt ps pt hlt => ?_⟩
  have vs := hV s ds ps
  have vt := hV t dt pt
  rw [lrObj_scale, lrObj_scale] at hlt
  rcases lt_trichotomy (lrQ D d C L lam t) (lrQ D d C L lam s) with h | h | h
  · exact .inl h
  · right; refine ⟨h, ?_⟩; rw [h] at hlt; linarith
  · exfalso
    have k1 := hg _ (Finset.mem_image_of_mem _ vs) _ (Finset.mem_image_of_mem _ vt) (by rw [lrQ_squeeze, lrQ_squeeze]; exact h)
    rw [lrQ_squeeze, lrQ_squeeze] at k1
    have k2 := hM _ (Finset.mem_image_of_mem _ vs)
    have k3 := hm _ (Finset.mem_image_of_mem (fun s => - cost D s) vt)
    simp only [cost_squeeze h0] at k2 k3
    rw [div_lt_iff₀ g0] at hn0
    have k4 : (2 : ℚ) ^ n0 ≤ 2 ^ n := pow_le_pow_right₀ one_le_two hn
    have k5 : (2 : ℚ) ^ n0 * g ≤ 2 ^ n * g := mul_le_mul_of_nonneg_right k4 g0.le
    have k6 : (2 : ℚ) ^ n * g ≤ 2 ^ n * (lrQ D d C L lam t - lrQ D d C L lam s) :=
      mul_le_mul_of_nonneg_left (by linarith) (by positivity)
    linarith

/-- With a bound on the consecutive increases the heuristic returns. -/
theorem lrEnds_bound (o : LrOpts) (hs : Symm D) (hn : ∀ i j, 0 ≤ D i j) (h0 : D 0 0 = 0) {init : List ℕ} {lam : Lambdas}
    (hc : customers init ≠ []) (hl : Priced C L lam.lc lam.ll) {K : ℕ} (hK : o.max_incs = some K) {sol : List ℕ} (incs : ℕ)
    (hd : DepotEnds sol) (hp : (customers sol).Perm (customers init)) : LrEnds o D d C L (.search sol lam incs) := by
  obtain ⟨V, hV⟩ := finite_solutions init
  obtain ⟨n0, hn0⟩ := lr_large (D := D) (d := d) (C := C) (L := L) h0 lam init
  -- better solutions for large multipliers
  let R : List ℕ → List ℕ → Prop := fun t s =>
    lrQ D d C L lam t < lrQ D d C L lam s ∨ (lrQ D d C L lam t = lrQ D d C L lam s ∧ cost D t < cost D s)
  classical
  let rank : List ℕ → ℕ := fun s => (V.filter fun t => R t s).card
  have hrank : ∀ s t, DepotEnds t → (customers t).Perm (customers init) → R t s → rank t < rank s := by
    intro s t dt pt hts
    apply Finset.card_lt_card
    rw [Finset.ssubset_iff_of_subset]
    · refine ⟨squeeze t, Finset.mem_filter.2 ⟨hV t dt pt, ?_⟩, fun hh => ?_⟩
      · simpa only [R, lrQ_squeeze, cost_squeeze h0] using hts
      · have := (Finset.mem_filter.1 hh).2
        simp only [R, lrQ_squeeze, cost_squeeze h0, lt_irrefl, and_false, or_false] at this
    · intro u hu
      obtain ⟨u1, u2⟩ := Finset.mem_filter.1 hu
      refine Finset.mem_filter.2 ⟨u1, ?_⟩
      rcases u2 with u2 | ⟨u2, u3⟩ <;> rcases hts with h | ⟨h, h'⟩
      · left; linarith
      · left; linarith
      · left; linarith
      · right; exact ⟨by rw [u2, h], by linarith⟩
  -- large multipliers
  have large : ∀ r : ℕ, ∀ k : ℕ, ∀ n, n0 ≤ n → ∀ s incs, DepotEnds s → (customers s).Perm (customers init) → rank s ≤ r →
      K ≤ incs + k → LrEnds o D d C L (.search s (lrScale lam n) incs) := by
    intro r
    induction r using Nat.strong_induction_on with
    | _ r ihr =>
      intro k
      induction k with
      | zero =>
        intro n hnn s incs ds ps hr hk
        rcases lrStep_search (d := d) o hs h0 incs hc ds ps (lrScale_priced hl n) with ⟨s', a1, a2, a0, a3⟩ | ⟨new, a1, a2, a3, a4⟩
        · obtain ⟨st, b1, _⟩ := lrOptimum_inv (d := d) o hs (incs := incs) a1 a2 (lrScale_priced hl n) hc
          refine lrEnds_step (a3.trans b1) ?_
          rcases lrOptimum_cases o hs hn h0 (lrScale_priced hl n) hc a1 a2 b1 with h | ⟨rfl, h, _⟩
          · exact h
          · have := h K hK; omega
        · have hR := hn0 n hnn s new ds a1 ps a2 (by have := S_EPS_pos; linarith)
          have := hrank s new a1 a2 hR
          exact lrEnds_step a4 (ihr (rank new) (by omega) K n hnn new 0 a1 a2 (le_refl _) (by omega))
      | succ k ihk =>
        intro n hnn s incs ds ps hr hk
        rcases lrStep_search (d := d) o hs h0 incs hc ds ps (lrScale_priced hl n) with ⟨s', a1, a2, a0, a3⟩ | ⟨new, a1, a2, a3, a4⟩
        · obtain ⟨st, b1, _⟩ := lrOptimum_inv (d := d) o hs (incs := incs) a1 a2 (lrScale_priced hl n) hc
          refine lrEnds_step (a3.trans b1) ?_
          rcases lrOptimum_cases o hs hn h0 (lrScale_priced hl n) hc a1 a2 b1 with h | ⟨rfl, h, _⟩
          · exact h
          · rw [lrScale_succ]
            have hrk : rank s' = rank s := by
              simp only [rank, R]
              rw [← lrQ_squeeze lam s', ← cost_squeeze h0 s', a0, lrQ_squeeze, cost_squeeze h0]
            exact ihk (n + 1) (by omega) s' (incs + 1) a1 a2 (by omega) (by omega)
        · have hR := hn0 n hnn s new ds a1 ps a2 (by have := S_EPS_pos; linarith)
          have := hrank s new a1 a2 hR
          exact lrEnds_step a4 (ihr (rank new) (by omega) K n hnn new 0 a1 a2 (le_refl _) (by omega))
  -- multipliers that are not yet large
  have small : ∀ k n, n0 ≤ n + k → ∀ s incs, DepotEnds s → (customers s).Perm (customers init) →
      LrEnds o D d C L (.search s (lrScale lam n) incs) := by
    intro k
    induction k with
    | zero => intro n hnn s incs ds ps; exact large (rank s) K n hnn s incs ds ps (le_refl _) (by omega)
    | succ k ih =>
      intro n hnn s incs ds ps
      refine lrEnds_search o hs hn h0 hc (lrScale_priced hl n) (fun s incs st a1 a2 a3 => ?_) incs ds ps
      rcases lrOptimum_cases o hs hn h0 (lrScale_priced hl n) hc a1 a2 a3 with h | ⟨rfl, _, _⟩
      · exact h
      · rw [lrScale_succ]
        exact ih (n + 1) (by omega) s _ a1 a2
  have := small n0 0 (by omega) sol incs hd hp
  rwa [lrScale_zero] at this

end
end Verif
