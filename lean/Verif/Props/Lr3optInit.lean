import Verif.Lemmas.Lr3optInit

/-! # C44: the heuristic of Stewart and Golden -/

namespace Verif
open Spec

/-! ## The multipliers at the start -/

theorem foldl_max_ge (l : List ℚ) (a : ℚ) : a ≤ l.foldl max a ∧ ∀ x ∈ l, x ≤ l.foldl max a := by
  induction l generalizing a with
  | nil => simp
  | cons y l ih =>
    obtain ⟨h1, h2⟩ := ih (max a y)
    simp only [List.foldl_cons]
    refine ⟨le_trans (le_max_left _ _) h1, fun x hx => ?_⟩
    rcases List.mem_cons.1 hx with rfl | hx
    · exact le_trans (le_max_right _ _) h1
    · exact h2 x hx

theorem foldl_min_nonneg (l : List ℚ) (a : ℚ) (ha : 0 ≤ a) (h : ∀ x ∈ l, 0 ≤ x) : 0 ≤ l.foldl min a := by
  induction l generalizing a with
  | nil => simpa
  | cons y l ih => exact ih _ (le_min ha (h y (by simp))) fun x hx => h x (by simp [hx])

theorem max_pos {l : List ℚ} {x : ℚ} (h : x ∈ l) (hx : 0 < x) : ∃ m, l.max? = some m ∧ 0 < m := by
  cases l with
  | nil => simp at h
  | cons a l =>
    refine ⟨_, rfl, lt_of_lt_of_le hx ?_⟩
    rcases List.mem_cons.1 h with rfl | h
    · exact (foldl_max_ge l x).1
    · exact (foldl_max_ge l a).2 x h

theorem sum_nonneg_of {l : List ℚ} (h : ∀ x ∈ l, 0 ≤ x) : 0 ≤ l.sum := by
  induction l with
  | nil => simp
  | cons a l ih =>
    rw [List.sum_cons]
    exact add_nonneg (h a (by simp)) (ih fun x hx => h x (by simp [hx]))

theorem le_sum_of {l : List ℚ} (h : ∀ x ∈ l, 0 ≤ x) {x : ℚ} (hx : x ∈ l) : x ≤ l.sum := by
  induction l with
  | nil => simp at hx
  | cons a l ih =>
    rw [List.sum_cons]
    have h1 := h a (by simp)
    have h2 : 0 ≤ l.sum := sum_nonneg_of fun x hx => h x (by simp [hx])
    rcases List.mem_cons.1 hx with rfl | hx
    · linarith
    · have := ih (fun x hx => h x (by simp [hx])) hx
      linarith

theorem lrAverage_nonneg {l : List ℚ} (h : ∀ x ∈ l, 0 ≤ x) : 0 ≤ lrAverage l :=
  div_nonneg (sum_nonneg_of h) (by positivity)

section
variable {D : ℕ → ℕ → ℚ} {d : ℕ → ℚ} {C L : Option ℚ}

/-- **C44**, the multipliers. From data that is not negative, and an initial solution that is not all at one place, the
heuristic starts with prices that fit the limits. A given multiplier is kept, and a capacity without one gets a positive
one as soon as some demand is positive. -/
theorem C44_start (hn : NonNegative D d C L) (N : ℕ) {lam : Lambdas} (hc : ∀ x, lam.lc = some x → 0 ≤ x)
    (hl : ∀ x, lam.ll = some x → 0 ≤ x) {init : List ℕ} (hD : ∃ i ∈ init, ∃ j ∈ init, 0 < D i j) :
    ∃ lam', lrStart D d N C L lam init = .ok (some lam') ∧ Priced C L lam'.lc lam'.ll ∧
      (∀ x, lam.lc = some x → lam'.lc = some x) ∧ (∀ x, lam.ll = some x → lam'.ll = some x) ∧
      ((∃ c, C = some c ∧ c ≠ 0) → lam.lc = none → (∃ i, i < N ∧ 0 < d i) → ∃ x, lam'.lc = some x ∧ 0 < x) := by
  obtain ⟨i, hi, j, hj, hij⟩ := hD
  obtain ⟨m, hm, hm0⟩ := max_pos (l := init.flatMap fun i => init.map fun j => D i j) (x := D i j)
    (by simp only [List.mem_flatMap, List.mem_map]; exact ⟨i, hi, j, hj, rfl⟩) hij
  have hm' : lrMax D init = some m := hm
  have hd0 : ∀ x ∈ (List.range N).map d, 0 ≤ x := by
    intro x hx
    obtain ⟨i, _, rfl⟩ := List.mem_map.1 hx
    exact hn.dem i
  have ha : 0 ≤ lrAverage ((List.range N).map d) / (20 * m) := div_nonneg (lrAverage_nonneg hd0) (by linarith)
  have hb : 0 ≤ lrAverage (lrClosest D N m) / (10 * m) := by
    refine div_nonneg (lrAverage_nonneg fun x hx => ?_) (by linarith)
    unfold lrClosest at hx
    obtain ⟨j, _, rfl⟩ := List.mem_map.1 hx
    have hall : ∀ x ∈ (List.range N).map fun i => if i = j then m else D i j, 0 ≤ x := by
      intro x hx
      obtain ⟨i, _, rfl⟩ := List.mem_map.1 hx
      split
      · exact hm0.le
      · exact hn.dist _ _
    generalize (List.range N).map (fun i => if i = j then m else D i j) = l at hall
    cases l with
    | nil => exact hm0.le
    | cons a l =>
      exact foldl_min_nonneg l a (hall a (by simp)) fun x hx => hall x (by simp [hx])
  have tC : ∀ c, C = some c → c ≠ 0 → truthy C = true := by rintro c rfl h; simp [truthy, h]
  have tL : ∀ c, L = some c → c ≠ 0 → truthy L = true := by rintro c rfl h; simp [truthy, h]
  unfold lrStart
  simp only [hm', if_neg hm0.ne']
  by_cases h : (truthy C && lam.lc.isNone || truthy L && lam.ll.isNone) = true
  · rw [if_pos h]
    refine ⟨_, rfl, ⟨fun c hcc => ⟨hn.cap c hcc, fun c0 => ?_⟩, fun c hcc => ⟨hn.len c hcc, fun c0 => ?_⟩, fun x hx => ?_,
      fun x hx => ?_⟩, fun x hx => by simp [hx], fun x hx => by simp [hx], fun ⟨c, h1, h2⟩ h3 ⟨i, h4, h5⟩ => ?_⟩
    · rcases hh : lam.lc with _ | x
      · simp [tC c hcc c0]
      · simp
    · rcases hh : lam.ll with _ | x
      · simp [tL c hcc c0]
      · simp
    · simp only at hx
      split at hx
      · obtain rfl := Option.some.inj hx; exact ha
      · exact hc x hx
    · simp only at hx
      split at hx
      · obtain rfl := Option.some.inj hx; exact hb
      · exact hl x hx
    · refine ⟨lrAverage ((List.range N).map d) / (20 * m), by simp [tC c h1 h2, h3], ?_⟩
      apply div_pos _ (by linarith)
      unfold lrAverage
      have := le_sum_of hd0 (List.mem_map.2 ⟨i, List.mem_range.2 h4, rfl⟩)
      have hN : (0 : ℚ) < N := by exact_mod_cast (by omega : 0 < N)
      apply div_pos (by linarith)
      simpa using hN
  · rw [if_neg h]
    simp only [Bool.or_eq_true, Bool.and_eq_true, not_or, not_and, Bool.not_eq_true, Option.isNone_eq_false_iff] at h
    refine ⟨_, rfl, ⟨fun c hcc => ⟨hn.cap c hcc, fun c0 => ?_⟩, fun c hcc => ⟨hn.len c hcc, fun c0 => ?_⟩, hc, hl⟩,
      fun x hx => hx, fun x hx => hx, fun ⟨c, h1, h2⟩ h3 _ => ?_⟩
    · have := h.1 (tC c hcc c0)
      intro e; simp [e] at this
    · have := h.2 (tL c hcc c0)
      intro e; simp [e] at this
    · have := h.1 (tC c h1 h2)
      simp [h3] at this

/-! ## What is returned -/

theorem customers_of_apart (h0 : D 0 0 = 0) {init : List ℕ} (hD : ∃ i ∈ init, ∃ j ∈ init, 0 < D i j) : customers init ≠ [] := by
  obtain ⟨i, hi, j, hj, hij⟩ := hD
  intro e
  have hz : ∀ x ∈ init, x = 0 := by
    intro x hx
    by_contra h
    have : x ∈ customers init := by simp [customers, hx, h]
    simp [e] at this
  rw [hz i hi, hz j hj, h0] at hij
  exact lt_irrefl _ hij

/-- **C44**. The heuristic never raises. What it returns starts and ends at the depot, has no empty routes, and visits
the customers of the initial solution. A solution that it found keeps the limits, one that it forced keeps them if each
customer alone does. The same holds for what an interrupt after any number of rounds passes on. -/
theorem C44 (o : LrOpts) (hs : Symm D) (hn : NonNegative D d C L) (N : ℕ) {lam : Lambdas} (hlc : ∀ x, lam.lc = some x → 0 ≤ x)
    (hll : ∀ x, lam.ll = some x → 0 ≤ x) {init : List ℕ} (hD : ∃ i ∈ init, ∃ j ∈ init, 0 < D i j) (hd : DepotEnds init)
    (rounds : ℕ) :
    ∃ st, lr3opt_init o D d N C L lam init rounds = .ok (some st) ∧
      (∀ s, st = .done s → DepotEnds s ∧ squeeze s = s ∧ (customers s).Perm (customers init) ∧ Feasible D d C L s) ∧
      (∀ r, st = .forced r → ∃ s, r = some s ∧ DepotEnds s ∧ squeeze s = s ∧ (customers s).Perm (customers init) ∧
        ((∀ n ∈ customers init, RouteOk D d C L [n]) → Feasible D d C L s)) ∧
      ∃ s, lrInterrupted D d C L st = some s ∧ DepotEnds s ∧ squeeze s = s ∧ (customers s).Perm (customers init) ∧
        ((∀ n ∈ customers init, RouteOk D d C L [n]) → Feasible D d C L s) := by
  have hc := customers_of_apart hn.depot hD
  obtain ⟨lam', h1, h2, _⟩ := C44_start hn N hlc hll hD
  obtain ⟨st, k1, k2⟩ := lrRun_inv (D := D) (d := d) (C := C) (L := L) (init := init) o hs hn.depot hc rounds
    (st := .search init lam' 0) ⟨hd, .refl _, h2⟩
  refine ⟨st, by rw [lr3opt_init, h1]; simp only [k1], ?_, ?_, ?_⟩
  · rintro s rfl; exact k2
  · rintro r rfl; exact k2
  · cases st with
    | search sol lam incs => exact lrForced_of k2.1 k2.2.1 hc
    | post sol => exact lrForced_of k2.1 k2.2.1 hc
    | done s => exact ⟨s, rfl, k2.1, k2.2.1, k2.2.2.1, fun _ => k2.2.2.2⟩
    | forced r => exact k2

/-- **C44**, the end. If the number of consecutive increases is bounded, or the multiplier for the capacity is
positive, then the heuristic returns. -/
theorem C44_ends_partial (o : LrOpts) (hs : Symm D) (hn : NonNegative D d C L) (N : ℕ) {lam : Lambdas} (hlc : ∀ x, lam.lc = some x → 0 ≤ x)
    (hll : ∀ x, lam.ll = some x → 0 ≤ x) {init : List ℕ} (hD : ∃ i ∈ init, ∃ j ∈ init, 0 < D i j) (hd : DepotEnds init)
    (hend : (∃ K, o.max_incs = some K) ∨ (∃ x, lam.lc = some x ∧ 0 < x) ∨
      ((∃ c, C = some c ∧ c ≠ 0) ∧ lam.lc = none ∧ ∃ i, i < N ∧ 0 < d i)) :
    ∃ F st, ((∃ s, st = .done s) ∨ ∃ s, st = .forced s) ∧
      ∀ rounds, F ≤ rounds → lr3opt_init o D d N C L lam init rounds = .ok (some st) := by
  have hc := customers_of_apart hn.depot hD
  obtain ⟨lam', h1, h2, h3, _, h4⟩ := C44_start hn N hlc hll hD
  have he : LrEnds o D d C L (.search init lam' 0) := by
    rcases hend with ⟨K, hK⟩ | ⟨x, hx, hx0⟩ | ⟨a, b, c⟩
    · exact lrEnds_bound o hs hn.dist hn.depot hc h2 hK 0 hd (.refl _)
    · exact lrEnds_capacity o hs hn.dist hn.depot hc h2 (h3 x hx) hx0 0 hd (.refl _)
    · obtain ⟨x, hx, hx0⟩ := h4 a b c
      exact lrEnds_capacity o hs hn.dist hn.depot hc h2 hx hx0 0 hd (.refl _)
  obtain ⟨F, s, f1, f2⟩ := he.all
  refine ⟨F, s, ?_, fun rounds hr => by rw [lr3opt_init, h1]; simp only [f2 rounds hr]⟩
  cases s with
  | search _ _ _ => exact f1.elim
  | post _ => exact f1.elim
  | done s => exact .inl ⟨s, rfl⟩
  | forced s => exact .inr ⟨s, rfl⟩

/-- No reconnection that keeps the limits is better by more than the tolerance. -/
def Spec.Star3Optimal (D : ℕ → ℕ → ℚ) (d : ℕ → ℚ) (C L : Option ℚ) (sol : List ℕ) : Prop :=
  ∀ A B S E new, sol = A ++ B ++ S ++ E → A ≠ [] → B ≠ [] → S ≠ [] → E ≠ [] → Reconnected A B S E new →
    Feasible D d C L new → cost D sol ≤ cost D new + S_EPS

theorem lrRun_done {o : LrOpts} (P : LrState → Prop) {init : List ℕ} (hs : Symm D) (h0 : D 0 0 = 0) (hc : customers init ≠ [])
    (hP : ∀ st st', LrInv D d C L init st → P st → lrStep o D d C L st = .ok st' → P st') {st st' : LrState} {n : ℕ}
    (hi : LrInv D d C L init st) (h : P st) (hr : lrRun o D d C L n st = .ok st') : P st' := by
  induction n generalizing st with
  | zero =>
    obtain rfl := Except.ok.inj (show Except.ok st = Except.ok st' from hr)
    exact h
  | succ n ih =>
    obtain ⟨s, h1, h2⟩ := lrStep_inv o hs h0 hc hi
    rw [lrRun, h1] at hr
    exact ih h2 (hP _ _ hi h h1) hr

/-- **C44**, the quality. With the postoptimization a solution that the heuristic found has the routes of one that no
reconnection within the limits improves by more than the tolerance. -/
theorem C44_optimal {o : LrOpts} (ho : o.postoptimize = true) (hs : Symm D) (hn : NonNegative D d C L) {N : ℕ} {lam : Lambdas}
    (hlc : ∀ x, lam.lc = some x → 0 ≤ x) (hll : ∀ x, lam.ll = some x → 0 ≤ x) {init : List ℕ}
    (hD : ∃ i ∈ init, ∃ j ∈ init, 0 < D i j) (hd : DepotEnds init) {rounds : ℕ} {s : List ℕ}
    (h : lr3opt_init o D d N C L lam init rounds = .ok (some (.done s))) :
    ∃ t, DepotEnds t ∧ SameRoutes (blocks t) (blocks s) ∧ Star3Optimal D d C L t := by
  have hc := customers_of_apart hn.depot hD
  obtain ⟨lam', h1, h2, _⟩ := C44_start hn N hlc hll hD
  rw [lr3opt_init, h1] at h
  simp only at h
  have hret : ∀ t st, lrReturn t = .ok st → ∃ s, normalize_solution t = .ok s ∧ st = .done s := by
    intro t st ht
    unfold lrReturn at ht
    split at ht
    · exact nomatch ht
    · rename_i s hs
      exact ⟨s, hs, (Except.ok.inj ht).symm⟩
  have hopt : ∀ sol lam incs st, lrOptimum o D d C L sol lam incs = .ok st → ∀ s, st ≠ .done s := by
    rintro sol lam incs st hst s rfl
    unfold lrOptimum at hst
    rw [if_pos ho] at hst
    split at hst
    · exact nomatch hst
    · simp only [lrTighten] at hst
      split at hst <;> exact nomatch hst
  have key := lrRun_done (D := D) (d := d) (C := C) (L := L) (init := init) (o := o)
    (fun st => ∀ s, st = .done s → ∃ t, DepotEnds t ∧ SameRoutes (blocks t) (blocks s) ∧ Star3Optimal D d C L t) hs hn.depot hc
    (fun st st' hi hP hst => by
      rintro s rfl
      cases st with
      | search sol lam incs =>
        exfalso
        rw [lrStep] at hst
        split at hst
        · exact nomatch hst
        split at hst
        · exact nomatch hst
        · exact hopt _ _ _ _ hst s rfl
        · split at hst
          · exact hopt _ _ _ _ hst s rfl
          · exact nomatch hst
      | post sol =>
        obtain ⟨hd, hp, hf⟩ := hi
        rw [lrStep] at hst
        split at hst
        · exact nomatch hst
        · rename_i hmv
          obtain ⟨s', n1, n2⟩ := hret _ _ hst
          obtain rfl : s = s' := by simpa using n2
          obtain ⟨n, m1, m2, m3, _⟩ := C08_normalize sol (by rintro rfl; simp [DepotEnds] at hd)
          rw [n1] at m1
          obtain rfl := Except.ok.inj m1
          refine ⟨sol, hd, m3, fun A B S E new e hA hB hS hE hr hfn => ?_⟩
          have := (C22_best hs hn hd true none hmv e hA hB hS hE hr hfn).1 rfl
          simpa using this
        · exact nomatch hst
      | done s' =>
        exact hP s (Except.ok.inj (show Except.ok (LrState.done s') = Except.ok (LrState.done s) from hst))
      | forced r => exact nomatch hst)
    (st := .search init lam' 0) (n := rounds) ⟨hd, .refl _, h2⟩ ((fun s e => nomatch e)) (st' := .done s) (by
      split at h
      · exact nomatch h
      · rename_i s' hs'
        rw [hs']
        have := Option.some.inj (Except.ok.inj h)
        rw [this])
  exact key s rfl

/-- **C44**, the postoptimization does not worsen the feasible solution that it starts from. -/
theorem C44_post (o : LrOpts) (hs : Symm D) (h0 : D 0 0 = 0) {sol : List ℕ} (hd : DepotEnds sol) (hc : customers sol ≠ [])
    (hf : Feasible D d C L sol) {rounds : ℕ} {s : List ℕ} (h : lrRun o D d C L rounds (.post sol) = .ok (.done s)) :
    cost D s ≤ cost D sol := by
  have key := lrRun_done (D := D) (d := d) (C := C) (L := L) (init := sol) (o := o)
    (fun st => (∀ t, st = .done t → cost D t ≤ cost D sol) ∧ (∀ t, st = .post t → cost D t ≤ cost D sol) ∧
      ∀ t lam incs, st ≠ .search t lam incs) hs h0 hc
    (fun st st' hi hP hst => by
      cases st with
      | search t lam incs => exact absurd rfl (hP.2.2 t lam incs)
      | post t =>
        obtain ⟨hd, hp, hf⟩ := hi
        have ht := hP.2.1 t rfl
        obtain ⟨r, g1, g2⟩ := C22 (D := D) hs h0 d C L hd true none
        rw [lrStep, g1] at hst
        rcases r with _ | ⟨new, δ⟩
        · obtain ⟨n, m1, m2, m3⟩ := C08_normalize_cost t hd D h0 hs
          simp only [lrReturn, m1] at hst
          obtain rfl := Except.ok.inj hst
          refine ⟨fun u hu => ?_, (fun u hu => nomatch hu), (fun _ _ _ hu => nomatch hu)⟩
          obtain rfl : n = u := by simpa using hu
          rw [m3]; exact ht
        · obtain ⟨_, _, k3, k4, _⟩ := g2 new δ rfl
          obtain rfl := Except.ok.inj hst
          refine ⟨(fun u hu => nomatch hu), fun u hu => ?_, (fun _ _ _ hu => nomatch hu)⟩
          obtain rfl : new = u := by simpa using hu
          have := S_EPS_pos
          simp only [Option.getD_none] at k4
          linarith
      | done t =>
        obtain rfl := Except.ok.inj (show Except.ok (LrState.done t) = Except.ok st' from hst)
        exact hP
      | forced r =>
        obtain rfl := Except.ok.inj (show Except.ok (LrState.forced r) = Except.ok st' from hst)
        exact hP)
    (st := .post sol) ⟨hd, .refl _, hf⟩
    ⟨(fun t e => nomatch e), fun t e => le_of_eq (by rw [show sol = t by simpa using e]), (fun _ _ _ e => nomatch e)⟩ h
  exact key.1 s rfl

/-- **C44**, the move of the relaxed problem never gives back the solution it was asked to improve, so the test for
that, a quick fix by its comment, never holds. -/
theorem C44_no_repeat (hs : Symm D) (h0 : D 0 0 = 0) {lam : Lambdas} (hp : Priced C L lam.lc lam.ll) {sol new : List ℕ} {δ : ℚ}
    (hd : DepotEnds sol) (h : do_3optstar_move (check_lr3opt_move D C L lam) sol D d C L true none = .ok (some (new, δ))) :
    new ≠ sol := by
  obtain ⟨r, g1, g2⟩ := C43 (D := D) hs h0 d hp hd true none
  rw [h] at g1
  obtain rfl := Except.ok.inj g1
  obtain ⟨_, _, k3, k4⟩ := g2 new δ rfl
  rintro rfl
  have := S_EPS_pos
  simp only [Option.getD_none] at k4
  linarith

end

/-! ## Without a capacity the heuristic may never return -/

/-- One customer at distance ten. -/
def farD : ℕ → ℕ → ℚ := fun i j => if i = j then 0 else 10

theorem squeeze_one {s : List ℕ} (hd : DepotEnds s) (hp : (customers s).Perm [1]) : squeeze s = [0, 1, 0] := by
  have e : customers s = [1] := List.perm_singleton.1 hp
  rw [squeeze_depotEnds hd]
  have hf : (blocks s).flatten = [1] := by rw [blocks_flatten, e]
  have hb : ∀ b ∈ blocks s, b ≠ [] := fun b hb => (mem_blocks s b hb).1
  generalize blocks s = bs at hf hb
  match bs, hf, hb with
  | [], hf, _ => simp at hf
  | [b], hf, _ =>
    simp at hf; subst hf; rfl
  | a :: b :: t, hf, hb =>
    exfalso
    have h1 := List.length_pos_iff.2 (hb a (by simp))
    have h2 := List.length_pos_iff.2 (hb b (by simp))
    have := congrArg List.length hf
    simp at this
    omega

/-- **C44**, a run that never ends. A customer beyond the limit for the route cost, no limit for the demand: the
multiplier is doubled for ever, since the test for infinity looks at the multiplier of the other limit. -/
theorem C44_endless (post : Bool) (huge : ℚ) (rounds : ℕ) : ∃ sol lam incs,
    lr3opt_init ⟨post, none, huge⟩ farD (fun _ => 1) 2 none (some 1) ⟨none, none⟩ [0, 1, 0] rounds =
      .ok (some (.search sol lam incs)) := by
  have hs : Symm farD := by intro i j; simp [farD, eq_comm]
  have h0 : farD 0 0 = 0 := rfl
  have hstart : lrStart farD (fun _ => 1) 2 none (some 1) ⟨none, none⟩ [0, 1, 0] = .ok (some ⟨none, some (1 / 10)⟩) := by
    decide +kernel
  have key : ∀ n sol lam incs, DepotEnds sol → (customers sol).Perm [1] → lam.lc = none → Priced none (some 1) lam.lc lam.ll →
      ∃ sol' lam' incs', lrRun ⟨post, none, huge⟩ farD (fun _ => 1) none (some 1) n (.search sol lam incs) =
        .ok (.search sol' lam' incs') := by
    intro n
    induction n with
    | zero => intro sol lam incs _ _ _ _; exact ⟨sol, lam, incs, rfl⟩
    | succ n ih =>
      intro sol lam incs hd hp hlc hl
      rcases lrStep_search (D := farD) (d := fun _ => 1) (C := none) (L := some 1) (init := [0, 1, 0]) ⟨post, none, huge⟩ hs h0 incs
        (by decide) hd hp hl with ⟨s, a1, a2, _, a3⟩ | ⟨new, a1, a2, a3, _⟩
      · have hno : ¬ check_CL_constraints s farD (fun _ => 1) none (some 1) = true := by
          intro h
          have hf := C32_check_sound a1 h
          have hb : blocks s = [[1]] := by
            rw [← blocks_squeeze, squeeze_one a1 a2]; decide
          have := (hf [1] (by simp [hb]))
          revert this
          unfold RouteOk Within
          norm_num [farD, cost, wrap, S_EPS]
        have hst : lrOptimum ⟨post, none, huge⟩ farD (fun _ => 1) none (some 1) s lam incs = .ok (.search s (lrDouble lam) (incs + 1)) := by
          rw [lrOptimum, if_neg hno]
          simp [lrTighten, hlc, lrOver, lrDouble, lrInf]
        rw [lrRun, a3, hst]
        exact ih s _ _ a1 a2 (by simp [lrDouble, hlc]) (priced_double hl)
      · exfalso
        have : lrObj farD (fun _ => 1) none (some 1) lam new = lrObj farD (fun _ => 1) none (some 1) lam sol :=
          lrObj_squeeze h0 (by rw [squeeze_one a1 a2, squeeze_one hd hp]) lam
        rw [this] at a3
        have := S_EPS_pos
        linarith
  obtain ⟨s, l, i, h⟩ := key rounds [0, 1, 0] ⟨none, some (1 / 10)⟩ 0 (by decide) (by decide) rfl
    ⟨(fun _ e => nomatch e), by rintro c ⟨⟩; simp, (fun _ e => nomatch e), by rintro x ⟨⟩; norm_num⟩
  exact ⟨s, l, i, by rw [lr3opt_init, hstart]; simp only [h]⟩

/-! ## The statements are about something -/

/-- One route with all customers becomes two routes that keep the limits. -/
example : lr3opt_init ⟨true, none, 1000⟩ starD (fun _ => 1) 5 (some 2) (some 5) ⟨none, none⟩ [0, 1, 2, 3, 4, 0] 30 =
    .ok (some (.done [0, 1, 3, 0, 2, 4, 0])) := by decide +kernel

/-- With no increases allowed, and a limit that no route keeps, the heuristic forces single customers. -/
example : lr3opt_init ⟨true, some 0, 1000⟩ starD (fun _ => 1) 5 (some 2) (some 1) ⟨none, none⟩ [0, 1, 2, 3, 4, 0] 30 =
    .ok (some (.forced (some [0, 3, 0, 1, 0, 4, 0, 2, 0]))) := by decide +kernel

example : ∃ i ∈ [0, 1, 2, 3, 4, 0], ∃ j ∈ [0, 1, 2, 3, 4, 0], 0 < starD i j :=
  ⟨0, by simp, 1, by simp, by decide +kernel⟩

example : (∃ c : ℚ, some 2 = some c ∧ c ≠ 0) ∧ (⟨none, none⟩ : Lambdas).lc = none ∧
    ∃ i, i < 5 ∧ (0 : ℚ) < (fun _ : ℕ => (1 : ℚ)) i := ⟨⟨2, rfl, by norm_num⟩, rfl, 0, by norm_num, by norm_num⟩

end Verif
