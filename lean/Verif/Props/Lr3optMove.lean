import Verif.Lemmas.Lr3optRoutes
import Verif.Props.Star

/-!
# C43: the relaxed moves of Stewart and Golden

`do_3optstar_move` with the checker `_check_lr3opt_move`, which does not enforce the limits but makes the routes
pay for what they have too much. The statements use the objective `Spec.relaxed`.
-/

namespace Verif
open Spec

theorem lamOk_of_priced {C L : Option ℚ} {lam : Lambdas} (h : Priced C L lam.lc lam.ll) : LamOk C L lam := by
  refine ⟨fun ht => ?_, fun ht => ?_, ?_, ?_, fun c hc => (h.cap c hc).1, fun c hc => (h.len c hc).1⟩
  · cases hC : C with
    | none => simp [hC, truthy] at ht
    | some c => exact (h.cap c hC).2 (by simpa [hC, truthy] using ht)
  · cases hL : L with
    | none => simp [hL, truthy] at ht
    | some c => exact (h.len c hL).2 (by simpa [hL, truthy] using ht)
  · cases hx : lam.lc with
    | none => exact le_refl _
    | some x => exact h.pc x hx
  · cases hx : lam.ll with
    | none => exact le_refl _
    | some x => exact h.pl x hx

section
variable {D : ℕ → ℕ → ℚ} {d : ℕ → ℚ} {C L : Option ℚ} {lam : Lambdas}

theorem lrPay_nil (h0 : D 0 0 = 0) (hl : LamOk C L lam) : lrPay D d C L lam [] = 0 := by
  unfold lrPay penalty
  have e : cost D (wrap []) = 0 := by simp [wrap, cost, h0]
  rw [overrun_zero hl.cap (by simp [demand, C_EPS_pos.le]), e, overrun_zero hl.len S_EPS_pos.le]
  ring

theorem lrPay_reverse (hs : Symm D) (b : List ℕ) : lrPay D d C L lam b.reverse = lrPay D d C L lam b := by
  unfold lrPay penalty
  rw [demand_reverse, wrap_reverse, cost_reverse hs]

/-- The change of the relaxed objective that the checker computes is right. -/
theorem lr3opt_change (hs : Symm D) (h0 : D 0 0 = 0) (hl : LamOk C L lam) {sol : List ℕ} {c : S3Cand}
    {A B S E B1 B2 S1 S2 : List ℕ} (h : S3Case D d C L sol c A B S E B1 B2 S1 S2) :
    relaxed D d C L (lam.lc.getD 0) (lam.ll.getD 0) (s3Parts A B S E B1 B2 S1 S2 c.mv.idx).flatten =
      relaxed D d C L (lam.lc.getD 0) (lam.ll.getD 0) sol +
      (s3Delta D c.t c.mv.edges - ((s3Walk0 A B S E).map (chkPen D d C L lam)).sum +
        ((s3Walk A B S E c.mv.idx).map (chkPen D d C L lam)).sum) := by
  have hf := lrPay_nil (d := d) h0 hl
  have hr := lrPay_reverse (d := d) (C := C) (L := L) (lam := lam) hs
  have t1 : penalties D d C L (lam.lc.getD 0) (lam.ll.getD 0) (s3Parts A B S E B1 B2 S1 S2 c.mv.idx).flatten = _ :=
    s3Parts_tot hf hr h.tab.hE (s3Moves_idx h.mem).2 h.h12 h.h34
  have t2 : penalties D d C L (lam.lc.getD 0) (lam.ll.getD 0) (A ++ (B ++ (S ++ E))) = _ := tot_chain3 hf A B S h.tab.hE
  unfold relaxed
  rw [t1, s3Parts_cost hs h.tab h.mem h.h12 h.h34, h.sol_eq, t2]
  have e : (fun x : List ℕ × List ℕ => chk (lrPay D d C L lam) x.1 x.2) = chkPen D d C L lam := rfl
  have e1 : ∀ p X, chk (lrPay D d C L lam) p X = chkPen D d C L lam (p, X) := fun _ _ => rfl
  rw [e]
  simp only [s3Walk0, List.map_cons, List.map_nil, List.sum_cons, List.sum_nil, e1]
  ring

theorem relaxed_squeeze (h0 : D 0 0 = 0) (pc pl : ℚ) (sol : List ℕ) :
    relaxed D d C L pc pl (squeeze sol) = relaxed D d C L pc pl sol := by
  unfold relaxed penalties
  rw [cost_squeeze h0, blocks_squeeze]

theorem lr3opt_regular (hs : Symm D) (hl : LamOk C L lam) {sol : List ℕ} (hd : DepotEnds sol) :
    ∀ c ∈ s3Cands D d C L sol, S3Regular (check_lr3opt_move D C L lam) c.mv.edges c.t := by
  intro c hc
  obtain ⟨A, B, S, E, B1, B2, S1, S2, hcase⟩ := s3Cands_case hd hc
  refine ⟨s3Delta D c.t c.mv.edges - ((s3Walk0 A B S E).map (chkPen D d C L lam)).sum +
    ((s3Walk A B S E c.mv.idx).map (chkPen D d C L lam)).sum, true, fun bd => ?_⟩
  rw [check_lr3opt_regular hs hl hcase bd]
  simp

/-- **C43**. On a solution that starts and ends at the depot the relaxed move never raises. A solution it returns
starts and ends at the depot, visits the same customers, is better in the relaxed objective by exactly the reported
change, and by more than the tolerance on the change that was asked for. -/
theorem C43 (hs : Symm D) (h0 : D 0 0 = 0) (d : ℕ → ℚ) (hp : Priced C L lam.lc lam.ll) {sol : List ℕ}
    (hd : DepotEnds sol) (first : Bool) (best_delta : Option ℚ) :
    ∃ r, do_3optstar_move (check_lr3opt_move D C L lam) sol D d C L first best_delta = .ok r ∧
      ∀ new δ, r = some (new, δ) →
        DepotEnds new ∧ (customers new).Perm (customers sol) ∧
        relaxed D d C L (lam.lc.getD 0) (lam.ll.getD 0) new = relaxed D d C L (lam.lc.getD 0) (lam.ll.getD 0) sol + δ ∧
        δ + S_EPS < best_delta.getD 0 := by
  have hl := lamOk_of_priced hp
  obtain ⟨r, g1, g2⟩ := do_3optstar_regular hd (lr3opt_regular (d := d) hs hl hd) first best_delta
  refine ⟨r, g1, fun new δ hr => ?_⟩
  rcases g2 with ⟨rfl, _⟩ | ⟨new', δ', rfl, ⟨c, hc, A, B, S, E, B1, B2, S1, S2, hcase, k1, k2⟩, _⟩
  · exact nomatch hr
  simp only [Option.some.injEq, Prod.mk.injEq] at hr
  obtain ⟨rfl, rfl⟩ := hr
  have hb := (s3Moves_idx hcase.mem).2
  rw [check_lr3opt_regular hs hl hcase] at k1
  split at k1
  · rename_i hcond
    simp only [Except.ok.injEq, Option.some.injEq] at k1
    subst k1
    refine ⟨depotEnds_squeeze k2 (s3Parts_ends hcase.tab.hA hcase.tab.hE hb hcase.h12 hcase.h34), ?_, ?_, hcond⟩
    · rw [← customers_squeeze new', k2, customers_squeeze, hcase.sol_eq]
      exact (s3Parts_perm hb hcase.h12 hcase.h34).filter _
    · rw [← relaxed_squeeze h0 _ _ new', k2, relaxed_squeeze h0, lr3opt_change hs h0 hl hcase]
  · exact nomatch k1

theorem lr3opt_none (hs : Symm D) (h0 : D 0 0 = 0) (hl : LamOk C L lam) {sol : List ℕ} (hd : DepotEnds sol) {bd : ℚ}
    (h : ∀ c ∈ s3Cands D d C L sol, check_lr3opt_move D C L lam bd c.mv.edges c.t = .ok none)
    {A B S E new : List ℕ} (hsol : sol = A ++ B ++ S ++ E) (hA : A ≠ []) (hB : B ≠ []) (hS : S ≠ []) (hE : E ≠ [])
    (hr : Reconnected A B S E new) :
    relaxed D d C L (lam.lc.getD 0) (lam.ll.getD 0) sol + bd ≤
      relaxed D d C L (lam.lc.getD 0) (lam.ll.getD 0) new + S_EPS := by
  have e : sol = A ++ (B ++ (S ++ E)) := by rw [hsol]; simp
  obtain ⟨m, B1, B2, S1, S2, hm, h12, h34, rfl⟩ := reconnected_parts hr
  rw [e] at hd h ⊢
  obtain ⟨c, hc, rfl, hcase⟩ := s3Cands_exists (D := D) (d := d) (C := C) (L := L) hA hB hS hE hd hm h12 h34
  have hcc := h c hc
  rw [check_lr3opt_regular hs hl hcase] at hcc
  rw [lr3opt_change hs h0 hl hcase]
  split at hcc
  · exact nomatch hcc
  · rename_i hneg
    linarith

/-- **C43**, completeness. If nothing is returned then no reconnection improves the relaxed objective by more than
the tolerance on the change that was asked for. If the best move is asked for then no reconnection is better than what
is returned by more than the tolerance. -/
theorem C43_best (hs : Symm D) (h0 : D 0 0 = 0) (d : ℕ → ℚ) (hp : Priced C L lam.lc lam.ll) {sol : List ℕ}
    (hd : DepotEnds sol) (first : Bool) (best_delta : Option ℚ) {r : Option (List ℕ × ℚ)}
    (h : do_3optstar_move (check_lr3opt_move D C L lam) sol D d C L first best_delta = .ok r)
    {A B S E new' : List ℕ} (hsol : sol = A ++ B ++ S ++ E) (hA : A ≠ []) (hB : B ≠ []) (hS : S ≠ []) (hE : E ≠ [])
    (hr : Reconnected A B S E new') :
    (r = none → relaxed D d C L (lam.lc.getD 0) (lam.ll.getD 0) sol + best_delta.getD 0 ≤
      relaxed D d C L (lam.lc.getD 0) (lam.ll.getD 0) new' + S_EPS) ∧
    (first = false → ∀ new δ, r = some (new, δ) → relaxed D d C L (lam.lc.getD 0) (lam.ll.getD 0) new ≤
      relaxed D d C L (lam.lc.getD 0) (lam.ll.getD 0) new' + S_EPS) := by
  have hl := lamOk_of_priced hp
  obtain ⟨r', g1, g2⟩ := do_3optstar_regular hd (lr3opt_regular (d := d) hs hl hd) first best_delta
  rw [h] at g1
  obtain rfl := Except.ok.inj g1
  constructor
  · intro hnone
    rcases g2 with ⟨_, g⟩ | ⟨_, _, rfl, _⟩
    · exact lr3opt_none hs h0 hl hd g hsol hA hB hS hE hr
    · exact nomatch hnone
  · intro hfirst new δ hsome
    rcases g2 with ⟨rfl, _⟩ | ⟨new2, δ2, rfl, _, g⟩
    · exact nomatch hsome
    simp only [Option.some.injEq, Prod.mk.injEq] at hsome
    obtain ⟨rfl, rfl⟩ := hsome
    have := lr3opt_none hs h0 hl hd (g hfirst) hsol hA hB hS hE hr
    obtain ⟨r, k1, k2⟩ := C43 hs h0 d hp hd first best_delta
    rw [h] at k1
    obtain rfl := Except.ok.inj k1
    rw [(k2 _ _ rfl).2.2.1]
    exact this

end

/-! ## The statements are about something -/

/-- One route with all the customers is over both limits. The first move found shortens it, the best move makes two
routes of it, one of which is still over the limits. -/
example : do_3optstar_move (check_lr3opt_move starD (some 2) (some 5) ⟨some 1, some 1⟩) [0, 1, 2, 3, 4, 0, 0] starD
    (fun _ => 1) (some 2) (some 5) true none = .ok (some ([0, 2, 1, 3, 4, 0, 0], -4)) := by decide +kernel

example : do_3optstar_move (check_lr3opt_move starD (some 2) (some 5) ⟨some 1, some 1⟩) [0, 1, 2, 3, 4, 0, 0] starD
    (fun _ => 1) (some 2) (some 5) false none = .ok (some ([0, 1, 3, 2, 0, 4, 0], -9)) := by decide +kernel

example : relaxed starD (fun _ => 1) (some 2) (some 5) 1 1 [0, 1, 2, 3, 4, 0, 0] = 12 + (2 + 7) ∧
    relaxed starD (fun _ => 1) (some 2) (some 5) 1 1 [0, 1, 3, 2, 0, 4, 0] = 10 + (1 + 1) := by decide +kernel

example : Priced (some 2) (some 5) (some 1) (some 1) :=
  ⟨by rintro c ⟨⟩; simp, by rintro c ⟨⟩; simp, by rintro c ⟨⟩; norm_num, by rintro c ⟨⟩; norm_num⟩

end Verif
