import Verif.Lemmas.WrenHollidayLoop

/-! # Lemmas about the end of the improvement phase of Wren and Holliday -/

namespace Verif

open Spec

variable {I : WhInput}

theorem whLoop_step {fuel : ℕ} {s s' : WhState} (hs : s.stage ≠ .stopped) (e : whStep fuel I s = .ok (some s')) (n : ℕ) :
    whLoop fuel I (n + 1) s = whLoop fuel I n s' := by
  rw [whLoop, if_neg hs, e]

theorem whLoop_stopped {fuel : ℕ} {s : WhState} (hs : s.stage = .stopped) (n : ℕ) :
    whLoop fuel I n s = .ok (some (s, n)) := by
  cases n with
  | zero => rfl
  | succ n => rw [whLoop, if_pos hs]

/-- INSPECT, SINGLE and the Q-point. -/
theorem iteration_first (h : WhInputOk I) (hm : I.minimize_K = true) {s : WhState} (hr : WhRoutes I s.routes)
    (hs : s.stage = .inspect) :
    ∃ r b, Tidied I (remove_empty s.routes) r b ∧ ∃ F, ∀ fuel, F ≤ fuel → ∀ n, whLoop fuel I (n + 2) s =
      whLoop fuel I n (whQPoint { s with routes := r, changed := b, stage := .single }) := by
  have ho : whOpen I s.routes = remove_empty s.routes := by rw [whOpen, if_pos hm]
  have hr0 := whRoutes_open h hr
  rw [ho] at hr0
  obtain ⟨rds1, b1, ⟨F1, e1⟩, p1, -⟩ := inspect_spec (L := I.L) h.symm h.dist hr0.good
  have t1 := tidied_prog h hr0 p1
  obtain ⟨rds2, b2, ⟨F2, e2⟩, p2, -⟩ := single_spec (L := I.L) h.dist t1.routes.good
  have t2 := tidied_prog h t1.routes p2
  refine ⟨_, _, tidied_trans t1 t2, F1 + F2, fun fuel hf n => ?_⟩
  have s1 : whStep fuel I s = .ok (some { s with routes := whTidy I b1 rds1, changed := b1, stage := .single }) := by
    rw [show whStep fuel I s = whStepInspect fuel I s by simp only [whStep, hs], whStepInspect, ho, e1 fuel (by omega)]
  rw [show n + 2 = n + 1 + 1 from rfl, whLoop_step (by rw [hs]; decide) s1]
  refine whLoop_step (by simp) ?_ n
  simp only [whStep, whStepSingle, e2 fuel (by omega : F2 ≤ fuel)]

/-- PAIR, DELETE and DISENTANGLE. -/
theorem iteration_second (h : WhInputOk I) (hm : I.minimize_K = true) {s : WhState} (hr : WhRoutes I s.routes)
    (hs : s.stage = .pair) :
    ∃ r b s', (∃ F, ∀ fuel, F ≤ fuel → ∀ n, whLoop fuel I (n + 3) s = whLoop fuel I n (whStop I s')) ∧
      Tidied I s.routes r b ∧ WhRoutes I s'.routes ∧ s'.converging = s.converging ∧ s'.prev_Q = s.prev_Q ∧
      (remove_empty s'.routes).length ≤ r.length ∧
      (((remove_empty s'.routes).length < r.length) ∨
        (tot I.D s'.routes ≤ tot I.D r ∧ s'.deleted = false ∧ (s'.changed = true → s.changed = true ∨ b = true))) := by
  have hN : 0 < I.N := by have := h.size; omega
  -- PAIR
  obtain ⟨r, b, t1, e1⟩ : ∃ r b, Tidied I s.routes r b ∧
      whStepPair I s = .ok { s with routes := r, changed := s.changed || b, stage := .delete } := by
    by_cases h80 : I.N ≤ 80
    · obtain ⟨rds', b, e, p, -⟩ := pair_spec (L := I.L) hN hr.good
      exact ⟨_, b, tidied_prog h hr p, by rw [whStepPair, if_pos h80, e]⟩
    · exact ⟨s.routes, false, ⟨hr, le_rfl, by simp, fun _ => rfl⟩, by rw [whStepPair, if_neg h80]; simp⟩
  -- DELETE
  obtain ⟨s2, e2, r2, c2, q2, st2, l2⟩ : ∃ s2, whStepDelete I { s with routes := r, changed := s.changed || b, stage := .delete } =
      .ok s2 ∧ WhRoutes I s2.routes ∧ s2.converging = s.converging ∧ s2.prev_Q = s.prev_Q ∧ s2.stage = .disentangle ∧
      (s2.routes.length < r.length ∨ (s2.routes = r ∧ s2.deleted = false ∧ s2.changed = (s.changed || b))) := by
    by_cases hd : s.deleted = true
    · obtain ⟨rds', b', e, p0, p1⟩ := delete_spec (L := I.L) h.triangle h.depot h.dem0 h.dist t1.routes.good
      refine ⟨{ s with routes := whTidy I b' rds', deleted := b', changed := s.changed || b || b',
                       stage := .disentangle }, ?_, ?_, rfl, rfl, rfl, ?_⟩
      · rw [whStepDelete, if_pos hd, e]
      · refine whRoutes_tidy ?_ b'
        cases b' with
        | false => rw [p0 rfl]; exact t1.routes
        | true =>
          obtain ⟨x, p, -⟩ := p1 rfl
          exact whRoutes_keeps h t1.routes p
      · cases b' with
        | false =>
          right
          refine ⟨?_, rfl, by simp⟩
          simp only [whTidy, Bool.false_and, Bool.false_eq_true, if_false]
          exact p0 rfl
        | true =>
          left
          obtain ⟨x, p⟩ := p1 rfl
          have := deleted_length p
          simp only [whTidy, hm, Bool.and_self, if_true]
          exact this.trans_le (remove_length_le r)
    · refine ⟨{ s with routes := r, changed := s.changed || b, stage := .disentangle }, ?_, t1.routes, rfl, rfl, rfl,
        .inr ⟨rfl, by simpa using hd, rfl⟩⟩
      rw [whStepDelete, if_neg hd]
  -- DISENTANGLE
  obtain ⟨rds', ⟨F, e3⟩, p⟩ := disentangle_spec h.toWhCase r2.good r2.all
  refine ⟨r, b, { s2 with routes := rds' }, ⟨F, fun fuel hf n => ?_⟩, t1, whRoutes_keeps h r2 p.toWhKeeps, c2, q2,
    ?_, ?_⟩
  · have a1 : whStep fuel I s = .ok (some { s with routes := r, changed := s.changed || b, stage := .delete }) := by
      simp only [whStep, hs]
      rw [e1]
    have a2 : whStep fuel I { s with routes := r, changed := s.changed || b, stage := .delete } = .ok (some s2) := by
      simp only [whStep]
      rw [e2]
    have a3 : whStep fuel I s2 = .ok (some (whStop I { s2 with routes := rds' })) := by
      rw [show whStep fuel I s2 = whStepDisentangle fuel I s2 by simp only [whStep, st2], whStepDisentangle, e3 fuel hf]
      simp [whTidy]
    rw [show n + 3 = n + 2 + 1 from rfl, whLoop_step (by rw [hs]; decide) a1, show n + 2 = n + 1 + 1 from rfl,
      whLoop_step (by simp) a2, whLoop_step (by rw [st2]; decide) a3]
  · have f := p.fewer
    have := remove_length_le s2.routes
    rcases l2 with l2 | ⟨l2, -⟩
    · simp only; omega
    · rw [l2] at f this; simp only; omega
  · have f := p.fewer
    have hle := remove_length_le s2.routes
    rcases l2 with l2 | ⟨l2, l3, l4⟩
    · left; simp only; omega
    · rw [l2] at f hle
      by_cases he : (remove_empty rds').length < r.length
      · exact .inl he
      · right
        refine ⟨?_, l3, fun hc => ?_⟩
        · rcases p.gain (by rw [l2]; omega) with g | g
          · rw [g, l2]
          · rw [l2] at g
            have := S_EPS_pos
            simp only
            linarith
        · simp only [l4, Bool.or_eq_true] at hc
          exact hc

/-- Whether the last Q-point saw another cost. -/
def whOld (I : WhInput) (s : WhState) : ℕ := if s.prev_Q = some (tot I.D s.routes) then 0 else 1

/-- An iteration ends the loop or gets closer to the end. -/
theorem iteration (h : WhInputOk I) (hm : I.minimize_K = true) {s : WhState} (hr : WhRoutes I s.routes)
    (hs : s.stage = .inspect) :
    ∃ s' k, (∃ F, ∀ fuel, F ≤ fuel → ∀ n, whLoop fuel I (n + k) s = whLoop fuel I n s') ∧ WhRoutes I s'.routes ∧
      (s'.stage = .stopped ∨ (s'.stage = .inspect ∧
        ((remove_empty s'.routes).length < (remove_empty s.routes).length ∨
          ((remove_empty s'.routes).length = (remove_empty s.routes).length ∧
            (tot I.D s'.routes + S_EPS < tot I.D s.routes ∨
              (tot I.D s'.routes = tot I.D s.routes ∧ whOld I s' < whOld I s)))))) := by
  obtain ⟨r, b, t, F1, e1⟩ := iteration_first h hm hr hs
  have hc0 : tot I.D (remove_empty s.routes) = tot I.D s.routes := tot_remove_empty hr.good h.depot
  have hsum : (r.map (·.cost)).sum = tot I.D r := sum_costs t.routes.good
  have hle := remove_length_le r
  have htl := t.length
  generalize hred : (match s.prev_Q with
    | none => true
    | some q => decide ((r.map (fun y : RouteData => y.cost)).sum < q * (95 / 100))) = red at *
  have eQ : whQPoint { s with routes := r, changed := b, stage := .single } =
      { s with routes := r, changed := b, sol_f := tot I.D r, prev_Q := some (tot I.D r), converging := !red
               stage := if red then .inspect else .pair } := by
    rw [← hred]
    simp only [whQPoint]
    cases s.prev_Q <;> simp only [hsum]
  rw [eQ] at e1
  cases red with
  | true =>
    refine ⟨_, 2, ⟨F1, e1⟩, t.routes, .inr ⟨rfl, ?_⟩⟩
    simp only
    by_cases hlt : (remove_empty r).length < (remove_empty s.routes).length
    · exact .inl hlt
    · refine .inr ⟨by omega, ?_⟩
      cases b with
      | true => left; rw [← hc0]; exact t.gain rfl
      | false =>
        right
        have hrr := t.none rfl
        rw [hrr]
        refine ⟨hc0, ?_⟩
        have h1 : whOld I s = 1 := by
          rw [whOld, if_neg]
          intro hq
          rw [hq] at hred
          simp only [decide_eq_true_eq] at hred
          rw [hsum, hrr, hc0] at hred
          have := tot_nonneg h.dist s.routes
          linarith
        rw [h1]
        simp [whOld]
  | false =>
    obtain ⟨r2, b2, s2, ⟨F2, e2⟩, t2, k1, k2, k3, k4, k5⟩ := iteration_second h hm
      (s := { s with routes := r, changed := b, sol_f := tot I.D r, prev_Q := some (tot I.D r), converging := !false
                     stage := if false = true then .inspect else .pair }) t.routes rfl
    simp only at t2 k2 k3 k5
    refine ⟨whStop I s2, 5, ⟨F1 + F2, fun fuel hf n => ?_⟩, k1, ?_⟩
    · rw [show n + 5 = n + 3 + 2 from rfl, e1 fuel (by omega), e2 fuel (by omega)]
    · have hl2 := t2.length
      by_cases hstop : (whStop I s2).stage = .stopped
      · exact .inl hstop
      · have hi : (whStop I s2).stage = .inspect := by
          simp only [whStop] at hstop ⊢
          exact if_neg fun hz => hstop (if_pos hz)
        refine .inr ⟨hi, ?_⟩
        have hro : (whStop I s2).routes = s2.routes := rfl
        rw [hro]
        rcases k5 with k5 | ⟨k5, k6, k7⟩
        · left; omega
        · by_cases hlt : (remove_empty s2.routes).length < (remove_empty s.routes).length
          · exact .inl hlt
          · refine .inr ⟨by omega, .inl ?_⟩
            have hch : s2.changed = true := by
              by_contra hch
              refine hstop ?_
              have hch' : s2.changed = false := by simpa using hch
              simp only [whStop, k2, k6, hch']
              cases I.full_convergence <;> simp
            have g1 := tidied_le t
            have g2 := tidied_le t2
            rcases k7 hch with hb | hb
            · have := t.gain hb
              rw [hc0] at this
              linarith
            · have := t2.gain hb
              rw [hc0] at g1
              linarith

theorem whLoop_ends (h : WhInputOk I) (hm : I.minimize_K = true) {s : WhState} (hr : WhRoutes I s.routes)
    (hs : s.stage = .inspect) :
    ∃ s' k, (∃ F, ∀ fuel, F ≤ fuel → ∀ n, whLoop fuel I (n + k) s = .ok (some (s', n))) ∧ WhRoutes I s'.routes ∧
      s'.stage = .stopped := by
  obtain ⟨b, hb⟩ := exists_bound (tot I.D s.routes)
  have key : ∀ p : ℕ ×ₗ (ℕ ×ₗ ℕ), ∀ s : WhState, WhRoutes I s.routes → s.stage = .inspect → ∀ b : ℕ,
      tot I.D s.routes ≤ b * S_EPS → p = toLex ((remove_empty s.routes).length, toLex (b, whOld I s)) →
      ∃ s' k, (∃ F, ∀ fuel, F ≤ fuel → ∀ n, whLoop fuel I (n + k) s = .ok (some (s', n))) ∧ WhRoutes I s'.routes ∧
        s'.stage = .stopped := by
    intro p
    induction p using WellFoundedLT.induction with
    | _ p ih =>
      rintro s hr hs b hb rfl
      obtain ⟨s1, k1, ⟨F1, e1⟩, r1, hd⟩ := iteration h hm hr hs
      have next : ∀ b' : ℕ, tot I.D s1.routes ≤ b' * S_EPS → s1.stage = .inspect →
          (toLex ((remove_empty s1.routes).length, toLex (b', whOld I s1)) : ℕ ×ₗ (ℕ ×ₗ ℕ)) <
            toLex ((remove_empty s.routes).length, toLex (b, whOld I s)) →
          ∃ s' k, (∃ F, ∀ fuel, F ≤ fuel → ∀ n, whLoop fuel I (n + k) s = .ok (some (s', n))) ∧ WhRoutes I s'.routes ∧
            s'.stage = .stopped := by
        intro b' hb' hi hlt
        obtain ⟨s2, k2, ⟨F2, e2⟩, r2, st⟩ := ih _ hlt s1 r1 hi b' hb' rfl
        refine ⟨s2, k2 + k1, ⟨F1 + F2, fun fuel hf n => ?_⟩, r2, st⟩
        rw [← Nat.add_assoc, e1 fuel (by omega), e2 fuel (by omega)]
      rcases hd with hd | ⟨hi, hd⟩
      · exact ⟨s1, k1, ⟨F1, fun fuel hf n => by rw [e1 fuel hf, whLoop_stopped hd]⟩, r1, hd⟩
      · rcases hd with hd | ⟨hl, hd | ⟨hc, hd⟩⟩
        · obtain ⟨b', hb'⟩ := exists_bound (tot I.D s1.routes)
          exact next b' hb' hi (Prod.Lex.toLex_lt_toLex.2 (.inl hd))
        · cases b with
          | zero =>
            exfalso
            have := tot_nonneg h.dist s1.routes
            have := S_EPS_pos
            simp only [Nat.cast_zero, zero_mul] at hb
            linarith
          | succ b =>
            refine next b (by push_cast at hb; linarith) hi ?_
            rw [hl]
            exact Prod.Lex.toLex_lt_toLex.2 (.inr ⟨rfl, Prod.Lex.toLex_lt_toLex.2 (.inl (Nat.lt_succ_self b))⟩)
        · refine next b (by rw [hc]; exact hb) hi ?_
          rw [hl]
          exact Prod.Lex.toLex_lt_toLex.2 (.inr ⟨rfl, Prod.Lex.toLex_lt_toLex.2 (.inr ⟨rfl, hd⟩)⟩)
  exact key _ s hr hs b hb rfl

/-- With the number of the vehicles to be minimized, the improvement phase ends. -/
theorem whPhase2_ends (h : WhInputOk I) (hm : I.minimize_K = true) (sols : List (List ℕ)) :
    ∀ best : Option (List ℕ × ℚ × ℚ), (∀ sol ∈ sols, WhInitial I sol) →
    ∃ cands : List (List ℕ), ∃ k F, List.Forall₂ (AtLeastAsGood I.D) sols cands ∧ (∀ c ∈ cands, WhGood I c) ∧
      ∀ fuel, F ≤ fuel → ∀ n, k ≤ n → whPhase2 fuel I sols best n =
        .ok (some (.returned ((cands.foldl (keepBetter I.D I.minimize_K) best).map (·.1)))) := by
  induction sols with
  | nil => intro best _; exact ⟨[], 0, 0, .nil, by simp, fun _ _ _ _ => rfl⟩
  | cons sol sols ih =>
    intro best hs
    obtain ⟨us, rfl, i1, i2, i3⟩ := hs sol (by simp)
    obtain ⟨s, k1, ⟨F1, e1⟩, r1, st⟩ := whLoop_ends h hm (whStart_spec h i1 i2 i3) rfl
    obtain ⟨s', m', ⟨F3, e3⟩, -, l3⟩ := whLoop_spec h k1 (whStart_spec h i1 i2 i3)
    have hs' : s = s' := by
      have x := e1 (F1 + F3) (by omega) 0
      rw [Nat.zero_add, e3 (F1 + F3) (by omega)] at x
      simp only [Except.ok.injEq, Option.some.injEq, Prod.mk.injEq] at x
      exact x.1.symm
    have w := whLoop_noWorse h i1 i2 i3 r1 (hs' ▸ l3 hm)
    obtain ⟨g, -⟩ := whSolution_spec h r1
    obtain ⟨cands, k2, F2, l, c1, e2⟩ := ih (keepBetter I.D I.minimize_K best (whSolution s.routes))
      (fun x hx => hs x (List.mem_cons_of_mem _ hx))
    refine ⟨whSolution s.routes :: cands, k1 + k2, F1 + F2, .cons w l, ?_, fun fuel hf n hn => ?_⟩
    · intro c hc
      rcases List.mem_cons.1 hc with rfl | hc
      · exact g
      · exact c1 c hc
    · have := e1 fuel (by omega) (n - k1)
      rw [Nat.sub_add_cancel (by omega)] at this
      rw [whPhase2, this]
      simp only
      rw [if_pos st, e2 fuel (by omega) _ (by omega), List.foldl_cons]

end Verif
