import Verif.Lemmas.NaivePairs
import Verif.Lemmas.MoleJamesonRefine
import Verif.Props.InterRoute
import Verif.Props.Naive

/-! # The fast operators for two routes and the naive ones agree (C78) -/

namespace Verif

open Spec

/-- A group of routes has no neighbour of a kind that is better by more than the tolerance. -/
theorem np_groupOk_none {D : ℕ → ℕ → ℚ} {d : Option (ℕ → ℚ)} {C : Option ℚ} {Nb : List (List ℕ) → List (List ℕ) → Prop} {Feas : List (List ℕ) → Prop}
    {best : Bool} {rds : List RouteData} {f : Py (Option (List RouteData × ℚ))}
    (h : ∃ r, f = .ok r ∧ GroupOk D d C Nb Feas best ((none : Option ℚ).getD 0) rds r) :
    f = .ok none ↔ ∀ rs, Nb (rds.map (·.route)) rs → Feas rs → ¬ total D rs - total D (rds.map (·.route)) + S_EPS < 0 := by
  obtain ⟨r, rfl, h⟩ := h
  rcases r with _ | ⟨s', x⟩
  · exact ⟨fun _ => h, fun _ => rfl⟩
  · refine ⟨fun e => by simp at e, fun hst => ?_⟩
    obtain ⟨g1, g2, -, g3, g4, -⟩ := h
    simp only [Option.getD_none] at g4
    exact absurd (by linarith) (hst _ g1 g2)

/-- The record of the route with the customers `b`. -/
abbrev recOf (D : ℕ → ℕ → ℚ) (d : ℕ → ℚ) (b : List ℕ) : RouteData := .of_route D (some d) (wrap b)

theorem np_fits_iff {D : ℕ → ℕ → ℚ} {d : ℕ → ℚ} {C L : Option ℚ} (h0 : d 0 = 0) (b : List ℕ) :
    (FitsC (some d) C C_EPS (wrap b) ∧ FitsL D L S_EPS (wrap b)) ↔ RouteOk D d C L b := by
  have e : demand d (wrap b) = demand d b := by
    simp [wrap, demand_append, demand_cons, demand_nil, h0]
  unfold FitsC FitsL RouteOk
  constructor
  · rintro ⟨h1, h2⟩
    have := h1 d rfl
    rw [e] at this
    exact ⟨this, h2⟩
  · rintro ⟨h1, h2⟩
    refine ⟨fun f hf => ?_, h2⟩
    injection hf with hf
    subst hf
    rw [e]
    exact h1

/-- Taking a customer out of a route keeps the limits. -/
theorem feasible_remove {D : ℕ → ℕ → ℚ} (hT : Triangle D) {d : ℕ → ℚ} (hd : ∀ n, 0 ≤ d n) {C L : Option ℚ} {X Y : List ℕ} {n : ℕ}
    (h0 : ∀ x ∈ X ++ n :: Y, x ≠ 0) (h : Feasible D d C L (X ++ n :: Y)) : Feasible D d C L (X ++ Y) := by
  by_cases hne : X ++ Y = []
  · rw [hne]
    intro c hc
    simp [blocks] at hc
  · rw [feasible_block (fun x hx => h0 x (by simp only [List.mem_append, List.mem_cons] at hx ⊢; tauto)) hne]
    have h1 := (feasible_block h0 (by simp)).1 h
    refine ⟨fun c hc hc0 => ?_, fun c hc hc0 => ?_⟩
    · have := h1.1 c hc hc0
      have := hd n
      simp only [demand_append, demand_cons] at *
      linarith
    · have h2 := h1.2 c hc hc0
      have h3 := cost_remove_le hT (A := 0 :: X) (B := Y ++ [0]) (by simp) (by simp) n
      have e1 : wrap (X ++ Y) = 0 :: X ++ (Y ++ [0]) := by simp [wrap]
      have e2 : wrap (X ++ n :: Y) = 0 :: X ++ [n] ++ (Y ++ [0]) := by simp [wrap]
      rw [e2] at h2
      rw [e1]
      linarith

/-- C78. For a solution within the limits and distances with the triangle inequality, the naive one point move finds nothing exactly if the fast
relocation finds nothing on any route and the fast one point move finds nothing between any two routes, whatever their strategies. -/
theorem C78_one_point_partial {sol : List ℕ} (hs : DepotEnds sol) (hn : (customers sol).Nodup) {D : ℕ → ℕ → ℚ} (hD : ∀ i j, 0 ≤ D i j)
    (h00 : D 0 0 = 0) (hT : Triangle D) {d : ℕ → ℚ} (hd : ∀ n, 0 ≤ d n) (hd0 : d 0 = 0) (C : Option ℚ) {L : Option ℚ} (hL : ∀ x, L = some x → 0 ≤ x)
    (hf : Feasible D d C L sol) (st st' : LSOPT) :
    do_naive_1point_move sol D d C L st none = .ok none ↔
      (∀ b ∈ blocks sol, do_relocate_move (wrap b) D st' none = .ok none) ∧
      ∀ b c, TwoRoutes sol b c → do_1point_move (recOf D d b) (recOf D d c) D (some d) C L st' none = .ok none ∧
        do_1point_move (recOf D d c) (recOf D d b) D (some d) C L st' none = .ok none := by
  have heps : (0 : ℚ) < S_EPS := by norm_num [S_EPS]
  have hbook : ∀ b, Book D (some d) C (recOf D d b) := fun b => book_of_route D d C _
  have hone : ∀ b c, do_1point_move (recOf D d b) (recOf D d c) D (some d) C L st' none = .ok none ↔ ∀ rs, Nb1point [wrap b, wrap c] rs →
      FitsAll D (some d) C L C_EPS S_EPS rs.tail → ¬ total D rs - total D [wrap b, wrap c] + S_EPS < 0 := fun b c =>
    np_groupOk_none (C16_one_point (L := L) (hbook b) (hbook c) st' none)
  have hnd : ∀ p b q, sol = p ++ 0 :: (b ++ 0 :: q) → (∀ x ∈ b, x ≠ 0) → b.Nodup := by
    rintro p b q rfl hb
    have e : customers b = b := List.filter_eq_self.2 fun x hx => by simpa using hb x hx
    unfold customers at hn e
    rw [List.filter_append, List.filter_cons_of_neg (by simp), List.filter_append, e] at hn
    exact (List.nodup_append.1 (List.nodup_append.1 hn).2.1).1
  have hrel : ∀ p b q, sol = p ++ 0 :: (b ++ 0 :: q) → (∀ x ∈ b, x ≠ 0) → (do_relocate_move (wrap b) D st' none = .ok none ↔
      NvStuck D NbRelocate (wrap b)) := fun p b q e hb => nv_moveOk_none (C14_relocate D (circuit_wrap hb (hnd p b q e hb)) st' none)
  rw [nv_moveOk_none (C74_one_point_partial hs hn hD h00 hd C hL st none)]
  constructor
  · intro h
    refine ⟨fun b hb => ?_, fun b c ⟨hb, hc, p, R, q, hR, e⟩ => ⟨?_, ?_⟩⟩
    · obtain ⟨-, h0, p, q, e⟩ := (mem_blocks_iff hs).1 hb
      rw [hrel p b q e h0]
      intro w hw hc
      have hm := relocate_nbMove h0 hw
      obtain ⟨b', rfl, hp⟩ := wrap_of_same (nbMove_same (depotEnds_wrap b) hm)
      obtain ⟨A, E, A', E', n, g1, g2, g3, g4, g5, e1, e2, e3⟩ := hm
      obtain ⟨X, Y, rfl, rfl, rfl⟩ := nv_wrap_split (Z := [n]) g2 g3 (by simpa using e1)
      obtain ⟨X', Y', rfl, rfl, rfl⟩ := nv_wrap_split (Z := [n]) g4 g5 (by simpa using e3)
      subst e
      refine h (p ++ 0 :: ((X' ++ [n] ++ Y') ++ 0 :: q)) ⟨⟨p ++ 0 :: X, Y ++ 0 :: q, p ++ 0 :: X', Y' ++ 0 :: q, n, g1, by simp, by simp, by simp,
        by simp, by simp, ?_, by simp⟩, feasible_replace h0 hp hf (by linarith)⟩ ?_
      · have e4 : X ++ Y = X' ++ Y' := by
          simp only [List.cons_append, List.cons.injEq, true_and, ← List.append_assoc] at e2
          exact List.append_cancel_right e2
        have e5 : ∀ U V : List ℕ, p ++ 0 :: U ++ (V ++ 0 :: q) = p ++ 0 :: ((U ++ V) ++ 0 :: q) := by intro U V; simp
        rw [e5, e5, e4]
      · rw [nv_cost_replace]
        exact hc
    · subst e
      rw [hone]
      rintro rs ⟨A, B, E, F, n, hA, hB, hE, hF, e1, rfl⟩ hfit hlt
      simp only [List.cons.injEq, and_true] at e1
      obtain ⟨X, Y, rfl, rfl, rfl⟩ := nv_wrap_split hA hB e1.1
      obtain ⟨Z, W, rfl, rfl, rfl⟩ := nv_wrap_split (Z := []) hE hF (by simpa using e1.2)
      have hn0 : n ≠ 0 := hb n (by simp)
      have w1 : 0 :: X ++ (Y ++ [0]) = wrap (X ++ Y) := by simp [wrap]
      have w2 : 0 :: Z ++ [n] ++ (W ++ [0]) = wrap (Z ++ n :: W) := by simp [wrap]
      rw [w1, w2] at hlt
      rw [List.tail_cons, w2] at hfit
      rw [feasible_two hR] at hf
      refine h (p ++ 0 :: ((X ++ Y) ++ R ++ ((Z ++ n :: W) ++ 0 :: q))) ⟨⟨p ++ 0 :: X, Y ++ R ++ (Z ++ W ++ 0 :: q), p ++ 0 :: (X ++ Y ++ R ++ Z),
        W ++ 0 :: q, n, hn0, by simp, by simp, by simp, by simp, by simp, by simp, by simp⟩, ?_⟩ ?_
      · rw [feasible_two hR]
        refine ⟨hf.1, feasible_remove hT hd (n := n) (by simpa using hb) (by simpa using hf.2.1), hf.2.2.1, ?_, hf.2.2.2.2⟩
        rw [feasible_block ?_ (by simp), ← np_fits_iff hd0]
        · exact hfit _ (by simp)
        · intro x hx
          simp only [List.mem_append, List.mem_cons] at hx
          rcases hx with hx | rfl | hx
          · exact hc x (by simp [hx])
          · exact hn0
          · exact hc x (by simp [hx])
      · rw [cost_two D hR, cost_two D hR]
        simp only [total, List.map_cons, List.map_nil, List.sum_cons, List.sum_nil] at hlt
        linarith
    · subst e
      rw [hone]
      rintro rs ⟨A, B, E, F, n, hA, hB, hE, hF, e1, rfl⟩ hfit hlt
      simp only [List.cons.injEq, and_true] at e1
      obtain ⟨Z, W, rfl, rfl, rfl⟩ := nv_wrap_split hA hB e1.1
      obtain ⟨X, Y, rfl, rfl, rfl⟩ := nv_wrap_split (Z := []) hE hF (by simpa using e1.2)
      have hn0 : n ≠ 0 := hc n (by simp)
      have w1 : 0 :: Z ++ (W ++ [0]) = wrap (Z ++ W) := by simp [wrap]
      have w2 : 0 :: X ++ [n] ++ (Y ++ [0]) = wrap (X ++ n :: Y) := by simp [wrap]
      rw [w1, w2] at hlt
      rw [List.tail_cons, w2] at hfit
      rw [feasible_two hR] at hf
      refine h (p ++ 0 :: ((X ++ n :: Y) ++ R ++ ((Z ++ W) ++ 0 :: q))) ⟨⟨p ++ 0 :: (X ++ Y ++ R ++ Z), W ++ 0 :: q, p ++ 0 :: X,
        Y ++ R ++ (Z ++ W ++ 0 :: q), n, hn0, by simp, by simp, by simp, by simp, by simp, by simp, by simp⟩, ?_⟩ ?_
      · rw [feasible_two hR]
        refine ⟨hf.1, ?_, hf.2.2.1, feasible_remove hT hd (n := n) (by simpa using hc) (by simpa using hf.2.2.2.1), hf.2.2.2.2⟩
        rw [feasible_block ?_ (by simp), ← np_fits_iff hd0]
        · exact hfit _ (by simp)
        · intro x hx
          simp only [List.mem_append, List.mem_cons] at hx
          rcases hx with hx | rfl | hx
          · exact hb x (by simp [hx])
          · exact hn0
          · exact hb x (by simp [hx])
      · rw [cost_two D hR, cost_two D hR]
        simp only [total, List.map_cons, List.map_nil, List.sum_cons, List.sum_nil] at hlt
        linarith
  · rintro ⟨h1, h2⟩ t ⟨hm, hft⟩ hlt
    rcases nbMove_cases hs hm with ⟨p, b, b', q, hb, e, rfl, hp, hbm⟩ | ⟨p, R, q, X, Y, Z, W, n, hR, hn0, h0, ⟨e, rfl⟩ | ⟨e, rfl⟩⟩
    · rw [e, nv_cost_replace] at hlt
      rcases nbMove_relocate hbm with e1 | hr
      · rw [e1] at hlt
        linarith
      · have hne : b ≠ [] := by
          rintro rfl
          obtain rfl := hp.eq_nil
          linarith
        exact (hrel p b q e hb).1 (h1 b ((mem_blocks_iff hs).2 ⟨hne, hb, p, q, e⟩)) _ hr hlt
    · have hb : ∀ x ∈ X ++ n :: Y, x ≠ 0 := by
        intro x hx
        simp only [List.mem_append, List.mem_cons] at hx
        rcases hx with hx | rfl | hx
        · exact h0 x (by simp [hx])
        · exact hn0
        · exact h0 x (by simp [hx])
      have hc : ∀ x ∈ Z ++ W, x ≠ 0 := fun x hx => h0 x (List.mem_append_right _ hx)
      refine (hone _ _).1 (h2 _ _ ⟨hb, hc, p, R, q, hR, e⟩).1 [wrap (X ++ Y), wrap (Z ++ n :: W)]
        ⟨0 :: X, Y ++ [0], 0 :: Z, W ++ [0], n, by simp, by simp, by simp, by simp, by simp [wrap], by simp [wrap]⟩ ?_ ?_
      · intro r hr
        simp only [List.tail_cons, List.mem_cons, List.not_mem_nil, or_false] at hr
        subst hr
        rw [np_fits_iff hd0]
        rw [feasible_two hR] at hft
        refine (feasible_block ?_ (by simp)).1 hft.2.2.2.1
        intro x hx
        simp only [List.mem_append, List.mem_cons] at hx
        rcases hx with hx | rfl | hx
        · exact hc x (by simp [hx])
        · exact hn0
        · exact hc x (by simp [hx])
      · rw [e, cost_two D hR, cost_two D hR] at hlt
        simp only [total, List.map_cons, List.map_nil, List.sum_cons, List.sum_nil]
        linarith
    · have hb : ∀ x ∈ X ++ Y, x ≠ 0 := fun x hx => h0 x (List.mem_append_left _ hx)
      have hc : ∀ x ∈ Z ++ n :: W, x ≠ 0 := by
        intro x hx
        simp only [List.mem_append, List.mem_cons] at hx
        rcases hx with hx | rfl | hx
        · exact h0 x (by simp [hx])
        · exact hn0
        · exact h0 x (by simp [hx])
      refine (hone _ _).1 (h2 _ _ ⟨hb, hc, p, R, q, hR, e⟩).2 [wrap (Z ++ W), wrap (X ++ n :: Y)]
        ⟨0 :: Z, W ++ [0], 0 :: X, Y ++ [0], n, by simp, by simp, by simp, by simp, by simp [wrap], by simp [wrap]⟩ ?_ ?_
      · intro r hr
        simp only [List.tail_cons, List.mem_cons, List.not_mem_nil, or_false] at hr
        subst hr
        rw [np_fits_iff hd0]
        rw [feasible_two hR] at hft
        refine (feasible_block ?_ (by simp)).1 hft.2.1
        intro x hx
        simp only [List.mem_append, List.mem_cons] at hx
        rcases hx with hx | rfl | hx
        · exact hb x (by simp [hx])
        · exact hn0
        · exact hb x (by simp [hx])
      · rw [e, cost_two D hR, cost_two D hR] at hlt
        simp only [total, List.map_cons, List.map_nil, List.sum_cons, List.sum_nil]
        linarith

theorem mem_mid {X Y : List ℕ} {n m : ℕ} (hm : m ≠ 0) (h : ∀ x ∈ X ++ n :: Y, x ≠ 0) : ∀ x ∈ X ++ m :: Y, x ≠ 0 := by
  intro x hx
  simp only [List.mem_append, List.mem_cons] at hx
  rcases hx with hx | rfl | hx
  · exact h x (by simp [hx])
  · exact hm
  · exact h x (by simp [hx])

/-- C78. For a solution within the limits, if the naive two point move finds nothing, the fast exchange finds nothing on any route and the fast two
point move finds nothing between any two routes, whatever their strategies. The converse holds if there is no limit on the route cost. -/
theorem C78_two_point_partial {sol : List ℕ} (hs : DepotEnds sol) (hn : (customers sol).Nodup) {D : ℕ → ℕ → ℚ} (hD : ∀ i j, 0 ≤ D i j)
    (h00 : D 0 0 = 0) {d : ℕ → ℚ} (hd : ∀ n, 0 ≤ d n) (hd0 : d 0 = 0) (C : Option ℚ) {L : Option ℚ} (hL : ∀ x, L = some x → 0 ≤ x)
    (hf : Feasible D d C L sol) (st st' : LSOPT) :
    (do_naive_2point_move sol D d C L st none = .ok none →
      (∀ b ∈ blocks sol, do_exchange_move (wrap b) D st' none = .ok none) ∧
      ∀ b c, TwoRoutes sol b c → do_2point_move (recOf D d b) (recOf D d c) D (some d) C L st' none = .ok none) ∧
    (¬ InUse L → (∀ b ∈ blocks sol, do_exchange_move (wrap b) D st' none = .ok none) →
      (∀ b c, TwoRoutes sol b c → do_2point_move (recOf D d b) (recOf D d c) D (some d) C L st' none = .ok none) →
      do_naive_2point_move sol D d C L st none = .ok none) := by
  have heps : (0 : ℚ) < S_EPS := by norm_num [S_EPS]
  have hbook : ∀ b, Book D (some d) C (recOf D d b) := fun b => book_of_route D d C _
  have htwo : ∀ b c, do_2point_move (recOf D d b) (recOf D d c) D (some d) C L st' none = .ok none ↔ ∀ rs, Nb2point [wrap b, wrap c] rs →
      FitsAll D (some d) C L C_EPS 0 rs → ¬ total D rs - total D [wrap b, wrap c] + S_EPS < 0 := fun b c =>
    np_groupOk_none (C17_two_point (L := L) (hbook b) (hbook c) st' none)
  have hnd : ∀ p b q, sol = p ++ 0 :: (b ++ 0 :: q) → (∀ x ∈ b, x ≠ 0) → b.Nodup := by
    rintro p b q rfl hb
    have e : customers b = b := List.filter_eq_self.2 fun x hx => by simpa using hb x hx
    unfold customers at hn e
    rw [List.filter_append, List.filter_cons_of_neg (by simp), List.filter_append, e] at hn
    exact (List.nodup_append.1 (List.nodup_append.1 hn).2.1).1
  have hexc : ∀ p b q, sol = p ++ 0 :: (b ++ 0 :: q) → (∀ x ∈ b, x ≠ 0) → (do_exchange_move (wrap b) D st' none = .ok none ↔
      NvStuck D NbExchange (wrap b)) := fun p b q e hb => nv_moveOk_none (C15_exchange D (circuit_wrap hb (hnd p b q e hb)) st' none)
  rw [nv_moveOk_none (C74_two_point_partial hs hD h00 hd C hL st (bd := none) (by simp))]
  constructor
  · intro h
    refine ⟨fun b hb => ?_, fun b c ⟨hb, hc, p, R, q, hR, e⟩ => ?_⟩
    · obtain ⟨-, h0, p, q, e⟩ := (mem_blocks_iff hs).1 hb
      rw [hexc p b q e h0]
      intro w hw hc
      have hm := exchange_nbSwap h0 hw
      obtain ⟨b', rfl, hp⟩ := wrap_of_same (nbSwap_same (depotEnds_wrap b) hm)
      obtain ⟨A, M, E, n, m, hA, hE, e1, e2⟩ := hw
      obtain ⟨X, Y, rfl, rfl, rfl⟩ := nv_wrap_split (Z := [n] ++ M ++ [m]) hA hE (by simpa using e1)
      obtain ⟨X', Y', e3, e4, rfl⟩ := nv_wrap_split (Z := [m] ++ M ++ [n]) hA hE (by simpa using e2)
      simp only [List.cons.injEq, true_and] at e3
      subst e3
      obtain rfl := List.append_cancel_right e4
      subst e
      refine h (p ++ 0 :: ((X ++ ([m] ++ M ++ [n]) ++ Y) ++ 0 :: q)) ⟨⟨p ++ 0 :: X, M, Y ++ 0 :: q, n, m, h0 n (by simp), h0 m (by simp), by simp,
        by simp⟩, feasible_replace h0 hp hf (by linarith)⟩ ?_
      rw [nv_cost_replace]
      exact hc
    · subst e
      rw [htwo]
      rintro rs ⟨A, B, E, F, n, m, hA, hB, hE, hF, e1, rfl⟩ hfit hlt
      simp only [List.cons.injEq, and_true] at e1
      obtain ⟨X, Y, rfl, rfl, rfl⟩ := nv_wrap_split hA hB e1.1
      obtain ⟨Z, W, rfl, rfl, rfl⟩ := nv_wrap_split hE hF e1.2
      have hn0 : n ≠ 0 := hb n (by simp)
      have hm0 : m ≠ 0 := hc m (by simp)
      have w1 : 0 :: X ++ [m] ++ (Y ++ [0]) = wrap (X ++ m :: Y) := by simp [wrap]
      have w2 : 0 :: Z ++ [n] ++ (W ++ [0]) = wrap (Z ++ n :: W) := by simp [wrap]
      rw [w1, w2] at hlt hfit
      have hfit' : ∀ u, wrap u ∈ [wrap (X ++ m :: Y), wrap (Z ++ n :: W)] → RouteOk D d C L u := by
        intro u hu
        rw [← np_fits_iff hd0]
        refine ⟨(hfit _ hu).1, fun c hc hc0 => ?_⟩
        have := (hfit _ hu).2 c hc hc0
        linarith
      rw [feasible_two hR] at hf
      refine h (p ++ 0 :: ((X ++ m :: Y) ++ R ++ ((Z ++ n :: W) ++ 0 :: q))) ⟨⟨p ++ 0 :: X, Y ++ R ++ Z, W ++ 0 :: q, n, m, hn0, hm0,
        by simp, by simp⟩, ?_⟩ ?_
      · rw [feasible_two hR]
        refine ⟨hf.1, ?_, hf.2.2.1, ?_, hf.2.2.2.2⟩
        · rw [feasible_block (mem_mid hm0 (n := n) (by simpa using hb)) (by simp)]
          exact hfit' _ (by simp)
        · rw [feasible_block (mem_mid hn0 (n := m) (by simpa using hc)) (by simp)]
          exact hfit' _ (by simp)
      · rw [cost_two D hR, cost_two D hR]
        simp only [total, List.map_cons, List.map_nil, List.sum_cons, List.sum_nil] at hlt
        linarith
  · intro hLn h1 h2 t ⟨hm, hft⟩ hlt
    rcases nbSwap_cases hs hm with ⟨p, b, b', q, hb, e, rfl, hp, hbm⟩ | ⟨p, R, q, X, Y, Z, W, n, m, hR, hn0, hm0, h0, e, rfl⟩
    · rw [e, nv_cost_replace] at hlt
      have hne : b ≠ [] := by
        rintro rfl
        obtain rfl := hp.eq_nil
        linarith
      exact (hexc p b q e hb).1 (h1 b ((mem_blocks_iff hs).2 ⟨hne, hb, p, q, e⟩)) _ (nbSwap_exchange hbm) hlt
    · have hmid : ∀ k, k ≠ 0 → (∀ x ∈ X ++ k :: Y, x ≠ 0) ∧ ∀ x ∈ Z ++ k :: W, x ≠ 0 := by
        intro k hk
        constructor
        · intro x hx
          simp only [List.mem_append, List.mem_cons] at hx
          rcases hx with hx | rfl | hx
          · exact h0 x (by simp [hx])
          · exact hk
          · exact h0 x (by simp [hx])
        · intro x hx
          simp only [List.mem_append, List.mem_cons] at hx
          rcases hx with hx | rfl | hx
          · exact h0 x (by simp [hx])
          · exact hk
          · exact h0 x (by simp [hx])
      refine (htwo _ _).1 (h2 _ _ ⟨(hmid n hn0).1, (hmid m hm0).2, p, R, q, hR, e⟩) [wrap (X ++ m :: Y), wrap (Z ++ n :: W)]
        ⟨0 :: X, Y ++ [0], 0 :: Z, W ++ [0], n, m, by simp, by simp, by simp, by simp, by simp [wrap], by simp [wrap]⟩ ?_ ?_
      · rw [feasible_two hR] at hft
        have k1 := (np_fits_iff hd0 _).2 ((feasible_block (hmid m hm0).1 (by simp)).1 hft.2.1)
        have k2 := (np_fits_iff hd0 _).2 ((feasible_block (hmid n hn0).2 (by simp)).1 hft.2.2.2.1)
        intro r hr
        simp only [List.mem_cons, List.not_mem_nil, or_false] at hr
        refine ⟨?_, fun c hc hc0 => absurd ⟨c, hc, hc0⟩ hLn⟩
        rcases hr with rfl | rfl
        · exact k1.1
        · exact k2.1
      · rw [e, cost_two D hR, cost_two D hR] at hlt
        simp only [total, List.map_cons, List.map_nil, List.sum_cons, List.sum_nil]
        linarith

/-- Four customers on a line through the depot, the last one at the depot. -/
def exAxis (i j : ℕ) : ℚ :=
  let x : ℕ → ℚ := fun n => if n = 1 then 1 else if n = 2 then -2 else if n = 3 then -3 else 0
  |x i - x j|

/-- C78. With a limit on the route cost the fast and the naive two point move do not agree: the naive one allows for the tolerance, and the fast one
does not. Here the swap makes a route as long as the longest one was, a little over the limit. -/
theorem C78_two_point_false : let L : Option ℚ := some (6 - 1 / 10 ^ 11)
    Feasible exAxis (fun _ => 0) none L [0, 1, 2, 0, 3, 4, 0] ∧
    (∀ b c, TwoRoutes [0, 1, 2, 0, 3, 4, 0] b c →
      do_2point_move (recOf exAxis (fun _ => 0) b) (recOf exAxis (fun _ => 0) c) exAxis (some fun _ => 0) none L .BEST_ACCEPT none = .ok none) ∧
    (∀ b ∈ blocks [0, 1, 2, 0, 3, 4, 0], do_exchange_move (wrap b) exAxis .BEST_ACCEPT none = .ok none) ∧
    do_naive_2point_move [0, 1, 2, 0, 3, 4, 0] exAxis (fun _ => 0) none L .BEST_ACCEPT none = .ok (some ([0, 3, 2, 0, 1, 4, 0], -4)) := by
  refine ⟨?_, ?_, by decide +kernel, by decide +kernel⟩
  · intro b hb
    rw [RouteOk, ← exceeds_iff, ← exceeds_iff]
    revert b
    decide +kernel
  · rintro b c ⟨hb, hc, p, R, q, hR, e⟩
    -- the routes are those two
    have hbs : b = [1, 2] ∧ c = [3, 4] := by
      have e2 : blocks [0, 1, 2, 0, 3, 4, 0] = [[1, 2], [3, 4]] := by decide
      have hz : ([0, 1, 2, 0, 3, 4, 0] : List ℕ).count 0 = 3 := by decide
      rw [e] at hz e2
      have hb0 : b.count 0 = 0 := List.count_eq_zero.2 fun h => hb 0 h rfl
      have hc0 : c.count 0 = 0 := List.count_eq_zero.2 fun h => hc 0 h rfl
      simp only [List.count_append, List.count_cons_self, hb0, hc0] at hz
      have hR1 : R = [0] := by
        rcases depotEnds_cases hR with rfl | ⟨m, rfl⟩
        · rfl
        · simp [wrap, List.count_append] at hz
          omega
      subst hR1
      simp at hz
      have hp : p = [] := by
        cases p with
        | nil => rfl
        | cons x p =>
          simp only [List.cons_append, List.cons.injEq] at e
          rw [← e.1] at hz
          simp at hz
          omega
      have hq : q = [] := by
        rcases List.eq_nil_or_concat q with rfl | ⟨q', x, rfl⟩
        · rfl
        · have := congrArg List.getLast? e
          simp [List.getLast?_append, List.getLast?_cons] at this
          rw [← this] at hz
          simp [List.count_append] at hz
          omega
      subst hp hq
      have e3 : ([] : List ℕ) ++ 0 :: (b ++ [0] ++ (c ++ 0 :: [])) = [] ++ 0 :: (b ++ 0 :: (c ++ 0 :: [])) := by simp
      rw [e3, blocks_append_zero, blocks_append_zero, blocks_append_zero, blocks_zerofree b hb, blocks_zerofree c hc] at e2
      by_cases h1 : b = []
      · by_cases h2 : c = []
        · simp [h1, h2, blocks] at e2
        · simp [h1, h2, blocks] at e2
      · by_cases h2 : c = []
        · simp [h1, h2, blocks] at e2
        · simpa [h1, h2, blocks] using e2
    rw [hbs.1, hbs.2]
    decide +kernel

/-- Two routes of a solution, and the agreement there: each of the operators finds something. -/
example : TwoRoutes [0, 1, 3, 0, 2, 4, 0] [1, 3] [2, 4] ∧ DepotEnds [0, 1, 3, 0, 2, 4, 0] ∧ (customers [0, 1, 3, 0, 2, 4, 0]).Nodup ∧
    do_1point_move (recOf exD exd [1, 3]) (recOf exD exd [2, 4]) exD (some exd) (some 3) none .BEST_ACCEPT none =
      .ok (some ([⟨[0, 1, 0], 2, some 1⟩, ⟨[0, 2, 3, 4, 0], 6, some 3⟩], -6)) ∧
    do_naive_1point_move [0, 1, 3, 0, 2, 4, 0] exD exd (some 3) none .BEST_ACCEPT none = .ok (some ([0, 1, 0, 2, 3, 4, 0], -6)) := by
  refine ⟨⟨by decide, by decide, [], [0], [], ⟨rfl, rfl⟩, rfl⟩, by decide, by decide, by decide +kernel, by decide +kernel⟩

/-- The hypotheses of `C78_one_point_partial` hold for the customers on a line. -/
example : do_naive_1point_move [0, 1, 2, 0, 3, 4, 0] exAxis exd (some 3) (some 6) .FIRST_ACCEPT none = .ok none ↔
    (∀ b ∈ blocks [0, 1, 2, 0, 3, 4, 0], do_relocate_move (wrap b) exAxis .BEST_ACCEPT none = .ok none) ∧
    ∀ b c, TwoRoutes [0, 1, 2, 0, 3, 4, 0] b c →
      do_1point_move (recOf exAxis exd b) (recOf exAxis exd c) exAxis (some exd) (some 3) (some 6) .BEST_ACCEPT none = .ok none ∧
      do_1point_move (recOf exAxis exd c) (recOf exAxis exd b) exAxis (some exd) (some 3) (some 6) .BEST_ACCEPT none = .ok none :=
  C78_one_point_partial (by decide) (by decide) (by intro i j; unfold exAxis; exact abs_nonneg _) (by decide +kernel)
    (by intro i j k; unfold exAxis; exact abs_sub_le _ _ _)
    (fun n => by unfold exd; split <;> norm_num) (by decide +kernel) _ (by rintro x h; injection h with h; rw [← h]; norm_num)
    (by
      intro b hb
      rw [RouteOk, ← exceeds_iff, ← exceeds_iff]
      revert b
      decide +kernel) _ _

end Verif
