import Verif.Lemmas.PetalLoop

/-! # Lemmas on the ends of the petal algorithm -/

namespace Verif
open Spec

variable {a : PtArgs} {d : ℕ → ℚ} {C L : Option ℚ} {allow0 : Bool} {K0 : Option ℕ}

/-- What is known of a returned solution. -/
structure RetOk (a : PtArgs) (d : ℕ → ℚ) (C L : Option ℚ) (allow0 : Bool) (K0 : Option ℕ)
    (b : Option (List ℕ)) : Prop where
  part : ∀ sol, b = some sol → ∃ us, sol = tour us ∧ PartSol a.N a.D d C L us ∧ (allow0 = false → [] ∉ us)
  full : a.required = none → ptTrue K0 = true → ∃ us, b = some (tour us) ∧ PartSol a.N a.D d C L us ∧
    us.flatten.Perm (List.range' 1 (a.N - 1)) ∧ (allow0 = false → [] ∉ us)
  least : a.required = none → NoInterrupt a → 2 ≤ a.N → ∃ rel : List Petal,
    (∀ p ∈ rel, GoodPetal a.N a.D d C L p) ∧ (rel.map (·.route)).Nodup ∧ (a.relaxe = false → rel = []) ∧
    ∀ k vs, k = 2 ∨ (k = 3 ∧ ((ptActive a 3).length + rel.length ≤ 10000 ∨ b = none)) → PetalCover a.N (ptActive a k) vs →
      (ptTrue K0 = true → vs.length ≤ K0.getD 0) →
      ∃ us, b = some (tour us) ∧ PartSol a.N a.D d C L us ∧ us.flatten.Perm (List.range' 1 (a.N - 1)) ∧
        (allow0 = false → [] ∉ us) ∧ (a.minimize_K = false → cost a.D (tour us) ≤ cost a.D (tour vs))
  some : a.required = none → NoInterrupt a → 2 ≤ a.N → ∀ vs, PetalCover a.N (ptActive a 3) vs →
    (ptTrue K0 = true → vs.length ≤ K0.getD 0) →
    ∃ us, b = some (tour us) ∧ PartSol a.N a.D d C L us ∧ us.flatten.Perm (List.range' 1 (a.N - 1)) ∧
      (allow0 = false → [] ∉ us)

/-- What is known of the end of the algorithm. -/
def EndOk (a : PtArgs) (d : ℕ → ℚ) (C L : Option ℚ) (allow0 : Bool) (K0 : Option ℕ) : PtEnd → Prop
  | .ret b => RetOk a d C L allow0 K0 b
  | .interrupt b => a.K.getD 0 ≠ 1 → ∀ sol, b = some sol →
      ∃ us, sol = tour us ∧ PartSol a.N a.D d C L us ∧ (allow0 = false → [] ∉ us)
  | .gurobiError => ∃ t M, a.opt t M = .timeLimit ∨ a.rlx t M = .timeLimit

theorem PtInv.part {s : PtState} (hs : PtInv a d C L allow0 K0 s) : ∀ sol, s.best = some sol →
    ∃ us, sol = tour us ∧ PartSol a.N a.D d C L us ∧ (allow0 = false → [] ∉ us) := by
  intro sol h
  obtain ⟨us, h1, h2, h3, h4, h5⟩ := hs.best sol h
  exact ⟨us, h1, h2, h5⟩

theorem PtInv.full {s : PtState} (hs : PtInv a d C L allow0 K0 s) (hb : s.best_feasible = true) :
    ∃ us, s.best = some (tour us) ∧ PartSol a.N a.D d C L us ∧ us.flatten.Perm (List.range' 1 (a.N - 1)) ∧
      (allow0 = false → [] ∉ us) ∧ s.best_f = some (cost a.D (tour us)) := by
  cases h : s.best with
  | none =>
    have := (hs.noBest h).1
    rw [hb] at this
    simp at this
  | some sol =>
    obtain ⟨us, h1, h2, h3, h4, h5⟩ := hs.best sol h
    subst h1
    exact ⟨us, rfl, h2, h4 hb, h5, h3⟩

theorem ptActive_length (a : PtArgs) : (ptActive a 3).length = a.restricted.length + a.reduced.length + a.extended.length := by
  simp [ptActive]
  omega

theorem cover_mono {k k' : ℕ} {vs : List (List ℕ)} (hk : ptActive a k <+: ptActive a k')
    (h : PetalCover a.N (ptActive a k) vs) : PetalCover a.N (ptActive a k') vs :=
  ⟨fun u hu => by obtain ⟨p, hp, he⟩ := h.1 u hu; exact ⟨p, hk.subset hp, he⟩, h.2⟩

theorem active_23 : ptActive a 2 <+: ptActive a 3 := ptActive_prefix a 2

/-- The end of the loop with the answer `u.best`. -/
theorem ret_ok {s u : PtState} (hp : PtHyp a d C L allow0) (hu : PtInv a d C L allow0 K0 u)
    (hKs : s.K_constraint = u.K_constraint) (hrel : u.relaxed = s.relaxed)
    (hf : ∀ fc ∈ s.forbidden, fc ∈ u.forbidden)
    (hend : a.required = none → ((u.best_feasible = true ∨ ptTrue u.K_constraint = false) ∧
      (NoInterrupt a → ∃ k t r f, ptSolve a s k t = .ok r f ∧ (r ≠ [] → r.map (·.2) ∈ u.forbidden) ∧
        (k = 3 ∨ (k = 2 ∧ u.best_feasible = true ∧ 10000 < u.cnt))))) :
    RetOk a d C L allow0 K0 u.best := by
  have hlen : ∀ vs : List (List ℕ), (ptTrue K0 = true → vs.length ≤ K0.getD 0) →
      0 < s.K_constraint.getD 0 → vs.length ≤ s.K_constraint.getD 0 := by
    intro vs h h0
    rw [hKs] at h0 ⊢
    by_cases hK : ptTrue K0 = true
    · exact (h hK).trans (hu.K.2 hK).2
    · rw [Bool.not_eq_true] at hK
      rw [hu.K.1 hK] at h0
      unfold ptTrue at hK
      have := of_decide_eq_false hK
      omega
  have hfull : ∀ (hb : u.best_feasible = true), ∃ us, u.best = some (tour us) ∧ PartSol a.N a.D d C L us ∧
      us.flatten.Perm (List.range' 1 (a.N - 1)) ∧ (allow0 = false → [] ∉ us) := by
    intro hb
    obtain ⟨us, h1, h2, h3, h4, _⟩ := hu.full hb
    exact ⟨us, h1, h2, h3, h4⟩
  refine ⟨hu.part, ?_, ?_, ?_⟩
  · intro hr hK
    rcases (hend hr).1 with h | h
    · exact hfull h
    · rw [(hu.K.2 hK).1] at h
      simp at h
  · intro hr hni hN
    obtain ⟨k, t, r, f, h1, h2, h3⟩ := (hend hr).2 hni
    refine ⟨u.relaxed, hu.good, hu.fresh.1, hu.noRelax, ?_⟩
    intro k' vs hk' hvs hK
    have hvs' : PetalCover a.N (ptActive a k) vs := by
      rcases h3 with rfl | ⟨rfl, h4, h5⟩
      · exact cover_mono (ptActive_prefix a k') hvs
      · rcases hk' with rfl | ⟨rfl, h6 | h6⟩
        · exact hvs
        · have := hu.cnt
          rw [ptActive_length] at h6
          omega
        · obtain ⟨us, h7, _⟩ := hfull h4
          rw [h6] at h7
          simp at h7
    obtain ⟨h4, h5⟩ := bound_best hp hu hN h1 hrel hf h2 hvs' (hlen vs hK)
    obtain ⟨us, h6, h7, h8, h9, h10⟩ := hu.full h4
    refine ⟨us, h6, h7, h8, h9, fun hm => ?_⟩
    obtain ⟨bf, h11, h12⟩ := h5 hm
    rw [h10] at h11
    cases h11
    exact h12
  · intro hr hni hN vs hvs hK
    obtain ⟨k, t, r, f, h1, h2, h3⟩ := (hend hr).2 hni
    rcases h3 with rfl | ⟨rfl, h4, h5⟩
    · exact hfull (bound_best hp hu hN h1 hrel hf h2 hvs (hlen vs hK)).1
    · exact hfull h4

theorem sol_of_routes {us : List (List ℕ)} (h : us ≠ []) : (routes2sol (us.map wrap)).getD [] = tour us := by
  unfold routes2sol
  rw [if_neg (by simpa using h)]
  have := routes2sol_fold_wrap us []
  simp only [tour, List.nil_append] at this
  rw [Option.getD_some, this]

theorem not_interrupted (hni : NoInterrupt a) {s : PtState} {k t : ℕ} : ptSolve a s k t ≠ .interrupted := by
  unfold ptSolve solve_set_covering
  have h1 := (hni t (ptModel a.N (ptActive a k) s.relaxed s.forbidden s.K_constraint)).1
  have h2 := (hni t (ptModel a.N (ptActive a k) s.relaxed s.forbidden s.K_constraint)).2
  cases ho : a.opt t (ptModel a.N (ptActive a k) s.relaxed s.forbidden s.K_constraint) with
  | interrupted => exact absurd ho h1
  | infeasible =>
    simp only
    cases hr : a.rlx t (ptModel a.N (ptActive a k) s.relaxed s.forbidden s.K_constraint) with
    | interrupted => exact absurd hr h2
    | _ => split_ifs <;> simp
  | _ => simp

theorem solve_timeLimit {s : PtState} {k t : ℕ} (h : ptSolve a s k t = .gurobiError) :
    ∃ t M, a.opt t M = .timeLimit ∨ a.rlx t M = .timeLimit := by
  unfold ptSolve solve_set_covering at h
  refine ⟨t, ptModel a.N (ptActive a k) s.relaxed s.forbidden s.K_constraint, ?_⟩
  cases ho : a.opt t (ptModel a.N (ptActive a k) s.relaxed s.forbidden s.K_constraint) with
  | timeLimit => exact Or.inl rfl
  | infeasible =>
    rw [ho] at h
    simp only at h
    cases hr : a.rlx t (ptModel a.N (ptActive a k) s.relaxed s.forbidden s.K_constraint) with
    | timeLimit => exact Or.inr rfl
    | _ => rw [hr] at h; split_ifs at h
  | _ => rw [ho] at h; simp at h

/-- The rest of an iteration in which a solution was found. -/
theorem found_spec {s : PtState} (hp : PtHyp a d C L allow0) (hs : PtInv a d C L allow0 K0 s)
    {us : List (List ℕ)} (hne0 : us ≠ []) (hus : PartSol a.N a.D d C L us) (hne : allow0 = false → [] ∉ us)
    {feas : Bool} (hfeas : feas = true → us.flatten.Perm (List.range' 1 (a.N - 1))) {idxs : List ℤ}
    (hnd : idxs.Nodup) (hval : ∀ i ∈ idxs, (ptAt (ptActive a 3) s.relaxed i).isSome)
    (hcov : CoverBy a.N (petalsOf (ptActive a 3) s.relaxed idxs) →
      feas = true ∧ cost a.D (tour us) = petalsCost (petalsOf (ptActive a 3) s.relaxed idxs)) :
    ∃ x, ptFound a false s (us.map wrap) idxs feas = .ok x ∧
      (∀ s', x = .inl s' → PtInv a d C L allow0 K0 s' ∧ s'.forbidden = s.forbidden ++ [idxs]) ∧
      (∀ b, x = .inr (.interrupt b) → ∀ sol, b = some sol →
        ∃ us, sol = tour us ∧ PartSol a.N a.D d C L us ∧ (allow0 = false → [] ∉ us)) ∧
      (x ≠ .inr .gurobiError) ∧
      (∀ b, x = .inr (.ret b) → ∃ u, b = u.best ∧ PtInv a d C L allow0 K0 u ∧ (a.required = none →
        u = { s with forbidden := s.forbidden ++ [idxs] } ∧ s.ptl_set ≠ 1 ∧
        (s.ptl_set = 2 → s.best_feasible = true ∧ 10000 < s.cnt) ∧
        (s.best_feasible = true ∨ ptTrue s.K_constraint = false))) := by
  obtain ⟨h1, h2, h3, h4⟩ := update_inv hs hus hne hfeas hnd hval hcov ((tour us).count 0 - 1)
  unfold ptFound
  simp only
  rw [sol_of_routes hne0, objf_eq_cost]
  generalize ptUpdate a { s with forbidden := s.forbidden ++ [idxs] } (tour us) (cost a.D (tour us))
    ((tour us).count 0 - 1) feas = u at h1 h2 h3 h4
  by_cases c1 : a.signal s.iteration = some true
  · rw [if_pos c1]
    refine ⟨_, rfl, by simp, ?_, by simp, by simp⟩
    intro b hb
    cases hb
    exact h1.part
  rw [if_neg c1]
  by_cases c2 : (u.2 || ptEnough a s.iteration) = true
  · rw [if_pos c2]
    refine ⟨_, rfl, by simp, by simp, by simp, ?_⟩
    intro b hb
    simp only [Bool.false_eq_true, if_false] at hb
    cases hb
    refine ⟨u.1, rfl, h1, fun hr => ?_⟩
    have : u.2 = true := by
      have hE : ptEnough a s.iteration = false := by
        unfold ptEnough
        rw [hr]
      rw [hE] at c2
      simpa using c2
    obtain ⟨h5, _, h6, h7, h8⟩ := h4 this
    exact ⟨h5, h6, h7, h8⟩
  rw [if_neg c2]
  simp only [Bool.false_eq_true, if_false]
  unfold ptImprove
  by_cases c3 : a.relaxe = true
  · rw [if_pos c3]
    obtain ⟨rds, h5, h6⟩ := hp.gen c3 us hus
    rw [h5]
    simp only
    obtain ⟨s', h7, h8, h9⟩ := store_inv (hp.sym c3) c3 h1 h6
    rw [h7]
    refine ⟨_, rfl, ?_, by simp, by simp, by simp⟩
    intro s'' hs''
    cases hs''
    exact ⟨h8, h9.trans h3⟩
  · rw [if_neg c3]
    refine ⟨_, rfl, ?_, by simp, by simp, by simp⟩
    intro s'' hs''
    cases hs''
    exact ⟨h1, h3⟩

/-- An interrupted iteration ends the loop. -/
theorem found_interrupted (s : PtState) (routes : List (List ℕ)) (idxs : List ℤ) (feas : Bool) :
    ∃ b, ptFound a true s routes idxs feas = .ok (.inr (.interrupt b)) := by
  unfold ptFound
  simp only
  split_ifs <;> exact ⟨_, rfl⟩

theorem missing_inv {s s' : PtState} (hs : PtInv a d C L allow0 K0 s) (h : ptNone s = .inl s') :
    PtInv a d C L allow0 K0 s' ∧ s'.forbidden = s.forbidden := by
  unfold ptNone at h
  by_cases c1 : s.ptl_set = 1
  · rw [if_pos c1] at h
    cases h
    exact ⟨⟨⟨by simp, by simp⟩, hs.good, hs.forb, hs.forbBest, hs.noBest, hs.best, hs.allow, hs.cnt, hs.fresh,
      hs.noRelax, hs.K⟩, rfl⟩
  rw [if_neg c1] at h
  by_cases c2 : s.ptl_set = 2
  · rw [if_pos c2] at h
    cases h
    exact ⟨⟨⟨by simp, by simp⟩, hs.good, hs.forb, hs.forbBest, hs.noBest, hs.best, hs.allow, hs.cnt, hs.fresh,
      hs.noRelax, hs.K⟩, rfl⟩
  rw [if_neg c2] at h
  by_cases c3 : ptTrue s.K_constraint = true
  · rw [if_pos c3] at h
    cases h
    refine ⟨⟨⟨by simp, by simp⟩, hs.good, hs.forb, hs.forbBest, hs.noBest, hs.best, hs.allow, hs.cnt, hs.fresh,
      hs.noRelax, ?_⟩, rfl⟩
    constructor
    · intro h0
      rw [hs.K.1 h0, h0] at c3
      simp at c3
    · intro h0
      obtain ⟨h3, h4⟩ := hs.K.2 h0
      cases hK : s.K_constraint with
      | none => rw [hK] at c3; simp [ptTrue] at c3
      | some x =>
        rw [hK] at h4
        simp only [Option.getD_some] at h4
        simp only [Option.map_some, Option.getD_some, ptTrue, decide_eq_true_eq]
        omega
  · rw [if_neg c3] at h
    cases h

/-- One iteration of the main loop. -/
theorem iter_spec {s : PtState} (hp : PtHyp a d C L allow0) (hs : PtInv a d C L allow0 K0 s) :
    ∃ x, ptIter a s = .ok x ∧ (∀ s', x = .inl s' → PtInv a d C L allow0 K0 s') ∧
      ∀ r, x = .inr r → EndOk a d C L allow0 K0 r := by
  obtain ⟨hc, hc'⟩ := solve_empty a s hs.set
  unfold ptIter
  simp only
  generalize ptCover a s = c at hc hc'
  by_cases c1 : c.stop = some false
  · rw [if_pos c1]
    refine ⟨_, rfl, by simp, ?_⟩
    intro r hr
    cases hr
    obtain ⟨k, t, h⟩ := hc.stopFalse c1
    exact solve_timeLimit h
  rw [if_neg c1]
  obtain ⟨s1, hs1⟩ : ∃ s1 : PtState, s1 = { s with
    ptl_set := c.ptl_set, seen := c.seen, calls := c.calls, iteration := s.iteration + 1
    max_used := if c.stop = some true then s.max_used else max s.max_used c.ptl_set } := ⟨_, rfl⟩
  rw [← hs1]
  have i1 : PtInv a d C L allow0 K0 s1 := by
    subst hs1
    exact ⟨hc.set, hs.good, hs.forb, hs.forbBest, hs.noBest, hs.best, hs.allow, hs.cnt,
      ⟨hs.fresh.1, fun p h => hc.seen _ (hs.fresh.2 p h)⟩, hs.noRelax, hs.K⟩
  have e1 : s1.relaxed = s.relaxed ∧ s1.forbidden = s.forbidden ∧ s1.K_constraint = s.K_constraint ∧
      s1.ptl_set = c.ptl_set ∧ s1.allow_infeasible = s.allow_infeasible := by
    subst hs1
    exact ⟨rfl, rfl, rfl, rfl, rfl⟩
  unfold ptAfter
  simp only
  by_cases c2 : a.signal s1.iteration = some false
  · rw [if_pos c2]
    refine ⟨_, rfl, by simp, ?_⟩
    intro r hr
    cases hr
    exact fun _ => i1.part
  rw [if_neg c2]
  by_cases c3 : c.routes_with_idxs = [] ∨ c.routes_with_idxs.map (·.2) ∈ s1.forbidden
  · -- no new solution
    rw [if_pos c3]
    refine ⟨_, rfl, ?_, ?_⟩
    · intro s' h
      unfold ptMissing at h
      cases hn : ptNone s1 with
      | inr b => rw [hn] at h; cases h
      | inl s2 =>
        rw [hn] at h
        simp only at h
        split_ifs at h
        cases h
        exact (missing_inv i1 hn).1
    · intro r h
      unfold ptMissing at h
      cases hn : ptNone s1 with
      | inl s2 =>
        rw [hn] at h
        simp only at h
        split_ifs at h
        cases h
        exact fun _ => (missing_inv i1 hn).1.part
      | inr b =>
        rw [hn] at h
        cases h
        have h3 : s1.ptl_set ≠ 1 ∧ s1.ptl_set ≠ 2 ∧ ptTrue s1.K_constraint = false ∧ b = s1.best := by
          unfold ptNone at hn
          split_ifs at hn with q1 q2 q3
          cases hn
          exact ⟨q1, q2, by simpa using q3, rfl⟩
        obtain ⟨h4, h5, h6, rfl⟩ := h3
        refine ret_ok (s := s) hp i1 e1.2.2.1.symm e1.1 (by rw [e1.2.1]; exact fun _ h => h) ?_
        intro _
        refine ⟨Or.inr h6, fun hni => ?_⟩
        have hst : c.stop = none := by
          cases hstop : c.stop with
          | none => rfl
          | some x =>
            cases x with
            | false => exact absurd hstop c1
            | true =>
              obtain ⟨k, t, h⟩ := hc.stopTrue hstop
              exact absurd h (not_interrupted hni)
        obtain ⟨⟨t, ht⟩, _⟩ := hc' hst
        have hset := i1.set
        refine ⟨c.ptl_set, t, _, _, ht, ?_, Or.inl (by rw [← e1.2.2.2.1]; omega)⟩
        intro hne
        rcases c3 with h | h
        · exact absurd h hne
        · exact h
  rw [if_neg c3]
  push Not at c3
  by_cases c4 : c.stop = some true
  · -- an interrupt after a solution was found
    rw [if_neg (by simp [c4])]
    obtain ⟨b, hb⟩ := found_interrupted (a := a) { s1 with allow_infeasible := false }
      (c.routes_with_idxs.map (·.1)) (c.routes_with_idxs.map (·.2)) c.feasible
    rw [decide_eq_true c4]
    refine ⟨_, hb, by simp, ?_⟩
    intro r hr
    cases hr
    exact fun hK => absurd (hc.clean c4 hK) c3.1
  have hst : c.stop = none := by
    cases hstop : c.stop with
    | none => rfl
    | some x => cases x <;> [exact absurd hstop c1; exact absurd hstop c4]
  obtain ⟨⟨t, ht⟩, _⟩ := hc' hst
  obtain ⟨S, h1, h2, h3, h4, h5, h6, h7⟩ := solve_found hp hs ht
  have hSne : S ≠ [] := by
    rintro rfl
    exact c3.1 h1
  have hidx : c.routes_with_idxs.map (·.2) = S.map (·.2) := by
    rw [h1, List.map_map]
    rfl
  have hrts : c.routes_with_idxs.map (·.1) = (S.map (·.1)).map (·.route) := by
    rw [h1, List.map_map, List.map_map]
    rfl
  -- the end of an iteration with the new solution
  have key : ∀ (s2 : PtState) (us : List (List ℕ)) (feas : Bool), PtInv a d C L allow0 K0 s2 →
      s2.relaxed = s.relaxed → s2.forbidden = s.forbidden → s2.K_constraint = s.K_constraint →
      s2.ptl_set = c.ptl_set → us ≠ [] → PartSol a.N a.D d C L us → (allow0 = false → [] ∉ us) →
      (feas = true → us.flatten.Perm (List.range' 1 (a.N - 1))) →
      (CoverBy a.N (S.map (·.1)) → feas = true ∧ us = (S.map (·.1)).map Petal.custs) →
      ∃ x, ptFound a (decide (c.stop = some true)) s2 (us.map wrap) (c.routes_with_idxs.map (·.2)) feas = .ok x ∧
        (∀ s', x = .inl s' → PtInv a d C L allow0 K0 s') ∧ ∀ r, x = .inr r → EndOk a d C L allow0 K0 r := by
    intro s2 us feas i2 q1 q2 q3 q4 q5 q6 q7 q8 q9
    rw [hst]
    obtain ⟨x, g1, g2, g3, g4, g5⟩ := found_spec hp i2 q5 q6 q7 q8 (idxs := c.routes_with_idxs.map (·.2))
      (by rw [hidx]; exact h3) (by rw [hidx, q1]; exact h4) (by
        rw [hidx, q1, h5]
        intro hcov
        obtain ⟨q10, q11⟩ := q9 hcov
        refine ⟨q10, ?_⟩
        rw [q11, ← cost_custs h2]
        rfl)
    refine ⟨x, g1, fun s' h => (g2 s' h).1, ?_⟩
    intro r hr
    cases r with
    | gurobiError => exact absurd hr g4
    | interrupt b => exact fun _ => g3 b hr
    | ret b =>
      obtain ⟨u, rfl, g6, g7⟩ := g5 b hr
      by_cases hreq : a.required = none
      · obtain ⟨rfl, g8, g9, g10⟩ := g7 hreq
        refine ret_ok (s := s) hp g6 q3.symm q1 (by
            intro fc hfc
            rw [← q2] at hfc
            exact List.mem_append_left _ hfc) ?_
        intro _
        refine ⟨g10, fun _ => ⟨c.ptl_set, t, _, _, ht, fun _ => by simp, ?_⟩⟩
        have hset := i2.set
        rw [← q4]
        by_cases h2 : s2.ptl_set = 2
        · exact Or.inr ⟨h2, g9 h2⟩
        · exact Or.inl (by omega)
      · exact ⟨g6.part, fun h => absurd h hreq, fun h => absurd h hreq, fun h => absurd h hreq⟩
  by_cases c5 : (!c.feasible && !decide (c.stop = some true)) = true
  · rw [if_pos c5, hrts]
    have hfe : c.feasible = false := by
      simp at c5
      exact c5.1
    have hal := hs.allow (h7 c3.1 hfe)
    obtain ⟨us, all, g1, g2, g3, g4, g5⟩ := multi_petals hp.hN hp.dem (hp.tri hal) h2
    rw [g1]
    simp only
    refine key s1 us all i1 e1.1 e1.2.1 e1.2.2.1 e1.2.2.2.1 ?_ g2 ?_ g4 g5
    · rintro rfl
      rw [List.length_nil, List.length_map] at g3
      exact hSne (List.length_eq_zero_iff.1 g3.symm)
    · intro h
      rw [hal] at h
      simp at h
  · rw [if_neg c5]
    have hfe : c.feasible = true := by
      by_contra hf
      rw [Bool.not_eq_true] at hf
      simp [hf, hst] at c5
    have hr2 : (S.map (·.1)).map (·.route) = ((S.map (·.1)).map Petal.custs).map wrap := by
      generalize S.map (·.1) = ps at h2
      rw [List.map_map]
      apply List.map_congr_left
      intro p hpm
      exact (good_custs (h2 p hpm)).1
    have hperm := (coverBy_iff h2).1 (h6 hfe)
    rw [hrts, hr2]
    refine key { s1 with allow_infeasible := false } _ _ ?_ e1.1 e1.2.1 e1.2.2.1 e1.2.2.2.1 ?_ ?_ ?_ ?_ ?_
    · exact ⟨i1.set, i1.good, i1.forb, i1.forbBest, i1.noBest, i1.best, by simp, i1.cnt, i1.fresh, i1.noRelax, i1.K⟩
    · simpa using hSne
    · refine ⟨hperm.nodup_iff.2 List.nodup_range', ?_, ?_⟩
      · intro u hu
        obtain ⟨p, hpm, rfl⟩ := List.mem_map.1 hu
        exact (good_custs (h2 p hpm)).2.2.2.2.1
      · intro u hu
        obtain ⟨p, hpm, rfl⟩ := List.mem_map.1 hu
        exact (good_custs (h2 p hpm)).2.2.2.2.2.1
    · intro _ hm
      obtain ⟨p, hpm, he⟩ := List.mem_map.1 hm
      exact (good_custs (h2 p hpm)).2.2.1 he
    · exact fun _ => hperm
    · exact fun _ => ⟨hfe, rfl⟩

/-- The main loop raises nothing, and its end is as it should be. -/
theorem loop_spec (hp : PtHyp a d C L allow0) : ∀ (fuel : ℕ) {s : PtState}, PtInv a d C L allow0 K0 s →
    ∃ x, ptLoop a fuel s = .ok x ∧ ∀ r, x = some r → EndOk a d C L allow0 K0 r
  | 0, s, _ => ⟨none, rfl, by simp⟩
  | fuel + 1, s, hs => by
    obtain ⟨x, h1, h2, h3⟩ := iter_spec hp hs
    unfold ptLoop
    rw [h1]
    cases x with
    | inr r => exact ⟨_, rfl, fun r' h => by cases h; exact h3 r rfl⟩
    | inl s' => exact loop_spec hp fuel (h2 s' rfl)

end Verif
