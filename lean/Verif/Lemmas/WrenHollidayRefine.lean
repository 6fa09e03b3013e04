import Verif.Lemmas.WrenHollidayDis
import Mathlib.Data.Prod.Lex
import Mathlib.Data.Finset.Prod
import Mathlib.Data.Multiset.Powerset

/-! # Lemmas about the loop that refines two disentangled routes -/

namespace Verif

open Spec

variable {D : ℕ → ℕ → ℚ} {d : ℕ → ℚ} {C L : Option ℚ}

/-- The number of the customers on the routes, then their demand. -/
def whServed (d : ℕ → ℚ) (rds : List RouteData) : ℕ ×ₗ ℚ := toLex ((served rds).length, demand d (served rds))

theorem whServed_perm {rds rds' : List RouteData} (h : (served rds').Perm (served rds)) :
    whServed d rds' = whServed d rds := by
  rw [whServed, whServed, h.length_eq, demand_perm d h]

theorem complainLoop_progress (R : List ℕ) : ∀ {s : ComplainState}, (∀ rd ∈ s.routes, GoodRd D (some d) C rd) →
    ∃ s', complainLoop D (some d) C L R s = .ok s' ∧ whServed d s.routes ≤ whServed d s'.routes ∧
      (s'.improved = true → s.improved = true ∨ whServed d s.routes < whServed d s'.routes) := by
  induction R with
  | nil => intro s _; exact ⟨s, rfl, le_rfl, .inl⟩
  | cons n R ih =>
    intro s h
    obtain ⟨s1, e1, hs⟩ := complainNode_spec (L := L) n s h
    have key : (∀ rd ∈ s1.routes, GoodRd D (some d) C rd) ∧ (s1 = s ∨ whServed d s.routes < whServed d s1.routes) := by
      rcases hs with ⟨rfl, -⟩ | ⟨k, -, -, hs⟩
      · exact ⟨h, .inl rfl⟩
      · refine ⟨k.2.1, .inr ?_⟩
        rcases hs with ⟨-, hp⟩ | ⟨m, -, -, hp, f, hf, hlt⟩
        · refine Prod.Lex.toLex_lt_toLex.2 (.inl ?_)
          have := hp.length_eq
          simp only [List.length_cons] at this
          simp only
          omega
        · injection hf with hf
          subst hf
          refine Prod.Lex.toLex_lt_toLex.2 (.inr ⟨?_, ?_⟩)
          · have := hp.length_eq
            simp only [List.length_cons] at this
            simp only
            omega
          · have := demand_perm d hp
            rw [demand_cons, demand_cons] at this
            simp only
            linarith
    obtain ⟨s2, e2, l2, p2⟩ := ih key.1
    refine ⟨s2, by rw [complainLoop, e1]; exact e2, ?_, ?_⟩
    · rcases key.2 with rfl | k
      · exact l2
      · exact k.le.trans l2
    · intro hi
      rcases key.2 with rfl | k
      · exact p2 hi
      · exact .inr (k.trans_le l2)

/-- What the refinement keeps. -/
structure RefKeeps (D : ℕ → ℕ → ℚ) (d : ℕ → ℚ) (C L : Option ℚ) (rds : List RouteData) (om : List ℕ)
    (rds' : List RouteData) (om' : List ℕ) : Prop where
  good : ∀ rd ∈ rds', GoodRd D (some d) C rd
  length : rds'.length = rds.length
  same : (served rds' ++ om').Perm (served rds ++ om)
  fits : Triangle D → (∀ n, 0 ≤ d n) → (∀ rd ∈ rds, Fits D (some d) C L rd.route) →
    ∀ rd ∈ rds', Fits D (some d) C L rd.route

theorem refKeeps_trans {a b c : List RouteData} {x y z : List ℕ} (h : RefKeeps D d C L a x b y)
    (h' : RefKeeps D d C L b y c z) : RefKeeps D d C L a x c z :=
  ⟨h'.good, h'.length.trans h.length, h'.same.trans h.same, fun hD hd hf => h'.fits hD hd (h.fits hD hd hf)⟩

theorem whComplain_spec {rds : List RouteData} {om : List ℕ} (h : ∀ rd ∈ rds, GoodRd D (some d) C rd)
    (hnd : (served rds ++ om).Nodup) :
    ∃ rds' om' b, (∀ imp, whComplain D d C L rds om imp = .ok (rds', om', imp || b)) ∧ RefKeeps D d C L rds om rds' om' ∧
      (b = true → whServed d rds < whServed d rds') ∧ (b = false → rds' = rds ∧ om' = om) := by
  by_cases ho : om = []
  · refine ⟨rds, om, false, fun imp => by simp [whComplain, ho], ⟨h, rfl, .refl _, fun _ _ h => h⟩, by simp,
      fun _ => ⟨rfl, rfl⟩⟩
  · obtain ⟨rds', om', b, e, k1, k2, k3, -, -, k4⟩ := C40_conserves D (some d) C L rds om h hnd
    refine ⟨rds', om', b, fun imp => by rw [whComplain, if_neg ho, e], ⟨k2, k1, k3, fun _ _ => k4⟩, ?_, ?_⟩
    · intro hb
      obtain ⟨s, e1, -, e3⟩ := complainLoop_progress (L := L) om (s := ⟨rds, [], [], false⟩) h
      rw [complain_heuristic, e1] at e
      simp only [Except.ok.injEq, Prod.mk.injEq] at e
      obtain ⟨r1, -, r3⟩ := e
      rcases e3 (r3.trans hb) with h | h
      · simp at h
      · rw [← r1]; exact h
    · rintro rfl
      obtain ⟨q1, q2, -⟩ := C40_no_improvement D (some d) C L rds om h hnd e
      exact ⟨q1, q2⟩

theorem refineOnce_spec (hS : Symm D) (hD : ∀ i j, 0 ≤ D i j) {rds : List RouteData} {om : List ℕ}
    (h : ∀ rd ∈ rds, GoodRd D (some d) C rd) (hnd : (served rds ++ om).Nodup) :
    ∃ rds' om' b, (∃ F, ∀ inner, F ≤ inner → whRefineOnce inner D d C L rds om = .ok (some (rds', om', b))) ∧
      RefKeeps D d C L rds om rds' om' ∧
      (b = true → whServed d rds < whServed d rds' ∨
        (whServed d rds' = whServed d rds ∧ tot D rds' + S_EPS < tot D rds)) := by
  obtain ⟨rds1, b1, ⟨F1, e1⟩, p1, -⟩ := inspect_spec (L := L) hS hD h
  obtain ⟨rds2, b2, ⟨F2, e2⟩, p2, -⟩ := single_spec (L := L) hD p1.good
  have hp12 := p2.same.trans p1.same
  obtain ⟨rds3, om3, b3, e3, k3, s3, n3⟩ := whComplain_spec (L := L) (om := om) p2.good
    ((hp12.append_right om).nodup_iff.2 hnd)
  refine ⟨rds3, om3, (b1 || b2) || b3, ⟨F1 + F2, fun inner hi => ?_⟩, ?_, ?_⟩
  · rw [whRefineOnce, e1 inner (by omega)]
    simp only
    rw [e2 inner (by omega)]
    simp only
    rw [e3]
  · exact refKeeps_trans ⟨p2.good, p2.length.trans p1.length, hp12.append_right om,
      fun hT hd hf => p2.fits hT hd (p1.fits hT hd hf)⟩ k3
  · intro hb
    cases b3 with
    | true => exact .inl (by rw [← whServed_perm hp12]; exact s3 rfl)
    | false =>
      rw [(n3 rfl).1]
      refine .inr ⟨whServed_perm hp12, ?_⟩
      exact (whProg_trans p1 p2).gain (by simpa using hb)

/-- What the number of the customers on the routes and their demand can be. -/
def whValues (d : ℕ → ℚ) (B : List ℕ) : Finset (ℕ ×ₗ ℚ) :=
  ((B : Multiset ℕ).powerset.map fun m => toLex (Multiset.card m, (m.map d).sum)).toFinset

theorem whServed_mem {B : List ℕ} {rds : List RouteData} {om : List ℕ} (h : (served rds ++ om).Perm B) :
    whServed d rds ∈ whValues d B := by
  rw [whValues, Multiset.mem_toFinset, Multiset.mem_map]
  refine ⟨(served rds : Multiset ℕ), ?_, ?_⟩
  · rw [Multiset.mem_powerset, Multiset.coe_le]
    exact (List.sublist_append_left _ _).subperm.trans h.subperm
  · rw [whServed, demand_eq_sum]; simp

/-- How many values are greater. -/
def whRank (d : ℕ → ℚ) (B : List ℕ) (rds : List RouteData) : ℕ :=
  ((whValues d B).filter fun v => whServed d rds < v).card

theorem whRank_lt {B : List ℕ} {rds rds' : List RouteData} {om : List ℕ} (h : (served rds' ++ om).Perm B)
    (hlt : whServed d rds < whServed d rds') : whRank d B rds' < whRank d B rds := by
  refine Finset.card_lt_card ⟨?_, ?_⟩
  · intro v hv
    rw [Finset.mem_filter] at hv ⊢
    exact ⟨hv.1, hlt.trans hv.2⟩
  · intro hsub
    have := hsub (Finset.mem_filter.2 ⟨whServed_mem h, hlt⟩)
    rw [Finset.mem_filter] at this
    exact lt_irrefl _ this.2

theorem refine_loop (hS : Symm D) (hD : ∀ i j, 0 ≤ D i j) {B : List ℕ} (hB : B.Nodup) (r : ℕ) :
    ∀ (k : ℕ) (rds : List RouteData) (om : List ℕ), (∀ rd ∈ rds, GoodRd D (some d) C rd) →
    (served rds ++ om).Perm B → whRank d B rds = r → tot D rds ≤ k * S_EPS →
    ∃ rds' om', (∃ F, ∀ inner fuel, F ≤ inner → F ≤ fuel →
      whRefine inner D d C L fuel rds om = .ok (some (rds', om'))) ∧ RefKeeps D d C L rds om rds' om' := by
  induction r using Nat.strong_induction_on with
  | _ r ihr =>
    intro k
    induction k with
    | zero =>
      intro rds om h hp hr hk
      obtain ⟨rds1, om1, b, ⟨F, e⟩, k1, g⟩ := refineOnce_spec (L := L) hS hD h (hp.nodup_iff.2 hB)
      cases b with
      | false =>
        refine ⟨rds1, om1, ⟨F + 1, fun inner fuel hi hf => ?_⟩, k1⟩
        obtain ⟨fuel, rfl⟩ : ∃ f, fuel = f + 1 := ⟨fuel - 1, by omega⟩
        rw [whRefine, e inner (by omega)]
      | true =>
        rcases g rfl with g | ⟨-, g⟩
        · obtain ⟨k', hk'⟩ := exists_bound (tot D rds1)
          obtain ⟨rds2, om2, ⟨F2, e2⟩, k2⟩ := ihr _ (hr ▸ whRank_lt (k1.same.trans hp) g) k' rds1 om1 k1.good
            (k1.same.trans hp) rfl hk'
          refine ⟨rds2, om2, ⟨F + F2 + 1, fun inner fuel hi hf => ?_⟩, refKeeps_trans k1 k2⟩
          obtain ⟨fuel, rfl⟩ : ∃ f, fuel = f + 1 := ⟨fuel - 1, by omega⟩
          rw [whRefine, e inner (by omega)]
          exact e2 inner fuel (by omega) (by omega)
        · have := tot_nonneg hD rds1
          have := S_EPS_pos
          simp only [Nat.cast_zero, zero_mul] at hk
          linarith
    | succ k ihk =>
      intro rds om h hp hr hk
      obtain ⟨rds1, om1, b, ⟨F, e⟩, k1, g⟩ := refineOnce_spec (L := L) hS hD h (hp.nodup_iff.2 hB)
      have next : ∀ rds2 om2, (∃ F, ∀ inner fuel, F ≤ inner → F ≤ fuel →
          whRefine inner D d C L fuel rds1 om1 = .ok (some (rds2, om2))) → RefKeeps D d C L rds1 om1 rds2 om2 →
          b = true → ∃ rds' om', (∃ F, ∀ inner fuel, F ≤ inner → F ≤ fuel →
            whRefine inner D d C L fuel rds om = .ok (some (rds', om'))) ∧ RefKeeps D d C L rds om rds' om' := by
        rintro rds2 om2 ⟨F2, e2⟩ k2 rfl
        refine ⟨rds2, om2, ⟨F + F2 + 1, fun inner fuel hi hf => ?_⟩, refKeeps_trans k1 k2⟩
        obtain ⟨fuel, rfl⟩ : ∃ f, fuel = f + 1 := ⟨fuel - 1, by omega⟩
        rw [whRefine, e inner (by omega)]
        exact e2 inner fuel (by omega) (by omega)
      cases b with
      | false =>
        refine ⟨rds1, om1, ⟨F + 1, fun inner fuel hi hf => ?_⟩, k1⟩
        obtain ⟨fuel, rfl⟩ : ∃ f, fuel = f + 1 := ⟨fuel - 1, by omega⟩
        rw [whRefine, e inner (by omega)]
      | true =>
        rcases g rfl with g | ⟨g1, g2⟩
        · obtain ⟨k', hk'⟩ := exists_bound (tot D rds1)
          obtain ⟨rds2, om2, e2, k2⟩ := ihr _ (hr ▸ whRank_lt (k1.same.trans hp) g) k' rds1 om1 k1.good
            (k1.same.trans hp) rfl hk'
          exact next rds2 om2 e2 k2 rfl
        · obtain ⟨rds2, om2, e2, k2⟩ := ihk rds1 om1 k1.good (k1.same.trans hp) (by rw [← hr, whRank, whRank, g1]) (by
            push_cast at hk
            linarith)
          exact next rds2 om2 e2 k2 rfl

theorem refine_spec (hS : Symm D) (hD : ∀ i j, 0 ≤ D i j) {rds : List RouteData} {om : List ℕ}
    (h : ∀ rd ∈ rds, GoodRd D (some d) C rd) (hnd : (served rds ++ om).Nodup) :
    ∃ rds' om', (∃ F, ∀ inner fuel, F ≤ inner → F ≤ fuel →
      whRefine inner D d C L fuel rds om = .ok (some (rds', om'))) ∧ RefKeeps D d C L rds om rds' om' := by
  obtain ⟨k, hk⟩ := exists_bound (tot D rds)
  exact refine_loop hS hD hnd _ k rds om h (.refl _) rfl hk

end Verif
