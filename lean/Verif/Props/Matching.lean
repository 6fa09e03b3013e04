import Verif.Lemmas.MatchingReach
import Verif.Props.Tyagi

/-! # C54: the savings heuristic with matchings

`mbsa_init` asks a solver for a matching of the routes and joins a pair of it until no pair is left that can be joined.
The integer program only asks that each first number of a pair is in one chosen pair, and so its answer is not a
matching; the joined pair is the one with the largest saving. A caller relies on the routes being a solution. -/

namespace Verif
open Spec

/-- **C54**, the choice: between two states of the loop exactly one pair of routes is joined (or nothing changes), the
customers of the pair fit into one route, and no other pair that fits saves more. -/
theorem C54_greedy {N : ℕ} {d : ℕ → ℚ} {C L : Option ℚ} {W : ℚ} {tsp : Router}
    {mmp : List (ℚ × ℕ × ℕ) → Option (List Bool)} (hm : SolvesRows mmp) (hd : d 0 = 0) {minimizeK second : Bool}
    {s s' : MbState} (h : MbReach d C L N minimizeK second W tsp mmp s)
    (hst : mbStep d C L minimizeK second W tsp mmp s = .ok (some s')) (hne : s' ≠ s) :
    s.sets.flatten.Perm (List.range' 1 (N - 1)) ∧
    ∃ a b c rest, s.sets.Perm (a :: b :: rest) ∧ s'.sets.Perm (c :: rest) ∧ Joint d C L tsp a b c ∧
      GainAtMost d C L tsp s.sets (gain tsp a b c) ∧ (minimizeK = true ∨ 0 ≤ gain tsp a b c) := by
  obtain ⟨hs, hf⟩ := h.inv (D := fun _ _ => 0) hm hd
  refine ⟨hs.perm, ?_⟩
  rcases mbStep_spec hm hd minimizeK second hs hf with ⟨_, h2⟩ | ⟨_, _, h3⟩ | ⟨_, _, _, h4, _⟩ |
    ⟨t, i, j, a, b, h1, h2, h3, h4, h5, h6, h7, h8, h9, ⟨rest, h10, h10'⟩, h11⟩
  · rw [h2] at hst; cases hst
  · rw [h3] at hst; cases hst
  · rw [h4] at hst
    injection hst with hst; injection hst with hst
    exact absurd hst.symm hne
  · rw [h1] at hst
    injection hst with hst; injection hst with hst
    rw [← hst]
    rw [sav_of_canJoin h5] at h6 h11
    exact ⟨a, b, nsUnion a b, rest, h10, h10', joint_of_canJoin hd (two_nodup h2 h3 h4 hs.nodup) h5,
      gain_of_best hd hs.nodup h6, h11⟩

/-- The routes of the solution are tours of the sets. -/
theorem mbsa_init_of_loop {N : ℕ} {D : ℕ → ℕ → ℚ} {d : ℕ → ℚ} {C L : Option ℚ} {W : ℚ} {tsp : Router}
    (ht : TspRoutine D tsp) {s : MbState} (hs : MbInv N D d C L W tsp s) :
    ∃ us : List (List ℕ), List.Forall₂ (fun s u => u.Perm s ∧ tsp (0 :: s) = (wrap u, cost D (wrap u))) s.sets us ∧
      [0] ++ (mbRoutes tsp s.sets s.cache).flatMap (fun r => r.drop 1) = tour us ∧ Solves N D d C L (tour us) := by
  obtain ⟨us, h1, h2, h3, h4⟩ := tours_of ht s.sets hs.good hs.ne_zero
  refine ⟨us, h1, ?_, solves_good (h3.trans hs.perm) h4⟩
  rw [mbRoutes_spec _ hs.cache, h2, wraps_tour]

/-- **C54** (partial): if joining routes does not cost more (or only their number counts), the algorithm ends. Either it
raises `ValueError`, which happens only if all customers fit into one route, or its answer is a solution that serves
each customer once, keeps the limits if each customer alone does, has at least two routes, which are tours of the routine,
and no two of its routes can be joined within the limits with a saving above 0 and the threshold `W`. Missing: a routine
that makes joining routes more expensive, with `minimize_K` off, where the loop need not end (`C54_endless`). -/
theorem C54_partial {N : ℕ} {D : ℕ → ℕ → ℚ} {d : ℕ → ℚ} {C L : Option ℚ} {W : ℚ} {tsp : Router}
    {mmp : List (ℚ × ℕ × ℕ) → Option (List Bool)} (hm : SolvesRows mmp) (ht : TspRoutine D tsp) (hd : d 0 = 0)
    (minimizeK second : Bool) (hneg : minimizeK = true ∨ Subadditive N tsp) :
    ((Serviceable N D d C L → 2 ≤ N → ∃ u : List ℕ, u.Perm (List.range' 1 (N - 1)) ∧ RouteOk D d C L u ∧
        tsp (List.range N) = (wrap u, cost D (wrap u))) ∧
      ∀ fuel, N < fuel → mbsa_init d C L N minimizeK second W tsp mmp fuel = .error .valueError) ∨
    (∃ us sets : List (List ℕ), Solves N D d C L (tour us) ∧ 2 ≤ us.length ∧
      List.Forall₂ (fun s u => u.Perm s ∧ s.Pairwise (· < ·) ∧ tsp (0 :: s) = (wrap u, cost D (wrap u))) sets us ∧
      GainAtMost d C L tsp sets (max W 0) ∧
      ∀ fuel, N < fuel → mbsa_init d C L N minimizeK second W tsp mmp fuel = .ok (some (tour us))) := by
  obtain ⟨h1, h2, h3⟩ := mbStart_spec (N := N) (D := D) (d := d) (C := C) (L := L) (W := W) (tsp := tsp)
  have hlen : (mbStart d C L N W tsp).sets.length ≤ N := by
    rw [h3]
    unfold mbSingles pyRange
    simp
  rcases mbLoop_spec hm hd minimizeK second hneg h1 h2 with ⟨⟨s, s1, s2, s3⟩, hl⟩ | ⟨s, s1, s2, s3, hl⟩
  · refine Or.inl ⟨fun hser hN => ?_, fun fuel hfu => ?_⟩
    · obtain ⟨n, hn⟩ : ∃ n, N = n + 2 := ⟨N - 2, by omega⟩
      cases hsets : s.sets with
      | nil =>
        have := s1.perm.length_eq
        rw [hsets] at this
        simp at this
        omega
      | cons x t =>
        cases t with
        | cons y t => rw [hsets] at s2; simp at s2
        | nil =>
          have hp := s1.perm
          have hx : x ∈ s.sets := by rw [hsets]; simp
          rw [hsets] at hp
          simp only [List.flatten_cons, List.flatten_nil, List.append_nil] at hp
          obtain ⟨g1, g2, g3⟩ := s1.good x hx
          have he : x = List.range' 1 (N - 1) := sorted_eq g2 List.pairwise_lt_range' hp
          have hr : List.range N = 0 :: x := by
            rw [he, hn, List.range_eq_range', List.range'_succ]; simp
          have hnd : (0 :: x).Nodup := by rw [← hr]; exact List.nodup_range
          obtain ⟨u, u1, u2⟩ := ht x g1 hnd
          exact ⟨u, u1.trans hp, g3 hser u u1 u2, by rw [hr]; exact u2⟩
    · unfold mbsa_init
      rw [hl fuel (by omega)]
  · obtain ⟨us, u1, u2, u3⟩ := mbsa_init_of_loop ht s1
    refine Or.inr ⟨us, s.sets, u3, by rw [← u1.length_eq]; omega, ?_, gain_of_best hd s1.nodup s3, fun fuel hfu => ?_⟩
    · refine List.forall₂_iff_get.2 ⟨u1.length_eq, fun i h h' => ?_⟩
      have := (List.forall₂_iff_get.1 u1).2 i h h'
      exact ⟨this.1, (s1.good _ (List.get_mem _ _)).2.1, this.2⟩
    · unfold mbsa_init
      rw [hl fuel (by omega)]
      simp only [u2]

/-- **C54**, a customer at most: instances with fewer than two customers raise `ValueError`, though the solution is
clear. -/
theorem C54_few_customers {N : ℕ} (hN : N ≤ 2) (d : ℕ → ℚ) (C L : Option ℚ) (W : ℚ) (tsp : Router)
    (mmp : List (ℚ × ℕ × ℕ) → Option (List Bool)) (minimizeK second : Bool) (fuel : ℕ) :
    mbsa_init d C L N minimizeK second W tsp mmp (fuel + 1) = .error .valueError := by
  have : (mbStart d C L N W tsp).savings = [] := by
    rcases Nat.lt_or_ge N 2 with h | h
    · have : mbSingles N = [] := by unfold mbSingles pyRange; rw [show N - 1 = 0 by omega]; rfl
      unfold mbStart; rw [this]; rfl
    · have : N = 2 := by omega
      subst this
      rfl
  unfold mbsa_init
  rw [mbLoop, mbStep, if_pos this]

/-- **C54**, false when everything fits: if any two sets of customers are served cheaper together and the limits do not
keep all customers from being in one route, the algorithm raises `ValueError` instead of giving the one route. -/
theorem C54_one_route_false {N : ℕ} {d : ℕ → ℚ} {C L : Option ℚ} {W : ℚ} (hW : W ≤ 0) {tsp : Router}
    {mmp : List (ℚ × ℕ × ℕ) → Option (List Bool)} (hm : SolvesRows mmp) (hd : d 0 = 0)
    (hd' : ∀ n, 0 ≤ d n) (hC : Within C C_EPS (demand d (List.range' 1 (N - 1)))) (hL : ¬ InUse L)
    (hsub : StrictlySubadditive N tsp) (minimizeK second : Bool) {fuel : ℕ} (hfu : N < fuel) :
    mbsa_init d C L N minimizeK second W tsp mmp fuel = .error .valueError := by
  have hs' : Subadditive N tsp := fun a b c h1 h2 h3 h4 h5 h6 h7 h8 => (hsub a b c h1 h2 h3 h4 h5 h6 h7 h8).le
  obtain ⟨h1, h2, h3⟩ := mbStart_spec (N := N) (D := fun _ _ => 0) (d := d) (C := C) (L := L) (W := W) (tsp := tsp)
  have hlen : (mbStart d C L N W tsp).sets.length ≤ N := by
    rw [h3]
    unfold mbSingles pyRange
    simp
  rcases mbLoop_spec hm hd minimizeK second (Or.inr hs') h1 h2 with ⟨_, hl⟩ | ⟨s, s1, s2, s3, _⟩
  · unfold mbsa_init
    rw [hl fuel (by omega)]
  · exfalso
    have hi : s.sets[0]? = some s.sets[0] := List.getElem?_eq_getElem (by omega)
    have hj : s.sets[1]? = some s.sets[1] := List.getElem?_eq_getElem s2
    generalize s.sets[0] = a at hi
    generalize s.sets[1] = b at hj
    have hab := two_nodup hi hj (by omega) s1.nodup
    have hp := nsUnion_perm (disjoint_of_nodup hab)
    obtain ⟨rest, hr⟩ := two_places hi hj (by omega)
    have hq : (b ++ (a ++ rest.flatten)).Perm (List.range' 1 (N - 1)) := hr.flatten.symm.trans s1.perm
    have hc : CanJoin d C L tsp a b := by
      refine ⟨?_, (exceeds_iff _ _ _).2 fun l h hne => absurd ⟨l, h, hne⟩ hL⟩
      rw [nsDemand_eq hd, nsDemand_eq hd]
      refine (exceeds_iff _ _ _).2 fun c h hne => ?_
      have h5 := hC c h hne
      rw [← demand_perm d hq, demand_append, demand_append] at h5
      have := demand_nonneg hd' rest.flatten
      linarith
    have h6 := s3 0 1 a b hi hj (by omega)
    rw [sav_of_canJoin hc, max_eq_right hW] at h6
    have h7 := hsub a b (nsUnion a b) (s1.good _ (List.mem_of_getElem? hi)).1 (s1.good _ (List.mem_of_getElem? hj)).1 hp
      (fun x hx => by
        have hx' : x ∈ b ++ (a ++ rest.flatten) := by
          have := hp.mem_iff.1 hx
          rw [List.mem_append] at this
          rw [List.mem_append, List.mem_append]
          tauto
        have := hq.mem_iff.1 hx'
        rw [List.mem_range'_1] at this
        omega) (hp.nodup_iff.2 hab) (s1.good _ (List.mem_of_getElem? hi)).2.1 (s1.good _ (List.mem_of_getElem? hj)).2.1
      (nsUnion_sorted hab)
    linarith

/-- **C54**, without an end: with `minimize_K` off, a state with two routes or more, of which any two fit into one route
and cost more that way, is never left. -/
theorem C54_endless {N : ℕ} {d : ℕ → ℚ} {C L : Option ℚ} {W : ℚ} {tsp : Router}
    {mmp : List (ℚ × ℕ × ℕ) → Option (List Bool)} (hm : SolvesRows mmp) (hd : d 0 = 0) {second : Bool}
    (hW : 0 ≤ W) {s : MbState} (h : MbReach d C L N false second W tsp mmp s) (h2 : 2 ≤ s.sets.length)
    (hall : ∀ a b rest, s.sets.Perm (a :: b :: rest) → ∃ c, Joint d C L tsp a b c ∧ gain tsp a b c < 0) (fuel : ℕ) :
    mbLoop (mbStep d C L false second W tsp mmp) fuel s = .ok none := by
  obtain ⟨hs, hf⟩ := h.inv (D := fun _ _ => 0) hm hd
  have hneg : ∀ (i j : ℕ) (a b : List ℕ), s.sets[i]? = some a → s.sets[j]? = some b → i ≠ j →
      sav d C L W tsp a b < 0 := by
    intro i j a b hi hj hij
    obtain ⟨rest, hr⟩ := two_places hj hi (Ne.symm hij)
    obtain ⟨c, hc, hg⟩ := hall a b rest hr
    obtain ⟨hcj, rfl⟩ := canJoin_of_joint hd (two_nodup hi hj hij hs.nodup) hc
    rw [sav_of_canJoin hcj]
    exact hg
  have hlt : ∀ e ∈ s.savings, e.1 < 0 := by
    intro e he
    obtain ⟨hne, a, b, ha, hb, hv, _⟩ := hs.val e he
    rw [hv]
    exact hneg _ _ a b ha hb hne
  have hnil : s.savings ≠ [] := fun e => by
    have := (savings_nil_iff hs hf).1 e
    omega
  have hstep : mbStep d C L false second W tsp mmp s = .ok (some s) := by
    unfold mbStep
    rw [if_neg hnil]
    obtain ⟨⟨w, i, j⟩, he, hsol, -⟩ := mmpSolve_spec hm second hnil
    have hw : w < 0 := hlt _ he
    have hany : (!s.savings.any fun e => decide (e.1 ≠ W ∧ e.1 ≠ 0)) = false := by
      simp only [Bool.not_eq_false', List.any_eq_true, decide_eq_true_eq]
      refine ⟨(w, i, j), he, ?_, ?_⟩
      · change w ≠ W
        intro e; linarith
      · change w ≠ 0
        intro e; linarith
    rw [hany, hsol]
    simp only [Bool.false_eq_true, if_false, Bool.not_false, Bool.true_and, decide_eq_true_eq]
    rw [if_neg (by intro e; linarith), if_pos hw]
  induction fuel with
  | zero => rfl
  | succ n ih => rw [mbLoop, hstep]; exact ih

/-- **C54**, the interrupt (partial): if every customer fits into one route with another one, then an interrupt after the
first savings have been evaluated hands out a solution that serves each customer once and keeps the limits if each
customer alone does. Missing: an interrupt before that, and customers that fit together with no other one
(`C54_interrupted_false`). -/
theorem C54_interrupted_partial {N : ℕ} {D : ℕ → ℕ → ℚ} (hD : Symm D) {d : ℕ → ℚ} {C L : Option ℚ} {W : ℚ} {tsp : Router}
    {mmp : List (ℚ × ℕ × ℕ) → Option (List Bool)} (hm : SolvesRows mmp) (ht : TspRoutine D tsp) (hd : d 0 = 0)
    {minimizeK second : Bool}
    (hpair : ∀ n, 1 ≤ n → n < N → ∃ m, 1 ≤ m ∧ m < N ∧ m ≠ n ∧ ∃ c, Joint d C L tsp [n] [m] c) {s : MbState}
    (h : MbInterrupt d C L N minimizeK second W tsp mmp s) (hs : ∀ more, s ≠ ⟨[], mbSingles N, cacheMore tsp more []⟩) :
    ∃ sol, geedyMerge D d C L W s = .ok (some sol) ∧ Solves N D d C L sol := by
  have h0 := mbStart_all (W := W) hd hpair
  cases h with
  | first more => exact absurd rfl (hs more)
  | head hr => exact geedyMerge_spec hD ht hd (hr.inv hm hd).1 (hr.all (D := D) hm hd h0)
  | @row s s' s'' i j i' a w more hr hst hsol hk hj =>
    obtain ⟨hi, -⟩ := hr.inv (D := D) hm hd
    have ha := hr.all (D := D) hm hd h0
    unfold mbStep at hst
    by_cases q1 : s.savings = []
    · rw [if_pos q1] at hst; cases hst
    rw [if_neg q1] at hst
    by_cases q2 : (!s.savings.any fun e => decide (e.1 ≠ W ∧ e.1 ≠ 0)) = true
    · rw [if_pos q2] at hst; cases hst
    rw [if_neg q2, hsol] at hst
    simp only at hst
    by_cases q3 : w = W
    · rw [if_pos q3] at hst; cases hst
    obtain ⟨e, he, hsol', -⟩ := mmpSolve_spec hm second q1
    rw [hsol] at hsol'
    injection hsol' with hsol'; injection hsol' with hsol'
    subst hsol'
    obtain ⟨t, a', b', t1, t2, t3, -⟩ := mbJoin_all hd hi ha he q3
    change mbJoin s i j = _ at t1
    rw [t1] at hj
    injection hj with hj
    injection hj with hj
    subst hj
    refine geedyMerge_spec hD ht hd (t2.more more) fun x hx => ?_
    exact (cacheMore_spec more t2.cache).2.1 x (t3 x hx)

/-! ## Cases -/

/-- The distances 1 between any two places. -/
def mbUnit : ℕ → ℕ → ℚ := fun i j => if i = j then 0 else 1

theorem cost_unit {l : List ℕ} (hn : l.Nodup) (h0 : 0 ∉ l) (hne : l ≠ []) : cost mbUnit (wrap l) = l.length + 1 := by
  have key : ∀ l : List ℕ, l.Nodup → 0 ∉ l → l ≠ [] → cost mbUnit (l ++ [0]) = l.length := by
    intro l
    induction l with
    | nil => intro _ _ h; exact absurd rfl h
    | cons a t ih =>
      intro hn h0 _
      cases t with
      | nil =>
        have : a ≠ 0 := fun e => h0 (by simp [e])
        simp [cost, mbUnit, this]
      | cons b t =>
        have h1 := ih (List.nodup_cons.1 hn).2 (fun h => h0 (List.mem_cons_of_mem _ h)) (by simp)
        have hab : a ≠ b := fun e => (List.nodup_cons.1 hn).1 (by simp [e])
        change mbUnit a b + cost mbUnit (b :: t ++ [0]) = _
        rw [h1, mbUnit, if_neg hab]
        push_cast [List.length_cons]
        ring
  cases l with
  | nil => exact absurd rfl hne
  | cons a t =>
    have h1 := key (a :: t) hn h0 hne
    have ha : (0 : ℕ) ≠ a := fun e => h0 (by simp [e])
    change mbUnit 0 a + cost mbUnit (a :: t ++ [0]) = _
    rw [h1, mbUnit, if_neg ha]
    ring

/-- Under these distances any two sets are served cheaper together. -/
theorem unit_strict (N : ℕ) : StrictlySubadditive N (keepOrder mbUnit) := by
  intro a b c ha hb hp hr hn sa sb sc
  have nz : ∀ x ∈ a ++ b, x ≠ 0 := fun x hx => by have := hr x (hp.mem_iff.2 hx); omega
  have hc0 : 0 ∉ c := fun h => nz 0 (hp.mem_iff.1 h) rfl
  have ha0 : 0 ∉ a := fun h => nz 0 (List.mem_append_left _ h) rfl
  have hb0 : 0 ∉ b := fun h => nz 0 (List.mem_append_right _ h) rfl
  have hcn : c ≠ [] := fun e => ha (List.append_eq_nil_iff.1 (by rw [e] at hp; exact hp.symm.eq_nil)).1
  change cost mbUnit (wrap c) < cost mbUnit (wrap a) + cost mbUnit (wrap b)
  have hab := hp.nodup_iff.1 hn
  rw [cost_unit hn hc0 hcn, cost_unit (List.Nodup.of_append_left hab) ha0 ha,
    cost_unit (List.Nodup.of_append_right hab) hb0 hb, hp.length_eq, List.length_append]
  push_cast
  linarith

theorem unit_subadditive (N : ℕ) : Subadditive N (keepOrder mbUnit) :=
  fun a b c h1 h2 h3 h4 h5 h6 h7 h8 => (unit_strict N a b c h1 h2 h3 h4 h5 h6 h7 h8).le

def mbOnes : ℕ → ℚ := fun n => if n = 0 then 0 else 1

/-- The hypotheses of `C54_partial` and `C54_greedy` can be met. -/
example : ∃ mmp, SolvesRows mmp ∧ TspRoutine mbUnit (keepOrder mbUnit) ∧ mbOnes 0 = 0 ∧
    (false = true ∨ Subadditive 6 (keepOrder mbUnit)) ∧ Serviceable 6 mbUnit mbOnes (some 2) none := by
  obtain ⟨mmp, hm⟩ := solvesRows_exists
  refine ⟨mmp, hm, (keepOrder_routine _).1, rfl, Or.inr (unit_subadditive 6), fun n h1 _ => ⟨?_, ?_⟩⟩
  · intro c hc _
    injection hc with hc
    subst hc
    have : n ≠ 0 := by omega
    simp [demand, mbOnes, this, C_EPS]
    norm_num
  · intro c hc; cases hc

/-- The solver that takes the first best pair of each row, for the cases below. -/
def firstBest (es : List (ℚ × ℕ × ℕ)) : Option (List Bool) :=
  some (es.zipIdx.map fun e => decide (∀ f ∈ es.zipIdx, f.1.2.1 = e.1.2.1 → f.1.1 < e.1.1 ∨ (f.1.1 = e.1.1 ∧ e.2 ≤ f.2)))

/-- Five customers, two of which fit into one route. -/
example : mbsa_init mbOnes (some 2) none 6 false true 0 (keepOrder mbUnit) firstBest 20 =
    .ok (some (tour [[1], [2, 3], [4, 5]])) := by decide +kernel

/-- Without limits the answer to the same instance is an exception. -/
example : mbsa_init mbOnes none none 6 false true 0 (keepOrder mbUnit) firstBest 20 = .error .valueError := by
  decide +kernel

/-- The hypotheses of `C54_one_route_false` can be met. -/
example : ∃ mmp, SolvesRows mmp ∧ (∀ n, 0 ≤ mbOnes n) ∧
    Within (some 5) C_EPS (demand mbOnes (List.range' 1 (6 - 1))) ∧ ¬ InUse none ∧
    StrictlySubadditive 6 (keepOrder mbUnit) := by
  obtain ⟨mmp, hm⟩ := solvesRows_exists
  refine ⟨mmp, hm, fun n => by unfold mbOnes; split_ifs <;> norm_num, ?_, ?_, unit_strict 6⟩
  · intro c hc _
    injection hc with hc
    subst hc
    decide +kernel
  · rintro ⟨c, hc, _⟩; cases hc

/-- Four customers: 1 and 2, and 3 and 4, save 3 each; 2 and 3 save 4. -/
def mbPathD : ℕ → ℕ → ℚ := fun i j =>
  ([[0, 4, 4, 4, 4], [4, 0, 5, 8, 8], [4, 5, 0, 4, 8], [4, 8, 4, 0, 5], [4, 8, 8, 5, 0]] : List (List ℚ)).getD i [] |>.getD j 0

/-- **C54**, the matching is not one: with any solver for the integer program the pair of customers 2 and 3 is joined, which
is in no matching of the largest weight, and the result costs 28 where the routes of that matching cost 26. -/
theorem C54_matching_false {mmp : List (ℚ × ℕ × ℕ) → Option (List Bool)} (hm : SolvesRows mmp) (second : Bool)
    {fuel : ℕ} (hfu : 5 < fuel) :
    mbsa_init mbOnes (some 2) none 5 false second 0 (keepOrder mbPathD) mmp fuel = .ok (some (tour [[1], [2, 3], [4]])) ∧
      cost mbPathD (tour [[1], [2, 3], [4]]) = 28 ∧
      Solves 5 mbPathD mbOnes (some 2) none (tour [[1, 2], [3, 4]]) ∧ cost mbPathD (tour [[1, 2], [3, 4]]) = 26 ∧
      ∀ M ∈ (mbStart mbOnes (some 2) none 5 0 (keepOrder mbPathD)).savings.sublists, IsMatching M → (4, 1, 2) ∈ M →
        (M.map (·.1)).sum < (([(3, 0, 1), (3, 2, 3)] : List (ℚ × ℕ × ℕ)).map (·.1)).sum := by
  have hsv : (mbStart mbOnes (some 2) none 5 0 (keepOrder mbPathD)).savings =
      [(3, 0, 1), (0, 0, 2), (0, 0, 3), (4, 1, 2), (0, 1, 3), (3, 2, 3)] := by decide +kernel
  refine ⟨?_, by decide +kernel, ?_, by decide +kernel, ?_⟩
  · obtain ⟨e, he, hsol, hmax⟩ := mmpSolve_spec hm second (es := (mbStart mbOnes (some 2) none 5 0 (keepOrder mbPathD)).savings)
      (by rw [hsv]; simp)
    have hee : e = (4, 1, 2) := by
      rw [hsv] at he hmax
      have : ∀ e ∈ ([(3, 0, 1), (0, 0, 2), (0, 0, 3), (4, 1, 2), (0, 1, 3), (3, 2, 3)] : List (ℚ × ℕ × ℕ)),
          (4 : ℚ) ≤ e.1 → e = (4, 1, 2) := by decide +kernel
      exact this e he (hmax (4, 1, 2) (by simp))
    obtain ⟨f, rfl⟩ : ∃ f, fuel = f + 2 := ⟨fuel - 2, by omega⟩
    have h1 : mbStep mbOnes (some 2) none false second 0 (keepOrder mbPathD) mmp
        (mbStart mbOnes (some 2) none 5 0 (keepOrder mbPathD)) = .ok (some
          ⟨[(0, 0, 2), (0, 1, 0), (0, 1, 2)], [[1], [2, 3], [4]],
            (mbStart mbOnes (some 2) none 5 0 (keepOrder mbPathD)).cache⟩) := by
      unfold mbStep
      rw [if_neg (by rw [hsv]; simp), if_neg (by rw [hsv]; decide +kernel), hsol, hee]
      decide +kernel
    have hcg : CacheGood (keepOrder mbPathD) (mbStart mbOnes (some 2) none 5 0 (keepOrder mbPathD)).cache :=
      (mbStart_spec (D := mbPathD)).1.cache
    have h2 : ∀ cache, mbStep mbOnes (some 2) none false second 0 (keepOrder mbPathD) mmp
        ⟨[(0, 0, 2), (0, 1, 0), (0, 1, 2)], [[1], [2, 3], [4]], cache⟩ = .ok none := by
      intro cache
      unfold mbStep
      rw [if_neg (by simp), if_pos (by simp)]
    unfold mbsa_init
    rw [mbLoop, h1]
    simp only
    rw [mbLoop, h2]
    simp only [mbRoutes_spec _ hcg]
    rfl
  · have hp : ([[1, 2], [3, 4]] : List (List ℕ)).flatten.Perm (List.range' 1 (5 - 1)) := by decide
    refine (solves_tour hp (by decide) ?_).1
    intro b hb
    have : ∀ b ∈ ([[1, 2], [3, 4]] : List (List ℕ)), demand mbOnes b ≤ 2 := by decide +kernel
    refine ⟨fun c hc _ => ?_, fun c hc => by cases hc⟩
    injection hc with hc
    have h := this b hb
    have : (0 : ℚ) ≤ C_EPS := by decide +kernel
    linarith
  · rw [hsv]
    unfold IsMatching
    decide +kernel

/-- Two customers that are far from one another: joining their routes costs 3 more. -/
def mbFarD : ℕ → ℕ → ℚ := fun i j =>
  ([[0, 1, 1], [1, 0, 5], [1, 5, 0]] : List (List ℚ)).getD i [] |>.getD j 0

/-- **C54**, no end: two customers without limits, for which no triangle inequality holds. The loop does not end, though
each customer on its own is a solution. -/
theorem C54_endless_false {mmp : List (ℚ × ℕ × ℕ) → Option (List Bool)} (hm : SolvesRows mmp) (second : Bool) (fuel : ℕ) :
    mbsa_init mbOnes none none 3 false second 0 (keepOrder mbFarD) mmp fuel = .ok none := by
  unfold mbsa_init
  rw [C54_endless hm rfl (le_refl _) MbReach.start (by decide +kernel)]
  intro a b rest hp
  change ([[1], [2]] : List (List ℕ)).Perm (a :: b :: rest) at hp
  have hm2 : (a = [1] ∧ b = [2]) ∨ (a = [2] ∧ b = [1]) := by
    have ha : a ∈ ([[1], [2]] : List (List ℕ)) := hp.mem_iff.2 (by simp)
    have hb : b ∈ ([[1], [2]] : List (List ℕ)) := hp.mem_iff.2 (by simp)
    have hn := hp.nodup_iff.1 (by decide)
    have hab : a ≠ b := fun e => (List.nodup_cons.1 hn).1 (by simp [e])
    simp only [List.mem_cons, List.not_mem_nil, or_false] at ha hb
    rcases ha with rfl | rfl <;> rcases hb with rfl | rfl <;> simp at hab ⊢
  refine ⟨[1, 2], ⟨?_, by decide, fun c (hc : none = some c) => (by cases hc), fun c (hc : none = some c) => (by cases hc)⟩, ?_⟩
  · rcases hm2 with ⟨rfl, rfl⟩ | ⟨rfl, rfl⟩ <;> decide
  · rcases hm2 with ⟨rfl, rfl⟩ | ⟨rfl, rfl⟩ <;> decide +kernel

/-- **C54**, the interrupt fails: two customers that do not fit into one route. Interrupted at the head of the loop, the
handler raises `KeyError` and the solution is lost, though each customer on its own is one; so it does if it is
interrupted while the first savings are evaluated. -/
theorem C54_interrupted_false (mmp : List (ℚ × ℕ × ℕ) → Option (List Bool)) :
    (∃ s, MbInterrupt mbOnes (some 1) none 3 false true 0 (keepOrder mbUnit) mmp s ∧
      s.savings ≠ [] ∧ geedyMerge mbUnit mbOnes (some 1) none 0 s = .error .keyError) ∧
    (∃ s, MbInterrupt mbOnes none none 3 false true 0 (keepOrder mbUnit) mmp s ∧
      geedyMerge mbUnit mbOnes none none 0 s = .error .keyError) ∧
    Solves 3 mbUnit mbOnes (some 1) none (trivialSol 3) := by
  refine ⟨⟨_, .head .start, by decide +kernel, by decide +kernel⟩, ⟨_, .first [], by decide +kernel⟩, ?_⟩
  have hp : ([[1], [2]] : List (List ℕ)).flatten.Perm (List.range' 1 (3 - 1)) := by decide
  refine (solves_tour hp (by decide) ?_).1
  intro b hb
  have : ∀ b ∈ ([[1], [2]] : List (List ℕ)), demand mbOnes b ≤ 1 := by decide +kernel
  refine ⟨fun c hc _ => ?_, fun c hc => by cases hc⟩
  injection hc with hc
  have h := this b hb
  have : (0 : ℚ) ≤ C_EPS := by decide +kernel
  linarith

/-- An interrupt after the first merge, whose handler joins the rest. -/
example : (mbStep mbOnes (some 2) none false true 0 (keepOrder mbUnit) firstBest
      (mbStart mbOnes (some 2) none 6 0 (keepOrder mbUnit))).bind (fun s => match s with
        | some s => geedyMerge mbUnit mbOnes (some 2) none 0 s
        | none => .ok none) = .ok (some (tour [[1], [2, 3], [4, 5]])) := by decide +kernel

/-- The hypothesis of `C54_interrupted_partial` on the pairs can be met. -/
example : ∀ n, 1 ≤ n → n < 6 → ∃ m, 1 ≤ m ∧ m < 6 ∧ m ≠ n ∧ ∃ c, Joint mbOnes (some 2) none (keepOrder mbUnit) [n] [m] c := by
  intro n h1 h2
  have hw : ∀ c : List ℕ, demand mbOnes c ≤ 2 → Within (some 2) C_EPS (demand mbOnes c) := by
    intro c hc x hx _
    injection hx with hx
    have : (0 : ℚ) ≤ C_EPS := by decide +kernel
    linarith
  have hl : ∀ c : List ℕ, Within none S_EPS (keepOrder mbUnit (0 :: c)).2 := fun c x hx => by cases hx
  interval_cases n
  · exact ⟨2, by omega, by omega, by omega, [1, 2], by decide, by decide, hw _ (by decide +kernel), hl _⟩
  · exact ⟨1, by omega, by omega, by omega, [1, 2], by decide, by decide, hw _ (by decide +kernel), hl _⟩
  · exact ⟨1, by omega, by omega, by omega, [1, 3], by decide, by decide, hw _ (by decide +kernel), hl _⟩
  · exact ⟨1, by omega, by omega, by omega, [1, 4], by decide, by decide, hw _ (by decide +kernel), hl _⟩
  · exact ⟨1, by omega, by omega, by omega, [1, 5], by decide, by decide, hw _ (by decide +kernel), hl _⟩

/-- **C54**, ties: of the entries that the solver chose, with the same saving, the one is taken for which the
other entries that share a route with it weigh least. -/
theorem C54_ties {mmp : List (ℚ × ℕ × ℕ) → Option (List Bool)} {es : List (ℚ × ℕ × ℕ)} {X : List Bool}
    (hX : mmp es = some X) {e : ℚ × ℕ × ℕ} (h : mmpSolve mmp true es = .ok (some e)) :
    e ∈ selected es X ∧ ∀ f ∈ selected es X, f.1 = e.1 → otherWeight es e ≤ otherWeight es f := by
  unfold mmpSolve at h
  rw [hX] at h
  simp only [if_true] at h
  rw [mbSecondary_eq] at h
  have hz := zip3_selected (es := es) (w := es.map fun e => -otherWeight es e) (X := X) (by simp)
  have hw : ∀ x ∈ ((es.zip (es.map fun e => -otherWeight es e)).zip X).filterMap fun p => if p.2 then some p.1 else none,
      x.2 = -otherWeight es x.1 := by
    intro x hx
    obtain ⟨p, hp, hpx⟩ := List.mem_filterMap.1 hx
    have hpx' : p.1 = x := by
      by_cases hb : p.2 = true
      · rw [if_pos hb] at hpx
        exact Option.some.inj hpx
      · rw [if_neg hb] at hpx
        cases hpx
    have := List.of_mem_zip (a := p.1) (b := p.2) hp
    rw [hpx'] at this
    obtain ⟨i, hi, he⟩ := List.getElem_of_mem this.1
    rw [List.getElem_zip] at he
    rw [← he]
    simp
  generalize ((es.zip (es.map fun e => -otherWeight es e)).zip X).filterMap (fun p => if p.2 then some p.1 else none) = S
    at h hz hw
  cases S with
  | nil => simp [mbMax] at h
  | cons a t =>
    simp only [mbMax, Except.ok.injEq, Option.some.injEq] at h
    obtain ⟨g1, g2⟩ := foldl_max_pair t a
    generalize (t.foldl (fun m x => if mbLess m x then x else m) a) = m at g1 g2 h
    subst h
    rw [← hz]
    refine ⟨List.mem_map.2 ⟨m, g1, rfl⟩, ?_⟩
    intro f hf hfe
    obtain ⟨x, hx, rfl⟩ := List.mem_map.1 hf
    have h3 := hw x hx
    have h4 := hw m g1
    rcases g2 x hx with h5 | ⟨_, h5⟩
    · linarith
    · linarith

/-- **C54**, the order of the handler of interrupts: the pairs are tried from the largest saving to the least. -/
theorem C54_handler_order (l : List (ℚ × ℕ × ℕ)) :
    (pySort mbGe l).Perm l ∧ (pySort mbGe l).Pairwise fun a b => b.1 ≤ a.1 := by
  refine ⟨pySort_perm _ _, ?_⟩
  have : (pySort mbGe l).Pairwise fun a b => mbGe a b = true := by
    apply pySort_pairwise
    · intro a b c h1 h2
      unfold mbGe at *
      simp only [decide_eq_true_eq] at *
      rcases h1 with h1 | ⟨h1, h1' | ⟨h1', h1''⟩⟩ <;> rcases h2 with h2 | ⟨h2, h2' | ⟨h2', h2''⟩⟩
      all_goals first
        | (left; linarith)
        | (right; refine ⟨by linarith, ?_⟩; omega)
    · intro a b
      unfold mbGe
      simp only [decide_eq_true_eq, Bool.or_eq_true]
      rcases lt_trichotomy a.1 b.1 with h | h | h
      · exact Or.inr (Or.inl h)
      · rcases lt_trichotomy a.2.1 b.2.1 with h' | h' | h'
        · exact Or.inr (Or.inr ⟨h.symm, Or.inl h'⟩)
        · rcases le_total a.2.2 b.2.2 with h'' | h''
          · exact Or.inr (Or.inr ⟨h.symm, Or.inr ⟨h'.symm, h''⟩⟩)
          · exact Or.inl (Or.inr ⟨h, Or.inr ⟨h', h''⟩⟩)
        · exact Or.inl (Or.inr ⟨h, Or.inl h'⟩)
      · exact Or.inl (Or.inl h)
  refine this.imp ?_
  intro a b h
  unfold mbGe at h
  simp only [decide_eq_true_eq] at h
  rcases h with h | h
  · exact h.le
  · exact h.1.ge

example : mmpSolve (fun es => some (es.map fun _ => true)) true [(5, 0, 1), (5, 2, 3), (1, 0, 2), (2, 1, 2)] =
    .ok (some (5, 2, 3)) ∧ otherWeight [(5, 0, 1), (5, 2, 3), (1, 0, 2), (2, 1, 2)] (5, 2, 3) = 3 := by decide +kernel

example : pySort mbGe [(1, 0, 1), (3, 0, 2), (2, 1, 2)] = [(3, 0, 2), (2, 1, 2), (1, 0, 1)] := by decide +kernel

end Verif
