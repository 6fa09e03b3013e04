import Verif.Model.Parallel
import Verif.Props.NearestNeighbor
import Verif.Props.CheapestInsertion
import Verif.Lemmas.Paessens
import Verif.Lemmas.SavingsVariants
import Verif.Spec.Ends

/-!
# C62: the construction heuristics as the command line calls them, and their number of routes at once
-/

namespace Verif
open Spec

/-! ## Lemmas -/

/-- The depots of a solution tell the number of its routes. -/
theorem solves_emerging {N : ℕ} {D : ℕ → ℕ → ℚ} {d : ℕ → ℚ} {C L : Option ℚ} {s : List ℕ} (h : Solves N D d C L s)
    (hN : 2 ≤ N) : s.count 0 = (blocks s).length + 1 ∧ 1 ≤ (blocks s).length := by
  have e : tour (blocks s) = s := by rw [← squeeze_depotEnds h.ends, h.noEmpty]
  constructor
  · conv_lhs => rw [← e]
    exact count_depots fun u hu => (mem_blocks s u hu).2
  · have h1 : 1 ∈ customers s := h.covers.mem_iff.2 (by simp; omega)
    rw [← blocks_flatten] at h1
    obtain ⟨b, hb, -⟩ := List.mem_flatten.1 h1
    exact List.length_pos_iff.2 (List.ne_nil_of_mem hb)

/-- No more routes than customers. -/
theorem solves_routes_le {N : ℕ} {D : ℕ → ℕ → ℚ} {d : ℕ → ℚ} {C L : Option ℚ} {s : List ℕ} (h : Solves N D d C L s) :
    (blocks s).length ≤ N - 1 := by
  have h1 : (blocks s).flatten.length = N - 1 := by
    rw [blocks_flatten, h.covers.length_eq]; simp
  have h2 := fun b hb => (mem_blocks s b hb).1
  rw [← h1]
  generalize blocks s = bs at h2
  induction bs with
  | nil => simp
  | cons b bs ih =>
    have := ih fun c hc => h2 c (by simp [hc])
    have := List.length_pos_iff.2 (h2 b (by simp))
    simp only [List.length_cons, List.flatten_cons, List.length_append]
    omega

/-- The routes of the cheapest insertion never become fewer. -/
theorem ciStep_routes {D : ℕ → ℕ → ℚ} {d : ℕ → ℚ} {C L : Option ℚ} {strain : ℕ → ℕ → ℕ → ℚ × ℚ} {mk : Bool}
    {pick : List Ins → ℕ} {s s' : CIState} (h : ciStep D d C L strain mk pick s = .ok s') :
    s.routes.length + s.complete.length ≤ s'.routes.length + s'.complete.length := by
  unfold ciStep at h
  cases h1 : idx s.routes s.k with
  | error e => rw [h1] at h; cases h
  | ok rd =>
    rw [h1] at h
    simp only at h
    cases h2 : ciPopLoop D d C L strain mk pick s.unrouted (ciGenerate D d C L strain s.unrouted rd).heap.length
        (ciGenerate D d C L strain s.unrouted rd) with
    | error e => rw [h2] at h; cases h
    | ok p =>
      obtain ⟨rd', un⟩ := p
      rw [h2] at h
      simp only [ciRenew] at h
      by_cases hc : rd'.heap = [] ∧ un ≠ []
      · rw [if_pos hc] at h
        cases h3 : ciNewRoute D d un s.seeds with
        | error e => rw [h3] at h; cases h
        | ok q =>
          rw [h3] at h
          injection h with h
          subst h
          simp
      · rw [if_neg hc] at h
        injection h with h
        subst h
        simp

theorem ciLoop_routes {D : ℕ → ℕ → ℚ} {d : ℕ → ℚ} {C L : Option ℚ} {strain : ℕ → ℕ → ℕ → ℚ × ℚ} {mk : Bool}
    {pick : List Ins → ℕ} : ∀ (fuel : ℕ) {s s' : CIState}, ciLoop D d C L strain mk pick fuel s = .ok (some s') →
    s.routes.length + s.complete.length ≤ s'.routes.length + s'.complete.length := by
  intro fuel
  induction fuel with
  | zero => intro s s' h; simp [ciLoop] at h
  | succ n ih =>
    intro s s' h
    rw [ciLoop] at h
    by_cases hu : s.unrouted = []
    · rw [if_pos hu] at h
      injection h with h; injection h with h
      rw [h]
    · rw [if_neg hu] at h
      cases h1 : ciStep D d C L strain mk pick s with
      | error e => rw [h1] at h; cases h
      | ok s1 =>
        rw [h1] at h
        exact (ciStep_routes h1).trans (ih h)

/-- The cheapest insertion with `count` routes at once: it solves the instance, on at least as many routes. -/
theorem ci_farthest {N : ℕ} (D : ℕ → ℕ → ℚ) {d : ℕ → ℚ} (C L : Option ℚ) (mk : Bool) {count : ℕ}
    (strain : ℕ → ℕ → ℕ → ℚ × ℚ) {pick : List Ins → ℕ} (hpick : PickOk pick) (h0 : d 0 = 0)
    (hc1 : 1 ≤ count) (hc2 : count ≤ N - 1) :
    ∃ sol, Solves N D d C L sol ∧ (mk = false → cost D sol ≤ cost D (trivialSol N)) ∧ count ≤ (blocks sol).length ∧
      Ends (cheapest_insertion_init D d C L N mk count .farthest strain pick) sol := by
  have hS : SeedsOk N D d C L (Serviceable N D d C L) (mk = false) True := ⟨h0, fun _ => trivial, fun h => h⟩
  obtain ⟨i1, -, -, i4⟩ := ciInit_inv hS strain (mode := .farthest) (by simp) (fun _ seeds hs => by
    obtain ⟨seeds', h1, _, h3⟩ := ciSeeds_spec (N := N) (mode := .farthest) D strain (by simp)
    rw [h1] at hs; injection hs with hs
    exact hs ▸ h3 (by simp)) count
  obtain ⟨s, hs⟩ := i1 ⟨.inl trivial, hc2⟩
  obtain ⟨j1, j2, j3⟩ := i4 s hs
  obtain ⟨s', k1, k2, k3⟩ := ciLoop_spec strain hpick (fun h => h) hS j1 (by omega)
  obtain ⟨r1, r2⟩ := ciLoop_solves k2 k3 fun h => h
  refine ⟨_, r1, r2, ?_, s.unrouted.length + 1, fun fuel hf => ?_⟩
  · have h1 := ciLoop_routes _ (k1 (s.unrouted.length + 1) (by omega))
    have hz : ∀ u ∈ ciRoutes s', u ≠ [] ∧ ∀ x ∈ u, x ≠ 0 := by
      refine fun u hu => ⟨(ciRoutes_ok k2 u hu).1, fun x hx => ?_⟩
      have h2 : x ∈ (ciRoutes s').flatten := List.mem_flatten.2 ⟨u, hu, hx⟩
      rw [ciRoutes_flatten] at h2
      have := k2.perm
      rw [k3, List.append_nil] at this
      have := this.mem_iff.1 h2
      simp at this
      omega
    rw [ciResult_eq k2, blocks_tour_of_routes _ hz]
    simp only [ciRoutes, List.length_map, List.length_append]
    omega
  · unfold cheapest_insertion_init
    rw [hs]
    simp only
    rw [k1 fuel (by omega)]

theorem pnLoop_best {N : ℕ} {D : ℕ → ℕ → ℚ} {d : ℕ → ℚ} {C L : Option ℚ} {sols : ℕ → List ℕ}
    (hs : ∀ k, 1 ≤ k → Solves N D d C L (sols k) ∧
      Ends (nearest_neighbor_init D d C L N k .farthest false []) (some (sols k))) :
    ∀ n m k : ℕ, 1 ≤ k → k < m → (∀ j, 1 ≤ j → j < k → cost D (sols k) < cost D (sols j)) →
      (∀ j, 1 ≤ j → j < m → cost D (sols k) ≤ cost D (sols j)) →
      ∃ k', 1 ≤ k' ∧ k' < m + n ∧ (∀ j, 1 ≤ j → j < k' → cost D (sols k') < cost D (sols j)) ∧
        (∀ j, 1 ≤ j → j < m + n → cost D (sols k') ≤ cost D (sols j)) ∧
        ∀ K : ℤ, Ends (fun fuel => pnLoop D d C L N false fuel (List.range' m n) (sols k, objf (sols k) D, K)) (sols k') := by
  intro n
  induction n with
  | zero =>
    intro m k h1 h2 h3 h4
    exact ⟨k, h1, h2, h3, h4, fun K => ⟨0, fun fuel _ => rfl⟩⟩
  | succ n ih =>
    intro m k h1 h2 h3 h4
    obtain ⟨g1, F, g2⟩ := hs m (by omega)
    have e : ∀ K : ℤ, ∀ fuel, F ≤ fuel → pnLoop D d C L N false fuel (List.range' m (n + 1)) (sols k, objf (sols k) D, K) =
        pnLoop D d C L N false fuel (List.range' (m + 1) n) (pnUpdate D false (sols m) (sols k, objf (sols k) D, K)) := by
      intro K fuel hf
      rw [List.range'_succ, pnLoop, g2 fuel hf]
      simp only [without_empty_self g1]
    have fin : ∀ k1, 1 ≤ k1 → k1 < m + 1 → (∀ j, 1 ≤ j → j < k1 → cost D (sols k1) < cost D (sols j)) →
        (∀ j, 1 ≤ j → j < m + 1 → cost D (sols k1) ≤ cost D (sols j)) →
        (∀ K : ℤ, ∃ K' : ℤ, pnUpdate D false (sols m) (sols k, objf (sols k) D, K) = (sols k1, objf (sols k1) D, K')) →
        ∃ k', 1 ≤ k' ∧ k' < m + (n + 1) ∧ (∀ j, 1 ≤ j → j < k' → cost D (sols k') < cost D (sols j)) ∧
        (∀ j, 1 ≤ j → j < m + (n + 1) → cost D (sols k') ≤ cost D (sols j)) ∧
        ∀ K : ℤ, Ends (fun fuel => pnLoop D d C L N false fuel (List.range' m (n + 1)) (sols k, objf (sols k) D, K))
          (sols k') := by
      intro k1 c1 c2 c3 c4 c5
      obtain ⟨k', i1, i2, i3, i4, i5⟩ := ih (m + 1) k1 c1 c2 c3 c4
      refine ⟨k', i1, by omega, i3, fun j a b => i4 j a (by omega), fun K => ?_⟩
      obtain ⟨K', hK'⟩ := c5 K
      obtain ⟨F', i6⟩ := i5 K'
      refine ⟨max F F', fun fuel hf => ?_⟩
      simp only
      rw [e K fuel (le_trans (le_max_left _ _) hf), hK']
      exact i6 fuel (le_trans (le_max_right _ _) hf)
    by_cases hb : cost D (sols m) < cost D (sols k)
    · refine fin m (by omega) (by omega) (fun j a b => lt_of_lt_of_le hb (h4 j a b)) (fun j a b => ?_) fun K => ?_
      · rcases Nat.lt_succ_iff_lt_or_eq.1 b with b | rfl
        · exact (lt_of_lt_of_le hb (h4 j a b)).le
        · exact le_refl _
      · refine ⟨((sols m).count 0 : ℤ) - 1, ?_⟩
        rw [pnUpdate, if_pos]
        simpa [is_better_sol, objf_eq_cost] using hb
    · refine fin k h1 (by omega) h3 (fun j a b => ?_) fun K => ⟨K, ?_⟩
      · rcases Nat.lt_succ_iff_lt_or_eq.1 b with b | rfl
        · exact h4 j a b
        · exact not_lt.1 hb
      · rw [pnUpdate, if_neg]
        simpa [is_better_sol, objf_eq_cost] using hb

/-! ## The theorems -/

/-- **C62** (partial: customers at the same place are left out, see `C29_coincident_false`): the parallel nearest
neighbour heuristic gives a complete solution that keeps the limits if every customer alone does. If a single
solution is asked for, it is the one with one route at a time; otherwise the cheapest of those with one, two, and
so on up to as many routes at once as that one has, the first if there are several; so it is never worse. -/
theorem C62_nearest_partial {N : ℕ} {D : ℕ → ℕ → ℚ} (d : ℕ → ℚ) (C L : Option ℚ) (hN : 2 ≤ N)
    (hD : DistinctCustomers N D) :
    ∃ sols : ℕ → List ℕ, (∀ k, 1 ≤ k → Solves N D d C L (sols k) ∧
        Ends (nearest_neighbor_init D d C L N k .farthest false []) (some (sols k))) ∧
      Ends (call_sn D d C L N false) (some (sols 1)) ∧
      Ends (call_pn .auto D d C L N true false) (some (sols 1)) ∧
      (∀ k : ℕ, 2 ≤ k → ∀ single, Ends (call_pn (.num k) D d C L N single false) (some (sols k))) ∧
      ∃ k, 1 ≤ k ∧ k ≤ (blocks (sols 1)).length ∧ Ends (call_pn .auto D d C L N false false) (some (sols k)) ∧
        (∀ j, 1 ≤ j → j < k → cost D (sols k) < cost D (sols j)) ∧
        ∀ j, 1 ≤ j → j ≤ (blocks (sols 1)).length → cost D (sols k) ≤ cost D (sols j) := by
  have := fun k : ℕ => C29_partial d C L (count := k + 1) (mode := .farthest) false hN hD (by simp) (by omega) (by simp)
  choose f h1 h2 using this
  have hs : ∀ k, 1 ≤ k → Solves N D d C L (f (k - 1)) ∧
      Ends (nearest_neighbor_init D d C L N k .farthest false []) (some (f (k - 1))) := by
    intro k hk
    refine ⟨h1 _, ?_⟩
    have := h2 (k - 1)
    rwa [show k - 1 + 1 = k by omega] at this
  obtain ⟨c1, c2⟩ := solves_emerging (hs 1 le_rfl).1 hN
  obtain ⟨F, hF⟩ := (hs 1 le_rfl).2
  refine ⟨fun k => f (k - 1), hs, ⟨F, fun fuel hf => ?_⟩, ⟨F, fun fuel hf => ?_⟩, fun k hk single => ?_, ?_⟩
  · simp only [call_sn, Bool.false_eq_true, if_false]
    exact hF fuel hf
  · simp only [call_pn, pnAuto, Bool.false_eq_true, if_false, if_true]
    rw [hF fuel hf]
  · obtain ⟨F', hF'⟩ := (hs k (by omega)).2
    refine ⟨F', fun fuel hf => ?_⟩
    have : (k : ℤ) > 1 := by omega
    simp only [call_pn, Bool.false_eq_true, if_false]
    rw [if_pos this, Int.toNat_natCast]
    exact hF' fuel hf
  · obtain ⟨k', i1, i2, i3, i4, i5⟩ := pnLoop_best (sols := fun k => f (k - 1)) hs ((blocks (f 0)).length - 1) 2 1 le_rfl
      (by omega) (fun j a b => by omega) (fun j a b => by
        obtain rfl : j = 1 := by omega
        exact le_rfl)
    refine ⟨k', i1, by simp only [Nat.sub_self] at c2 ⊢; omega, ?_, i3, fun j a b => i4 j a (by simp only [Nat.sub_self] at c2 b; omega)⟩
    obtain ⟨F', i6⟩ := i5 (((f 0).count 0 : ℤ) - 1)
    refine ⟨max F F', fun fuel hf => ?_⟩
    simp only [call_pn, pnAuto, Bool.false_eq_true, if_false]
    rw [hF fuel (le_trans (le_max_left _ _) hf)]
    simp only [Nat.sub_self] at c1 c2 i6 ⊢
    have e : pyRange 2 (List.count 0 (f 0) - 1 + 1) = List.range' 2 ((blocks (f 0)).length - 1) := by
      rw [pyRange, c1]; congr 1
    rw [e, i6 fuel (le_trans (le_max_right _ _) hf)]

/-- **C62**: the parallel insertion builds as many routes at once as the sequential insertion needs. It gives a
complete solution that keeps the limits if every customer alone does, costs no more than serving each customer
on its own unless the number of routes is minimised, and never has fewer routes than the sequential insertion.
The same holds for a given number of routes at once, up to the number of customers. -/
theorem C62_insertion {N : ℕ} (D : ℕ → ℕ → ℚ) {d : ℕ → ℚ} (C L : Option ℚ) (mk : Bool) {pick : List Ins → ℕ}
    (hpick : PickOk pick) (h0 : d 0 = 0) (hN : 2 ≤ N) :
    ∃ s p, Solves N D d C L s ∧ Solves N D d C L p ∧
      (mk = false → cost D s ≤ cost D (trivialSol N) ∧ cost D p ≤ cost D (trivialSol N)) ∧
      (blocks s).length ≤ (blocks p).length ∧
      Ends (call_si D d C L N mk pick) s ∧ Ends (call_pi .auto D d C L N mk pick) p ∧
      Ends (cheapest_insertion_init D d C L N mk (blocks s).length .farthest (parametrized_insertion_criteria D 1 0)
        pick) p ∧
      ∀ k : ℕ, 2 ≤ k → k ≤ N - 1 → ∃ q, Solves N D d C L q ∧ k ≤ (blocks q).length ∧
        (mk = false → cost D q ≤ cost D (trivialSol N)) ∧ Ends (call_pi (.num k) D d C L N mk pick) q := by
  obtain ⟨s, s1, s2, s3, F, s4⟩ := ci_farthest D C L mk (count := 1) (parametrized_insertion_criteria D 1 0) hpick h0
    le_rfl (by omega : 1 ≤ N - 1)
  obtain ⟨c1, c2⟩ := solves_emerging s1 hN
  obtain ⟨p, p1, p2, p3, F', p4⟩ := ci_farthest D C L mk (parametrized_insertion_criteria D 1 0) hpick h0
    c2 (solves_routes_le s1)
  refine ⟨s, p, s1, p1, fun hm => ⟨s2 hm, p2 hm⟩, p3, ⟨F, s4⟩, ⟨max F F', fun fuel hf => ?_⟩, ⟨F', p4⟩, fun k h1 h2 => ?_⟩
  · simp only [call_pi]
    rw [s4 fuel (le_trans (le_max_left _ _) hf)]
    simp only
    rw [c1, Nat.add_sub_cancel, p4 fuel (le_trans (le_max_right _ _) hf)]
  · obtain ⟨q, q1, q2, q3, F'', q4⟩ := ci_farthest D C L mk (parametrized_insertion_criteria D 1 0) hpick h0
      (by omega : 1 ≤ k) h2
    refine ⟨q, q1, q3, q2, F'', fun fuel hf => ?_⟩
    have : (k : ℤ) > 1 := by omega
    simp only [call_pi, if_pos this, Int.toNat_natCast]
    exact q4 fuel hf

/-- **C62 is false** of the parallel insertion, which unlike the nearest neighbours is not compared with the
sequential one: four customers on a line, two on a vehicle, cost 14 in place of 12. -/
theorem C62_insertion_false :
    call_si ciLine (fun n => if n = 0 then 0 else 1) (some 2) none 5 false leastKey 20 = .ok (some [0, 1, 2, 0, 3, 4, 0]) ∧
    call_pi .auto ciLine (fun n => if n = 0 then 0 else 1) (some 2) none 5 false leastKey 20 =
      .ok (some [0, 2, 4, 0, 1, 3, 0]) ∧
    cost ciLine [0, 1, 2, 0, 3, 4, 0] = 12 ∧ cost ciLine [0, 2, 4, 0, 1, 3, 0] = 14 := by
  decide +kernel

/-- **C62 is false** without customers: the parallel nearest neighbours end with an `AttributeError` unless a single
solution is asked for, both insertions with an `IndexError`. -/
theorem C62_no_customers_false (D : ℕ → ℕ → ℚ) {d : ℕ → ℚ} (C L : Option ℚ) (h0 : d 0 = 0) (mk : Bool)
    (pick : List Ins → ℕ) :
    (∃ F, ∀ fuel ≥ F, call_pn .auto D d C L 1 false false fuel = .error .attributeError) ∧
    Ends (call_pn .auto D d C L 1 true false) none ∧ Ends (call_sn D d C L 1 false) none ∧
    ∀ fuel, call_si D d C L 1 mk pick fuel = .error .indexError ∧
      call_pi .auto D d C L 1 mk pick fuel = .error .indexError := by
  obtain ⟨us, h1, h2, -, F, h4⟩ := C29_forbidden (N := 1) (D := D) d C L (count := 1) (mode := .farthest) false (Fb := []) le_rfl
    ⟨fun i j _ _ _ _ => by omega, fun i _ _ => by omega, fun j _ _ => by omega⟩ (by simp) le_rfl (by simp)
  have hu : us = [] := by
    have h3 : us.flatten = [] := by
      have : allowed 1 [] = [] := rfl
      rw [this] at h1
      exact h1.eq_nil
    cases us with
    | nil => rfl
    | cons u us =>
      simp only [List.flatten_cons, List.append_eq_nil_iff] at h3
      exact absurd (by simp [h3.1]) h2
  simp only [hu, if_true] at h4
  refine ⟨⟨F, fun fuel hf => ?_⟩, ⟨F, fun fuel hf => ?_⟩, ⟨F, fun fuel hf => ?_⟩, fun fuel => ⟨?_, ?_⟩⟩
  · simp only [call_pn, pnAuto, Bool.false_eq_true, if_false, h4 fuel hf]
  · simp only [call_pn, pnAuto, Bool.false_eq_true, if_false, if_true, h4 fuel hf]
  · simp only [call_sn, Bool.false_eq_true, if_false, h4 fuel hf]
  · exact C28_too_many D C L mk _ pick h0 (by simp) (by omega) fuel
  · simp only [call_pi, C28_too_many D C L mk _ pick h0 (mode := .farthest) (by simp) (show 1 - 1 < 1 by omega) fuel]

/-- **C62**: to minimise the number of routes is refused by both nearest neighbour heuristics, and a number of
routes at once below two by the parallel one. -/
theorem C62_refused (D : ℕ → ℕ → ℚ) (d : ℕ → ℚ) (C L : Option ℚ) (N : ℕ) (single mk : Bool) (fuel : ℕ) :
    call_sn D d C L N true fuel = .error .notImplemented ∧
    call_pn .auto D d C L N single true fuel = .error .notImplemented ∧
    (∀ k : ℤ, 1 < k → call_pn (.num k) D d C L N single true fuel = .error .notImplemented) ∧
    (∀ k : ℤ, k ≤ 1 → call_pn (.num k) D d C L N single mk fuel = .error .valueError) ∧
    ∀ (k : ℤ) pick, k ≤ 1 → call_pi (.num k) D d C L N mk pick fuel = .error .valueError := by
  refine ⟨rfl, rfl, fun k hk => ?_, fun k hk => ?_, fun k pick hk => ?_⟩
  · simp only [call_pn, if_pos (show k > 1 from hk), if_true]
  · simp only [call_pn, if_neg (show ¬ k > 1 by omega)]
  · simp only [call_pi, if_neg (show ¬ k > 1 by omega)]

/-! ## Instances -/

example : call_pn .auto nnLine (fun _ => 1) (some 2) (some 8) 5 false false 20 = .ok (some (some [0, 1, 2, 0, 3, 4, 0])) := by
  decide +kernel

/-- The hypotheses of `C62_insertion` can be met. -/
example : ∃ s p, Solves 5 ciLine (fun n => if n = 0 then 0 else 1) (some 2) none s ∧
    Solves 5 ciLine (fun n => if n = 0 then 0 else 1) (some 2) none p ∧ (blocks s).length ≤ (blocks p).length := by
  obtain ⟨s, p, h1, h2, -, h4, -⟩ := C62_insertion (N := 5) ciLine (some 2) none false leastKey_ok.1
    (d := fun n => if n = 0 then 0 else 1) rfl (by omega)
  exact ⟨s, p, h1, h2, h4⟩

end Verif
