import Verif.Lemmas.GapLeast
import Verif.Lemmas.GapCount
import Verif.Lemmas.GapGiven
import Verif.Lemmas.GapBrute
import Verif.Lemmas.Solves
import Verif.Props.Sweep
import Verif.Spec.Ends

/-! # C58: the heuristic of Fisher and Jaikumar

`gap_init` lets a solver assign the customers to vehicles with seed points (a generalised assignment problem), orders the
customers of each vehicle with a routine for tours, and tries more vehicles until nothing improves. A caller relies on the
answer being a solution, on the best of the solutions found, on the end of the search, and, if the number of routes is to be
minimized, on the least number of routes.

The solver is any function of the number of the call and the programme that answers as `GapRight` asks; it may run out
of time, be interrupted or give up at any call. The seed points are any function of the number of vehicles and the trial. -/

namespace Verif
open Spec

theorem gapP_solves {a : GapArgs} {K : ℕ} {sol : List ℕ} (h : GapP a K sol) :
    Solves a.N a.D a.d a.C a.L sol ∧ Feasible a.D a.d a.C a.L sol ∧ (blocks sol).length ≤ K := by
  obtain ⟨vs, hv⟩ := h
  have hb := gapGood_blocks hv
  obtain ⟨h1, h2, -⟩ := solves_tour hv.all hv.noEmpty hv.ok
  rw [hb]
  rw [hv.sol]
  exact ⟨h1, h2, hv.few⟩

/-- The solutions a result of the search comes with, and the one that is the answer; nothing is
left of an answer after a `GurobiError`. -/
def gapOutcome : GapResult → Option (List ℕ) × List (List ℕ)
  | .ret b l => (b, l)
  | .interrupted b l => (b, l)
  | .gurobiError l => (none, l)

theorem gap_init_inv {a : GapArgs} (h : GapHyp a) {K : Option ℕ} {ld pts : Bool} {fuel : ℕ} {r : GapResult}
    (hr : gap_init fuel a K ld pts = .ok (some r)) :
    GapResInv a.D a.minimize_K (fun sol => ∃ k, GapP a k sol) r := by
  unfold gap_init at hr
  by_cases c1 : (ld && !truthy a.C) = true
  · rw [if_pos c1] at hr; cases hr
  rw [if_neg c1] at hr
  by_cases c2 : (!pts) = true
  · rw [if_pos c2] at hr; cases hr
  rw [if_neg c2] at hr
  match hg : gapRange fuel a K with
  | .error e => rw [hg] at hr; cases hr
  | .ok none => rw [hg] at hr; cases hr
  | .ok (some (s, m)) =>
    rw [hg] at hr
    refine gapKLoop_inv ?_ _ ⟨by simp, fun _ => ⟨rfl, rfl, rfl⟩, fun sol e => by cases e⟩ hr
    intro k s M c as sol f k' hM hs hf
    obtain ⟨h1, h2, h3⟩ := gapTrial_good h hM hs hf
    exact ⟨⟨_, h1⟩, h2, h3⟩

/-- **C58**, the answer: whether the search ends or is interrupted, and even if a `GurobiError` ends it, every solution it has
found serves each customer exactly once within the limits and has no empty routes. The answer is one of them and none of them is
better; there is no answer only if none was found or a `GurobiError` ended the search. -/
theorem C58_answer_partial {a : GapArgs} (h : GapHyp a) {K : Option ℕ} {ld pts : Bool} {fuel : ℕ} {r : GapResult}
    (hr : gap_init fuel a K ld pts = .ok (some r)) :
    (∀ x ∈ (gapOutcome r).2, Solves a.N a.D a.d a.C a.L x ∧ Feasible a.D a.d a.C a.L x) ∧
    (∀ sol, (gapOutcome r).1 = some sol → sol ∈ (gapOutcome r).2 ∧ ∀ x ∈ (gapOutcome r).2, AsGood a.D a.minimize_K sol x) ∧
    ((gapOutcome r).1 = none → (gapOutcome r).2 = [] ∨ ∃ l, r = .gurobiError l) := by
  have hi := gap_init_inv h hr
  have hs : ∀ l : List (List ℕ), (∀ x ∈ l, ∃ k, GapP a k x) →
      ∀ x ∈ l, Solves a.N a.D a.d a.C a.L x ∧ Feasible a.D a.d a.C a.L x := by
    intro l hl x hx
    obtain ⟨k, hk⟩ := hl x hx
    exact ⟨(gapP_solves hk).1, (gapP_solves hk).2.1⟩
  match r, hi with
  | .ret b l, ⟨h1, h2, h3⟩ => exact ⟨hs l h1, fun sol e => h3 sol e, fun e => Or.inl (h2 e)⟩
  | .interrupted b l, ⟨h1, h2, h3⟩ => exact ⟨hs l h1, fun sol e => h3 sol e, fun e => Or.inl (h2 e)⟩
  | .gurobiError l, h1 => exact ⟨hs l h1, fun sol (e : none = some sol) => (by cases e), fun _ => Or.inr ⟨l, rfl⟩⟩

/-- **C58**, a given number of vehicles: no solution that is found has more routes than the vehicles given; if the vehicles may be
increased within a trial, by one or by a tenth. -/
theorem C58_given_most {a : GapArgs} (h : GapHyp a) {K : ℕ} (hK : 1 ≤ K) {ld pts : Bool} {fuel : ℕ} {r : GapResult}
    (hr : gap_init fuel a (some K) ld pts = .ok (some r)) :
    (∀ x ∈ (gapOutcome r).2, (blocks x).length ≤ if a.increase_K = true then max (K + 1) (K + K / 10) else K) := by
  have hr' : gapKLoop a (gapMaxInc K) fuel [K]
      ⟨none, none, none, 0, 0, if a.adapts then L_MPLR_INIT else L_MPLR_DEFAULT, 0, false, false, 0, []⟩ = .ok (some r) := by
    unfold gap_init at hr
    by_cases c1 : (ld && !truthy a.C) = true
    · rw [if_pos c1] at hr; cases hr
    rw [if_neg c1] at hr
    by_cases c2 : (!pts) = true
    · rw [if_pos c2] at hr; cases hr
    rw [if_neg c2] at hr
    have hg : gapRange fuel a (some K) = .ok (some (K, K)) := by
      unfold gapRange
      rw [if_pos (show 0 < (some K).getD 0 from hK)]
      rfl
    rw [hg] at hr
    dsimp only at hr
    rwa [show pyRange K (K + 1) = [K] by simp [pyRange]] at hr
  have hi := gapKLoop_more h ⟨by simp, fun _ => ⟨rfl, rfl, rfl⟩, fun sol e => by cases e⟩ rfl hr'
  have hb : K + gapMore a (gapMaxInc K) K = if a.increase_K = true then max (K + 1) (K + K / 10) else K := by
    unfold gapMore gapMaxInc
    split_ifs <;> omega
  rw [hb] at hi
  match r, hi with
  | .ret b l, ⟨h1, _, _⟩ => exact fun x hx => (gapP_solves (h1 x hx)).2.2
  | .interrupted b l, ⟨h1, _, _⟩ => exact fun x hx => (gapP_solves (h1 x hx)).2.2
  | .gurobiError l, h1 => exact fun x hx => (gapP_solves (h1 x hx)).2.2

/-- **C58**, the end: whatever the solver answers and whatever the seed points are, the search ends, with a result or an
exception, if the limit that bounds the number of vehicles is positive. -/
theorem C58_ends (a : GapArgs) (hN : 1 ≤ a.N) {K : Option ℕ}
    (h : 0 < K.getD 0 ∨ truthy a.C = true ∨ truthy a.L = false ∨ 0 < a.L.getD 0) (ld pts : Bool) :
    ∃ F r, (∀ fuel ≥ F, gap_init fuel a K ld pts = r) ∧ r ≠ .ok none :=
  gap_init_ends hN h ld pts

theorem gapLeastC_pos {N : ℕ} {d : ℕ → ℚ} {c : ℚ} (h : 0 < ((List.range N).map d).sum / c) : 1 ≤ gapLeastC N d c :=
  Nat.ceil_pos.2 h

theorem gapRange_pos {a : GapArgs} {K : Option ℕ} {fuel : ℕ}
    (h : 0 < K.getD 0 ∨ (truthy a.C = true ∧ 0 < ((List.range a.N).map a.d).sum / a.C.getD 0) ∨
      (truthy a.C = false ∧ 0 < a.L.getD 0 ∧ 0 < (a.tsp (pyRange 1 a.N)).2)) :
    (∃ s m, gapRange fuel a K = .ok (some (s, m)) ∧ 1 ≤ s) ∨ gapRange fuel a K = .ok none := by
  have hL : 0 < a.L.getD 0 → truthy a.L = true := by
    intro h
    cases e : a.L with
    | none => rw [e] at h; simp at h
    | some l =>
      rw [e] at h
      have h : (0 : ℚ) < l := h
      simp [truthy, h.ne']
  unfold gapRange
  by_cases hK : 0 < K.getD 0
  · rw [if_pos hK]
    exact Or.inl ⟨_, _, rfl, hK⟩
  · rw [if_neg hK]
    rcases h with h | h | h
    · exact absurd h hK
    · rw [if_pos h.1]
      exact Or.inl ⟨_, _, rfl, gapLeastC_pos h.2⟩
    · rw [if_neg (by rw [h.1]; simp), if_pos (hL h.2.1)]
      dsimp only
      obtain ⟨F', k, h1, h2, -⟩ := gapLeastL_ends (f := (a.tsp (pyRange 1 a.N)).2)
        (edges := pySort (fun x y => decide (x ≤ y)) ((pyRange 1 a.N).map fun i => a.D 0 i)) h.2.1
        ⌈(a.tsp (pyRange 1 a.N)).2 / a.L.getD 0⌉₊
      have hpos : 1 ≤ ⌈(a.tsp (pyRange 1 a.N)).2 / a.L.getD 0⌉₊ := Nat.ceil_pos.2 (div_pos h.2.2 h.2.1)
      have hge : ∀ (fl k0 k1 : ℕ) (f : ℚ) (ed : List ℚ), gapLeastL f ed (a.L.getD 0) fl k0 = some k1 → k0 ≤ k1 := by
        intro fl
        induction fl with
        | zero => intro k0 k1 f ed e; simp [gapLeastL] at e
        | succ fl ih =>
          intro k0 k1 f ed e
          unfold gapLeastL at e
          split_ifs at e
          · cases e; exact le_refl _
          · have := ih _ _ _ _ e; omega
      match hm : gapLeastL _ _ (a.L.getD 0) fuel _ with
      | none => exact Or.inr rfl
      | some k => exact Or.inl ⟨_, _, rfl, hpos.trans (hge _ _ _ _ _ hm)⟩

theorem gapRange_most {a : GapArgs} {K : Option ℕ} {fuel s m : ℕ} (h : gapRange fuel a K = .ok (some (s, m))) {k : ℕ}
    (hk : k ∈ pyRange s (m + 1)) : s ≤ k ∧ k + gapMore a (gapMaxInc s) k ≤ mostVehicles a.N K a.increase_K := by
  have hm : m = if 0 < K.getD 0 then K.getD 0 else a.N - 1 := by
    unfold gapRange at h
    by_cases h1 : 0 < K.getD 0
    · rw [if_pos h1] at h ⊢; cases h; rfl
    rw [if_neg h1] at h ⊢
    by_cases h2 : truthy a.C = true
    · rw [if_pos h2] at h; cases h; rfl
    rw [if_neg h2] at h
    by_cases h3 : truthy a.L = true
    · rw [if_pos h3] at h
      dsimp only at h
      split at h
      · cases h
      · cases h; rfl
    · rw [if_neg h3] at h; cases h
  unfold pyRange at hk
  rw [List.mem_range'_1] at hk
  refine ⟨hk.1, ?_⟩
  unfold mostVehicles gapMore gapMaxInc
  dsimp only
  rw [← hm]
  by_cases hi : a.increase_K = true
  · rw [if_pos hi, if_pos hi]
    omega
  · rw [if_neg hi, if_neg hi]
    omega

/-- **C58**, no exceptions: with coordinates and a limit, seed points that can be had and at least one vehicle to begin with,
the search ends with a result if the message about trials without a solution can be written: Python runs without debugging, or
the weights of the route cost constraints are adaptive, or the route cost is not limited and the solver does not run
out of time. -/
theorem C58_no_error_partial {a : GapArgs} (hN : 1 ≤ a.N) (hq : GapQuiet a) {K : Option ℕ}
    (hs : SeedsOk a.N (mostVehicles a.N K a.increase_K) a.seeds) {ld : Bool} (hld : ld = true → truthy a.C = true)
    (h : 0 < K.getD 0 ∨ (truthy a.C = true ∧ 0 < ((List.range a.N).map a.d).sum / a.C.getD 0) ∨
      (truthy a.C = false ∧ 0 < a.L.getD 0 ∧ 0 < (a.tsp (pyRange 1 a.N)).2)) :
    ∃ r, Ends (fun fuel => gap_init fuel a K ld true) r := by
  have hL : 0 < a.L.getD 0 → truthy a.L = true := by
    intro h
    cases e : a.L with
    | none => rw [e] at h; simp at h
    | some l =>
      rw [e] at h
      have h : (0 : ℚ) < l := h
      simp [truthy, h.ne']
  have hend : 0 < K.getD 0 ∨ truthy a.C = true ∨ truthy a.L = false ∨ 0 < a.L.getD 0 := by
    rcases h with h | h | h
    · exact Or.inl h
    · exact Or.inr (Or.inl h.1)
    · exact Or.inr (Or.inr (Or.inr h.2.1))
  obtain ⟨F, r, hF, hr⟩ := gap_init_ends hN hend ld true
  have hok : ∀ fuel, ∃ o, gap_init fuel a K ld true = .ok o := by
    intro fuel
    unfold gap_init
    rw [if_neg (by intro e; rw [Bool.and_eq_true, Bool.not_eq_true'] at e; rw [hld e.1] at e; simp at e),
      if_neg (by simp)]
    have hg := gapRange_pos h (fuel := fuel)
    rcases hg with ⟨s, m, e, hs1⟩ | e
    · rw [e]
      dsimp only
      refine gapKLoop_ok hN hs hq _ (fun k hk => ?_) rfl (by simp) (fun _ h => absurd h (by simp))
      obtain ⟨h1, h2⟩ := gapRange_most e hk
      exact ⟨by omega, h2⟩
    · rw [e]
      exact ⟨none, rfl⟩
  obtain ⟨o, ho⟩ := hok F
  rw [hF F (le_refl _)] at ho
  cases o with
  | none => exact absurd ho hr
  | some x => exact ⟨x, F, fun fuel hf => by rw [← ho]; exact hF fuel hf⟩

/-- **C58**, no exceptions if the number of vehicles may be increased: the same without adaptive weights, with a limit on the
route cost and whatever the solver answers, if the number of routes is to be minimized and may be increased within a trial. -/
theorem C58_no_error_increase {a : GapArgs} (hN : 1 ≤ a.N) (hinc : a.increase_K = true)
    (hmin : a.minimize_K = true) {K : Option ℕ}
    (hs : SeedsOk a.N (mostVehicles a.N K a.increase_K) a.seeds) {ld : Bool} (hld : ld = true → truthy a.C = true)
    (h : 0 < K.getD 0 ∨ (truthy a.C = true ∧ 0 < ((List.range a.N).map a.d).sum / a.C.getD 0) ∨
      (truthy a.C = false ∧ 0 < a.L.getD 0 ∧ 0 < (a.tsp (pyRange 1 a.N)).2)) :
    ∃ r, Ends (fun fuel => gap_init fuel a K ld true) r := by
  by_cases hna : a.adapts = true
  · exact C58_no_error_partial hN (Or.inr (Or.inl hna)) hs hld h
  rw [Bool.not_eq_true] at hna
  have hend : 0 < K.getD 0 ∨ truthy a.C = true ∨ truthy a.L = false ∨ 0 < a.L.getD 0 := by
    rcases h with h | h | h
    · exact Or.inl h
    · exact Or.inr (Or.inl h.1)
    · exact Or.inr (Or.inr (Or.inr h.2.1))
  obtain ⟨F, r, hF, hr⟩ := gap_init_ends hN hend ld true
  have hok : ∀ fuel, ∃ o, gap_init fuel a K ld true = .ok o := by
    intro fuel
    unfold gap_init
    rw [if_neg (by intro e; rw [Bool.and_eq_true, Bool.not_eq_true'] at e; rw [hld e.1] at e; simp at e),
      if_neg (by simp)]
    rcases gapRange_pos h (fuel := fuel) with ⟨s, m, e, hs1⟩ | e
    · rw [e]
      dsimp only
      refine gapKLoop_inc hN hs hinc hna hmin _ (fun k hk => ?_) rfl (by simp) (fun _ => rfl) (Or.inr fun k hk => ?_)
      · obtain ⟨h1, h2⟩ := gapRange_most e hk
        exact ⟨by omega, h2⟩
      · unfold pyRange at hk
        cases hn : m + 1 - s with
        | zero => rw [hn] at hk; simp at hk
        | succ n =>
          rw [hn, List.range'_succ] at hk
          cases hk
          exact le_max_left _ _
    · rw [e]
      exact ⟨none, rfl⟩
  obtain ⟨o, ho⟩ := hok F
  rw [hF F (le_refl _)] at ho
  cases o with
  | none => exact absurd ho hr
  | some x => exact ⟨x, F, fun fuel hf => by rw [← ho]; exact hF fuel hf⟩

/-- **C58**, the service time: a service time is half added to the distances of the seed points to the customers, not to their
distances to the depot (and cut to a whole number if the distances are): the result is the same if distances are given that
have it. -/
theorem C58_service_time {a : GapArgs} {t : ℚ} (ht : a.st = some t) {b : Bool} (fuel : ℕ) (K : Option ℕ) (ld pts : Bool) :
    gap_init fuel a K ld pts = gap_init fuel { a with
      seeds := fun K trial => (a.seeds K trial).map fun S => S.map fun row j =>
        if 1 ≤ j then row j + (if a.int_dists = true then if 0 ≤ t then (⌊t / 2⌋ : ℚ) else (⌈t / 2⌉ : ℚ) else t / 2) else row j
      st := none, int_dists := b } K ld pts := by
  refine gap_init_congr (fun K s => ?_) fuel K ld pts
  unfold gapProgramme
  dsimp only
  cases a.seeds K s.trial with
  | error e => rfl
  | ok S =>
    have he : gapSeedRows a.st a.int_dists S = gapSeedRows none b (S.map fun row j =>
        if 1 ≤ j then row j + (if a.int_dists = true then if 0 ≤ t then (⌊t / 2⌋ : ℚ) else (⌈t / 2⌉ : ℚ) else t / 2)
        else row j) := by
      unfold gapSeedRows
      rw [ht]
      have hsign : (0 ≤ t / 2) = (0 ≤ t) := by
        rw [eq_iff_iff]; constructor <;> intro h <;> linarith
      by_cases h0 : t = 0
      · subst h0
        rw [if_neg (by simp [truthy]), if_neg (by simp [truthy])]
        rw [List.map_congr_left (g := id), List.map_id]
        intro row _
        funext j
        simp
      · rw [if_pos (by simp [truthy, h0])]
        rw [if_neg (show ¬ truthy (none : Option ℚ) = true by simp [truthy])]
        apply List.map_congr_left
        intro row _
        funext j
        simp only [Option.getD_some, truncQ, hsign]
        by_cases hj : j = 0
        · subst hj; simp
        · simp only [if_neg hj, if_pos (Nat.one_le_iff_ne_zero.2 hj)]
    simp only [Except.map, he]

/-- **C58**, the last seed: the result does not depend on the seed point of the last vehicle (with one vehicle, on any seed
point), since the vehicles use the rows of distances one place off and the first has the depot's. -/
theorem C58_last_seed {a : GapArgs} {seeds' : ℕ → ℕ → Py (List (ℕ → ℚ))}
    (h : ∀ K t, (a.seeds K t).map (·.take (K - 1)) = (seeds' K t).map (·.take (K - 1))) (fuel : ℕ) (K : Option ℕ)
    (ld pts : Bool) : gap_init fuel a K ld pts = gap_init fuel { a with seeds := seeds' } K ld pts :=
  gap_init_congr (gapProgramme_congr h) fuel K ld pts

theorem packed_feas {N : ℕ} {d : ℕ → ℚ} {c : ℚ} {sol : List ℕ} (h : Packed N d c sol) :
    GapFeas N d c (blocks sol).length ∧ (blocks sol).length ≤ N - 1 := by
  have hp : (blocks sol).flatten.Perm (List.range' 1 (N - 1)) := by
    rw [blocks_flatten]
    exact h.1
  refine ⟨⟨blocks sol, rfl, hp, h.2⟩, ?_⟩
  have h1 := hp.length_eq
  rw [List.length_range', List.length_flatten] at h1
  rw [← h1]
  have h2 := List.length_le_sum_of_one_le ((blocks sol).map List.length) (by
    intro n hn
    obtain ⟨b, hb, rfl⟩ := List.mem_map.1 hn
    exact List.length_pos_iff.2 (mem_blocks sol b hb).1)
  simpa using h2

/-- **C58**, a given number of vehicles that may be increased: if the capacity is the only limit and the solver answers exactly,
a solution is returned whenever there is one for one vehicle or a tenth more. -/
theorem C58_given_found {a : GapArgs} {c : ℚ} (h : GapHyp a) (hC : a.C = some c) (hc : 0 < c) (hL : truthy a.L = false)
    (hinc : a.increase_K = true) (hlate : ∀ t, a.late t = false) (hans : GapAnswers a.opt) {K : ℕ} (hK : 1 ≤ K) (hN : 1 ≤ a.N)
    (hseeds : SeedsOk a.N (max (K + 1) (K + K / 10)) a.seeds) (ld : Bool) {sol' : List ℕ} (hp : Packed a.N a.d c sol')
    (hl : (blocks sol').length ≤ max (K + 1) (K + K / 10)) :
    ∃ sol log, Ends (fun fuel => gap_init fuel a (some K) ld true) (.ret (some sol) log) ∧
      Solves a.N a.D a.d a.C a.L sol ∧ Feasible a.D a.d a.C a.L sol := by
  have hm : gapMaxInc K = max (K + 1) (K + K / 10) := by unfold gapMaxInc; omega
  have hCt : truthy a.C = true := by rw [hC]; simp [truthy, hc.ne']
  obtain ⟨F, r, hF, hr⟩ := gap_init_ends hN (K := some K) (Or.inl hK) ld true
  have hinit : gap_init F a (some K) ld true = gapKLoop a (gapMaxInc K) F [K]
      ⟨none, none, none, 0, 0, if a.adapts then L_MPLR_INIT else L_MPLR_DEFAULT, 0, false, false, 0, []⟩ := by
    unfold gap_init
    rw [if_neg (by simp [hCt]), if_neg (by simp)]
    have hg : gapRange F a (some K) = .ok (some (K, K)) := by
      unfold gapRange
      rw [if_pos (show 0 < (some K).getD 0 from hK)]
      rfl
    rw [hg]
    dsimp only
    rw [show pyRange K (K + 1) = [K] by simp [pyRange]]
  have h0 := hF F le_rfl
  rw [hinit] at h0
  have hf := gapFeas_mono hc.le (hm ▸ hl) (packed_feas hp).1
  have hend : ∀ sol log, r = .ok (some (.ret (some sol) log)) → ∃ sol log, Ends (fun fuel => gap_init fuel a (some K) ld true)
      (.ret (some sol) log) ∧ Solves a.N a.D a.d a.C a.L sol ∧ Feasible a.D a.d a.C a.L sol := by
    intro sol log e
    refine ⟨sol, log, ⟨F, fun fuel hfu => by rw [← e]; exact hF fuel hfu⟩, ?_⟩
    have h1 := C58_answer_partial h (e ▸ hF F le_rfl : gap_init F a (some K) ld true = .ok (some (.ret (some sol) log)))
    exact h1.1 sol (h1.2.1 sol rfl).1
  rw [show gapKLoop a (gapMaxInc K) F [K] _ = _ by rw [gapKLoop]] at h0
  rcases gapSeedLoop_given (P := fun sol => ∃ k, GapP a k sol) h hC hc hL hinc hlate hans hK (m := gapMaxInc K)
      (by rw [hm]; omega) (hm ▸ hseeds) hf (fun s M c as sol f k hM hs hf => by
        obtain ⟨h1, h2, h3⟩ := gapTrial_good h hM hs hf
        exact ⟨⟨_, h1⟩, h2, h3⟩) F
      (s := { (⟨none, none, none, 0, 0, if a.adapts then L_MPLR_INIT else L_MPLR_DEFAULT, 0, false, false, 0, []⟩ : GapSt) with
        found := false, trial := 0 }) ⟨hN, Nat.zero_le _, Nat.zero_le _⟩ (by show K + 0 ≤ gapMaxInc K; rw [hm]; omega)
      ⟨by simp, fun _ => ⟨rfl, rfl, rfl⟩, fun sol e => by cases e⟩ with e | ⟨t, e, hs⟩
  · rw [e] at h0
    exact absurd h0.symm hr
  · rw [e] at h0
    obtain ⟨sol, hsol⟩ := Option.isSome_iff_exists.1 hs
    dsimp only at h0
    rw [hsol] at h0
    refine hend sol t.log ?_
    rw [← h0]
    split_ifs
    · rfl
    · rw [gapKLoop, hsol]

/-- **C58**, the number of routes: if the capacity is the only limit, the number of routes is to be minimized and not to be
increased within a trial, and the solver answers exactly, the search returns a solution with the fewest routes any solution can
have, and returns nothing only if there is no solution. -/
theorem C58_least_partial {a : GapArgs} {c : ℚ} (h : GapExact a c) (hmin : a.minimize_K = true) (hN : 1 ≤ a.N) (hd : a.d 0 = 0)
    (hpos : 0 < ((List.range a.N).map a.d).sum) (ld : Bool) :
    (∃ sol log, Ends (fun fuel => gap_init fuel a none ld true) (.ret (some sol) log) ∧
      Solves a.N a.D a.d a.C a.L sol ∧ Feasible a.D a.d a.C a.L sol ∧
      ∀ sol', Packed a.N a.d c sol' → (blocks sol).length ≤ (blocks sol').length) ∨
    (Ends (fun fuel => gap_init fuel a none ld true) (.ret none []) ∧ ∀ sol', ¬ Packed a.N a.d c sol') := by
  have hC : truthy a.C = true := by rw [h.cap]; simp [truthy, h.pos.ne']
  obtain ⟨F, r, hF, hr⟩ := gap_init_ends hN (K := none) (Or.inr (Or.inl hC)) ld true
  have hk1 : 1 ≤ gapLeastC a.N a.d c := gapLeastC_pos (div_pos hpos h.pos)
  have hinit : gap_init F a none ld true = gapKLoop a (gapMaxInc (gapLeastC a.N a.d c)) F
      (List.range' (gapLeastC a.N a.d c) (a.N - gapLeastC a.N a.d c))
        ⟨none, none, none, 0, 0, if a.adapts then L_MPLR_INIT else L_MPLR_DEFAULT, 0, false, false, 0, []⟩ := by
    unfold gap_init gapRange
    rw [if_neg (by simp [hC]), if_neg (by simp), if_neg (by simp), if_pos hC]
    dsimp only
    rw [h.cap]
    simp only [Option.getD_some, pyRange]
    rw [Nat.sub_add_cancel hN]
  have hlow : ∀ j < gapLeastC a.N a.d c, ¬ GapFeas a.N a.d c j := fun j hj hf =>
    absurd (gapLeastC_le h.pos hd hf) (by omega)
  have hloop := fun n (hn : gapLeastC a.N a.d c + n ≤ a.N) =>
    gapKLoop_exact h hmin (m := gapMaxInc (gapLeastC a.N a.d c)) (fuel := F) hN n (gapLeastC a.N a.d c)
      (s := ⟨none, none, none, 0, 0, if a.adapts then L_MPLR_INIT else L_MPLR_DEFAULT, 0, false, false, 0, []⟩)
      hn rfl (by simp) ⟨by simp, fun _ => ⟨rfl, rfl, rfl⟩, fun sol e => by cases e⟩ hlow hk1
  have hends : ∀ x, r = .ok (some x) → Ends (fun fuel => gap_init fuel a none ld true) x := by
    intro x e
    exact ⟨F, fun fuel hf => by rw [← e]; exact hF fuel hf⟩
  rw [hF F (le_refl _)] at hinit
  by_cases hle : gapLeastC a.N a.d c ≤ a.N
  · rcases hloop (a.N - gapLeastC a.N a.d c) (by omega) with e | ⟨h1, e⟩ | ⟨K0, sol, log, hK, h1, h2, e, h3⟩
    · rw [e] at hinit
      exact absurd hinit hr
    · rw [e] at hinit
      refine Or.inr ⟨hends _ hinit, fun sol' hp => ?_⟩
      obtain ⟨p1, p2⟩ := packed_feas hp
      exact h1 _ (by omega) p1
    · rw [e] at hinit
      obtain ⟨g1, g2, g3⟩ := gapP_solves h3
      refine Or.inl ⟨sol, log, hends _ hinit, g1, g2, fun sol' hp => ?_⟩
      obtain ⟨p1, p2⟩ := packed_feas hp
      by_contra hlt
      exact h2 _ (by omega) p1
  · have hz : a.N - gapLeastC a.N a.d c = 0 := by omega
    rw [hz] at hinit
    refine Or.inr ⟨hends _ hinit, fun sol' hp => ?_⟩
    obtain ⟨p1, p2⟩ := packed_feas hp
    have := gapLeastC_le h.pos hd p1
    omega

/-- **C58**, a solution: if the capacity is the only limit, the vehicles are not increased within a trial and the solver
answers exactly, the search returns a solution whenever there is one, also if the number of routes is not minimized. -/
theorem C58_found_partial {a : GapArgs} {c : ℚ} (h : GapExact a c) (hN : 1 ≤ a.N) (hd : a.d 0 = 0)
    (hpos : 0 < ((List.range a.N).map a.d).sum) (ld : Bool) {sol' : List ℕ} (hp : Packed a.N a.d c sol') :
    ∃ sol log, Ends (fun fuel => gap_init fuel a none ld true) (.ret (some sol) log) ∧
      Solves a.N a.D a.d a.C a.L sol ∧ Feasible a.D a.d a.C a.L sol := by
  have hC : truthy a.C = true := by rw [h.cap]; simp [truthy, h.pos.ne']
  obtain ⟨F, r, hF, hr⟩ := gap_init_ends hN (K := none) (Or.inr (Or.inl hC)) ld true
  have hk1 : 1 ≤ gapLeastC a.N a.d c := gapLeastC_pos (div_pos hpos h.pos)
  have hinit : gap_init F a none ld true = gapKLoop a (gapMaxInc (gapLeastC a.N a.d c)) F
      (List.range' (gapLeastC a.N a.d c) (a.N - gapLeastC a.N a.d c))
        ⟨none, none, none, 0, 0, if a.adapts then L_MPLR_INIT else L_MPLR_DEFAULT, 0, false, false, 0, []⟩ := by
    unfold gap_init gapRange
    rw [if_neg (by simp [hC]), if_neg (by simp), if_neg (by simp), if_pos hC]
    dsimp only
    rw [h.cap]
    simp only [Option.getD_some, pyRange]
    rw [Nat.sub_add_cancel hN]
  obtain ⟨p1, p2⟩ := packed_feas hp
  have hlow := gapLeastC_le h.pos hd p1
  have hlt : (blocks sol').length < a.N := by omega
  rw [hF F (le_refl _)] at hinit
  rcases gapKLoop_found h (m := gapMaxInc (gapLeastC a.N a.d c)) (fuel := F) hN (a.N - gapLeastC a.N a.d c)
      (gapLeastC a.N a.d c) (s := ⟨none, none, none, 0, 0, if a.adapts then L_MPLR_INIT else L_MPLR_DEFAULT, 0, false, false, 0, []⟩)
      (by omega) rfl (by simp) ⟨by simp, fun _ => ⟨rfl, rfl, rfl⟩, fun sol e => by cases e⟩
      (Or.inr fun j hj hf => absurd (gapLeastC_le h.pos hd hf) (by omega)) hk1 with e | ⟨b, log, e, hb⟩
  · rw [e] at hinit
    exact absurd hinit hr
  · rw [e] at hinit
    have hends : Ends (fun fuel => gap_init fuel a none ld true) (.ret b log) :=
      ⟨F, fun fuel hf => by rw [← hinit]; exact hF fuel hf⟩
    rcases hb with hb | hb
    · obtain ⟨sol, rfl⟩ := Option.isSome_iff_exists.1 hb
      obtain ⟨q1, q2, -⟩ := C58_answer_partial h.toGapHyp (hinit ▸ hF F (le_refl _))
      obtain ⟨g1, g2⟩ := q1 sol (q2 sol rfl).1
      exact ⟨sol, log, hends, g1, g2⟩
    · exact absurd p1 (hb _ (by omega))

/-! ## Cases -/

/-- Customers at -1, 1 and 2 on a line through the depot. -/
def gpAt (n : ℕ) : ℚ := if n = 1 then -1 else if n = 2 then 1 else if n = 3 then 2 else 0

@[inherit_doc gpAt] def gpLine (i j : ℕ) : ℚ := |gpAt i - gpAt j|

/-- Two customers at distance 1 of the depot and 19/10 of each other. -/
def gpTwo (i j : ℕ) : ℚ := if i = j then 0 else if i = 0 ∨ j = 0 then 1 else 19 / 10

/-- The first customers are the seed points; every customer asks for 1. -/
def gpArgs (N : ℕ) (D : ℕ → ℕ → ℚ) (C L : Option ℚ) (opt : GapSolver) : GapArgs :=
  { N := N, D := D, d := fun n => if n = 0 then 0 else 1, C := C, L := L, st := none, int_dists := false
    minimize_K := true, find_optimal_seeds := false, adaptive := true, increase_K := false
    seeds := fun K _ => .ok ((List.range K).map fun k => D (k + 1)), tsp := sweptOrder D
    opt := opt, rlx := gapBruteRelaxed, late := fun _ => false, debug := true }

theorem gpSeeds_ok (D : ℕ → ℕ → ℚ) (N most : ℕ) :
    SeedsOk N most (fun K _ => .ok ((List.range K).map fun k => D (k + 1))) :=
  fun K t _ _ _ => ⟨_, rfl, by simp⟩

theorem gpArgs_hyp (N : ℕ) (D : ℕ → ℕ → ℚ) (C L : Option ℚ) (b : Bool) : GapHyp (gpArgs N D C L (gapBrute b)) :=
  ⟨sweptOrder_ok D, gapBrute_right b⟩

/-- The hypotheses of `C58_least_partial` are met. -/
example : GapExact (gpArgs 4 gpLine (some 2) none (gapBrute false)) 2 where
  toGapHyp := gpArgs_hyp ..
  cap := rfl
  pos := by norm_num
  noL := rfl
  inc := rfl
  late := fun _ => rfl
  answers := gapBrute_answers false
  seeds := gpSeeds_ok gpLine 4 3

example : gap_init 100 (gpArgs 4 gpLine (some 2) none (gapBrute false)) none false true =
    .ok (some (.ret (some [0, 2, 0, 1, 3, 0]) [[0, 2, 0, 1, 3, 0]])) := by
  decide +kernel

/-- The hypotheses of `C58_found_partial` are met if the number of routes does not count. -/
example : GapExact { gpArgs 4 gpLine (some 2) none (gapBrute false) with minimize_K := false } 2 ∧
    Packed 4 (gpArgs 4 gpLine (some 2) none (gapBrute false)).d 2 [0, 1, 0, 2, 3, 0] :=
  ⟨{ toGapHyp := ⟨sweptOrder_ok gpLine, gapBrute_right false⟩, cap := rfl, pos := by norm_num, noL := rfl, inc := rfl
     late := fun _ => rfl, answers := gapBrute_answers false, seeds := gpSeeds_ok gpLine 4 3 },
   by unfold Packed Covers; decide +kernel⟩

/-- The hypotheses of `C58_no_error_increase` are met in a case that raises without the increase. -/
example : gap_init 100 { gpArgs 3 gpLine (some 10) (some 3) (gapBrute true) with adaptive := false, increase_K := true }
    none false true = .ok (some (.ret (some [0, 2, 0, 1, 0]) [[0, 2, 0, 1, 0]])) := by
  decide +kernel

example : gap_init 100 { gpArgs 3 gpLine (some 10) (some 3) (gapBrute true) with adaptive := false }
    none false true = .error .nameError := by
  decide +kernel

/-- The hypotheses of `C58_no_error_partial` are met with a limit on the route cost only. -/
example : GapQuiet (gpArgs 4 gpLine none (some 5) (gapBrute false)) ∧
    0 < ((gpArgs 4 gpLine none (some 5) (gapBrute false)).tsp (pyRange 1 4)).2 :=
  ⟨Or.inr (Or.inl (by decide)), by decide +kernel⟩

example : gap_init 100 (gpArgs 4 gpLine none (some 5) (gapBrute false)) none false true =
    .ok (some (.ret (some [0, 1, 0, 2, 3, 0]) [[0, 1, 0, 2, 3, 0]])) := by
  decide +kernel

/-- **C58 does not hold** for the routes if the route cost is limited: the bound with which the search begins is too high
(it counts the way over all the customers and back, and the ways from the depot besides). One route
is within the limit, two are returned, though the number of routes is to be minimized and the solver is exact. -/
theorem C58_least_false :
    GapHyp (gpArgs 3 gpLine none (some 4) (gapBrute true)) ∧ GapAnswers (gapBrute true) ∧
    Solves 3 gpLine (fun n => if n = 0 then 0 else 1) none (some 4) [0, 1, 2, 0] ∧
    Feasible gpLine (fun n => if n = 0 then 0 else 1) none (some 4) [0, 1, 2, 0] ∧
    gap_init 100 (gpArgs 3 gpLine none (some 4) (gapBrute true)) none false true =
      .ok (some (.ret (some [0, 2, 0, 1, 0]) [[0, 2, 0, 1, 0]])) := by
  have hp : Solves 3 gpLine (fun n => if n = 0 then 0 else 1) none (some 4) (tour [[1, 2]]) ∧
      Feasible gpLine (fun n => if n = 0 then 0 else 1) none (some 4) (tour [[1, 2]]) ∧ _ :=
    solves_tour (by decide) (by decide) (fun u hu => by
      rw [List.mem_singleton.1 hu, RouteOk, ← exceeds_iff, ← exceeds_iff]
      decide +kernel)
  exact ⟨gpArgs_hyp .., gapBrute_answers true, hp.1, hp.2.1, by decide +kernel⟩

/-- **C58 does not hold** for the answer if the route cost is limited: no solution is returned
though each customer alone is within the limits, there are enough vehicles, the distances are a metric, the solver and the
tours are exact and all the trials are made. -/
theorem C58_found_false :
    GapHyp (gpArgs 3 gpTwo (some 10) (some 3) (gapBrute false)) ∧ GapAnswers (gapBrute false) ∧
    Serviceable 3 gpTwo (fun n => if n = 0 then 0 else 1) (some 10) (some 3) ∧
    gap_init 100 { gpArgs 3 gpTwo (some 10) (some 3) (gapBrute false) with find_optimal_seeds := true, increase_K := true }
      none false true = .ok (some (.ret none [])) := by
  refine ⟨gpArgs_hyp .., gapBrute_answers false, ?_, by decide +kernel⟩
  have key : ∀ n ∈ List.range 3, exceeds (some 10) C_EPS (demand (fun n => if n = 0 then 0 else 1) [n]) = false ∧
      exceeds (some 3) S_EPS (cost gpTwo (wrap [n])) = false := by decide +kernel
  intro n h1 h2
  rw [RouteOk, ← exceeds_iff, ← exceeds_iff]
  exact key n (List.mem_range.2 h2)

/-- **C58 does not hold** for a given number of vehicles: two are asked for, one route is returned. -/
theorem C58_given_false :
    GapHyp (gpArgs 3 gpLine (some 10) none (gapBrute false)) ∧
    gap_init 100 (gpArgs 3 gpLine (some 10) none (gapBrute false)) (some 2) false true =
      .ok (some (.ret (some [0, 1, 2, 0]) [[0, 1, 2, 0]])) :=
  ⟨gpArgs_hyp .., by decide +kernel⟩

/-- The hypotheses of `C58_given_found` are met. -/
example : ∃ sol log, Ends (fun fuel => gap_init fuel { gpArgs 3 gpLine (some 1) none (gapBrute false) with increase_K := true } (some 1)
      false true) (.ret (some sol) log) ∧
    Solves 3 gpLine (fun n => if n = 0 then 0 else 1) (some 1) none sol ∧
    Feasible gpLine (fun n => if n = 0 then 0 else 1) (some 1) none sol :=
  C58_given_found (a := { gpArgs 3 gpLine (some 1) none (gapBrute false) with increase_K := true }) (c := 1) (K := 1)
    ⟨sweptOrder_ok _, gapBrute_right false⟩ rfl (by norm_num) rfl rfl (fun _ => rfl) (gapBrute_answers false) (by decide) (by decide)
    (gpSeeds_ok gpLine 3 2) false (sol' := [0, 1, 0, 2, 0])
    ⟨show (customers [0, 1, 0, 2, 0]).Perm (List.range' 1 2) by decide, show ∀ b ∈ blocks [0, 1, 0, 2, 0],
      demand (fun n => if n = 0 then 0 else 1) b ≤ 1 by decide +kernel⟩ (by decide +kernel)

/-- The vehicles are increased: one vehicle is given, two are needed. -/
example : gap_init 100 { gpArgs 3 gpLine (some 1) none (gapBrute false) with increase_K := true } (some 1) false true =
    .ok (some (.ret (some [0, 2, 0, 1, 0]) [[0, 2, 0, 1, 0]])) := by decide +kernel

/-- **C58 does not hold** without adaptive weights: a trial with a route that is too long raises an exception, since the
message about it names a variable that is not bound. -/
theorem C58_no_error_false :
    Serviceable 3 gpLine (fun n => if n = 0 then 0 else 1) (some 10) (some 3) ∧
    GapHyp (gpArgs 3 gpLine (some 10) (some 3) (gapBrute false)) ∧
    gap_init 100 { gpArgs 3 gpLine (some 10) (some 3) (gapBrute false) with adaptive := false } none false true =
      .error .nameError := by
  refine ⟨?_, gpArgs_hyp .., by decide +kernel⟩
  have key : ∀ n ∈ List.range 3, exceeds (some 10) C_EPS (demand (fun n => if n = 0 then 0 else 1) [n]) = false ∧
      exceeds (some 3) S_EPS (cost gpLine (wrap [n])) = false := by decide +kernel
  intro n h1 h2
  rw [RouteOk, ← exceeds_iff, ← exceeds_iff]
  exact key n (List.mem_range.2 h2)

/-- The solver runs out of time after the first call. -/
def gpSlow : GapSolver := fun t M => if t = 0 then gapBrute false t M else .timeLimit

theorem gpSlow_right : GapRight gpSlow gapBruteRelaxed := by
  have h := gapBrute_right false
  refine ⟨fun t M Y e => ?_, fun t M e => ?_, h.relaxed⟩
  · unfold gpSlow at e
    split_ifs at e
    exact h.optimal t M Y e
  · unfold gpSlow at e
    split_ifs at e
    exact h.infeasible t M e

/-- **C58 does not hold** for the best solution found after a `GurobiError`: a solution is found with one vehicle,
the solver runs out of time with two, and nothing is returned. -/
theorem C58_answer_false :
    GapHyp (gpArgs 3 gpLine (some 10) none gpSlow) ∧
    gap_init 100 { gpArgs 3 gpLine (some 10) none gpSlow with minimize_K := false } none false true =
      .ok (some (.gurobiError [[0, 1, 2, 0]])) :=
  ⟨⟨sweptOrder_ok _, gpSlow_right⟩, by decide +kernel⟩

/-- The last seed point does not matter. -/
example : gap_init 100 (gpArgs 3 gpLine (some 1) none (gapBrute false)) none false true =
    gap_init 100 { gpArgs 3 gpLine (some 1) none (gapBrute false) with
      seeds := fun K _ => .ok (((List.range K).map fun k => gpLine (k + 1)).take (K - 1) ++ [fun _ => 1000]) } none false true := by
  refine C58_last_seed (fun K t => ?_) _ _ _ _
  show Except.ok _ = Except.ok _
  congr 1
  show List.take (K - 1) _ = List.take (K - 1) (_ ++ _)
  rw [List.take_append]
  simp

end Verif
