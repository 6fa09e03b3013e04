import Verif.Lemmas.WrenHolliday

/-! # Properties of the complain procedure (C40) -/

namespace Verif
open Spec

/-- C40: for all routes with true records and all sets of other customers, in any order, the procedure
raises nothing, keeps the number of routes, and leaves routes from depot to depot with true records.
The customers on the routes and the unrouted ones together are the same before and after, no more are
unrouted than before, and with no negative demands the demand served does not fall. If all routes
respected the limits, they still do. -/
theorem C40_conserves (D : ℕ → ℕ → ℚ) (d : Option (ℕ → ℚ)) (C L : Option ℚ) (rds : List RouteData) (U : List ℕ)
    (h : ∀ rd ∈ rds, GoodRd D d C rd) (hnd : (served rds ++ U).Nodup) :
    ∃ rds' U' imp, complain_heuristic rds U D C d L = .ok (rds', U', imp) ∧
      rds'.length = rds.length ∧ (∀ rd ∈ rds', GoodRd D d C rd) ∧
      (served rds' ++ U').Perm (served rds ++ U) ∧ U'.length ≤ U.length ∧
      (∀ f, d = some f → (∀ n, 0 ≤ f n) → demand f (served rds) ≤ demand f (served rds')) ∧
      ((∀ rd ∈ rds, Fits D d C L rd.route) → ∀ rd ∈ rds', Fits D d C L rd.route) := by
  obtain ⟨s, e, h1, h2, h3, h4, h5, -⟩ := complainLoop_spec (L := L) U [] (by simpa using hnd) (complainInv_init h)
  rw [List.nil_append] at h2 h3
  unfold complain_heuristic
  rw [e]
  have hnd3 := h3.nodup_iff.2 hnd
  have hdis := (List.nodup_append.1 (List.nodup_append.1 hnd3).2.1).2.2
  have hf : s.omitted.filter (fun n => ! decide (n ∈ U.filter fun n => ! decide (n ∈ s.assigned))) = s.omitted := by
    apply List.filter_eq_self.2
    intro x hx
    have : x ∉ U.filter fun n => ! decide (n ∈ s.assigned) := fun hm => hdis x hm x hx rfl
    simp only [this, decide_false, Bool.not_false]
  simp only
  rw [hf]
  refine ⟨_, _, _, rfl, h1.1, h1.2.1, h3, ?_, h5, h1.2.2⟩
  have := h3.length_eq
  simp only [List.length_append] at this ⊢
  omega

/-- C40: if the procedure reports no improvement, nothing changed and for every unrouted customer there
was nothing to do: none of the customers it could replace on a route fits anywhere on another route,
and, with a capacity, a cheapest replacement has a customer with no smaller demand (or there is none). -/
theorem C40_no_improvement (D : ℕ → ℕ → ℚ) (d : Option (ℕ → ℚ)) (C L : Option ℚ) (rds : List RouteData) (U : List ℕ)
    (h : ∀ rd ∈ rds, GoodRd D d C rd) (hnd : (served rds ++ U).Nodup) {rds' : List RouteData} {U' : List ℕ}
    (hr : complain_heuristic rds U D C d L = .ok (rds', U', false)) :
    rds' = rds ∧ U' = U ∧ ∀ n ∈ U, CannotPlace D d C L (rds.map (·.route)) n ∧
      (InUse C → NotWorth D d C L (rds.map (·.route)) n) := by
  obtain ⟨s, e, h1, h2, h3, h4, -, h5⟩ := complainLoop_spec (L := L) U [] (by simpa using hnd) (complainInv_init h)
  rw [List.nil_append] at h5
  unfold complain_heuristic at hr
  rw [e] at hr
  simp only [Except.ok.injEq, Prod.mk.injEq] at hr
  obtain ⟨r1, r2, r3⟩ := hr
  obtain ⟨g1, g2, g3, g4⟩ := h5 r3
  refine ⟨r1.symm.trans g1, ?_, g4⟩
  rw [← r2, g2, g3]
  simp

/-- C40: a single unrouted customer that can be placed, because one of the customers it could replace
fits to another route, is placed, and none is left unrouted. -/
theorem C40_single (D : ℕ → ℕ → ℚ) (d : Option (ℕ → ℚ)) (C L : Option ℚ) (rds : List RouteData) (n : ℕ)
    (h : ∀ rd ∈ rds, GoodRd D d C rd) (hp : ¬ CannotPlace D d C L (rds.map (·.route)) n) :
    ∃ rds', complain_heuristic rds [n] D C d L = .ok (rds', [], true) ∧
      (served rds').Perm (n :: served rds) := by
  obtain ⟨s, e1, e2⟩ := complainNode_spec (L := L) n ⟨rds, [], [], false⟩ h
  have e : complainLoop D d C L [n] ⟨rds, [], [], false⟩ = .ok s := by
    rw [complainLoop, e1]; rfl
  unfold complain_heuristic
  rw [e]
  simp only
  rcases e2 with ⟨-, c1, -⟩ | ⟨-, c2, c3, c4⟩
  · exact absurd c1 hp
  · rcases c4 with ⟨g0, g⟩ | ⟨m, -, c, -⟩
    · simp only [setAdd, List.not_mem_nil, if_false, List.nil_append] at c2
      simp only at g0
      exact ⟨s.routes, by simp [c2, c3, g0], g⟩
    · exact absurd c hp

/-! ## Cases that meet the hypotheses -/

/-- Distances on a line. -/
def lineD (i j : ℕ) : ℚ := if i ≤ j then j - i else i - j

/-- Two routes with the capacity 4 and the unrouted customer 5 with the demand 2: it replaces the
customer 1, that goes to the other route. -/
def complainEx : List RouteData := [⟨[0, 1, 2, 0], 4, some 3⟩, ⟨[0, 3, 4, 0], 8, some 3⟩]

def complainExD (n : ℕ) : ℚ := if n = 0 then 0 else if n = 2 ∨ n = 3 ∨ n = 5 then 2 else 1

example : (∀ rd ∈ complainEx, GoodRd lineD (some complainExD) (some 4) rd) ∧
    (served complainEx ++ [5]).Nodup ∧
    complain_heuristic complainEx [5] lineD (some 4) (some complainExD) none =
      .ok ([⟨[0, 5, 2, 0], 10, some 4⟩, ⟨[0, 3, 4, 1, 0], 8, some 4⟩], [], true) := by
  refine ⟨?_, by decide, by decide +kernel⟩
  intro rd hr
  simp only [complainEx, List.mem_cons, List.not_mem_nil, or_false] at hr
  rcases hr with rfl | rfl
  · exact ⟨⟨[1, 2], rfl⟩, by decide +kernel, fun _ => ⟨_, rfl, by decide +kernel⟩⟩
  · exact ⟨⟨[3, 4], rfl⟩, by decide +kernel, fun _ => ⟨_, rfl, by decide +kernel⟩⟩

/-- It can be placed. -/
example : ¬ CannotPlace lineD (some complainExD) (some 4) none (complainEx.map (·.route)) 5 := by
  intro h
  refine h 0 [0] 1 [2, 0] ⟨rfl, by simp, by simp, ?_, ?_⟩ 1 _ (by simp) rfl [0] [3, 4, 0] (by simp) (by simp) rfl
    ⟨?_, ?_⟩
  · rintro f ⟨⟩ c ⟨⟩ -; decide +kernel
  · rintro c ⟨⟩
  · rintro f ⟨⟩ c ⟨⟩ -; decide +kernel
  · rintro c ⟨⟩

/-- Full routes: nothing can be placed, the customer with the greater demand is served instead. -/
example : complain_heuristic [⟨[0, 6, 0], 12, some 1⟩, ⟨[0, 2, 0], 4, some 2⟩] [3] lineD (some 2)
    (some complainExD) none = .ok ([⟨[0, 3, 0], 6, some 2⟩, ⟨[0, 2, 0], 4, some 2⟩], [6], true) := by
  decide +kernel

/-- Full routes and nothing to gain. -/
example : complain_heuristic [⟨[0, 3, 0], 6, some 2⟩, ⟨[0, 2, 0], 4, some 2⟩] [1] lineD (some 2)
    (some complainExD) none = .ok ([⟨[0, 3, 0], 6, some 2⟩, ⟨[0, 2, 0], 4, some 2⟩], [1], false) := by
  decide +kernel

/-- Without a capacity the demand recorded for the route with the replacement is 0, whatever its demand
is: the records are true about demands only if there is a capacity. -/
theorem C40_demand_lost : ∃ rds' U', complain_heuristic complainEx [5] lineD none (some complainExD) none =
      .ok (rds', U', true) ∧ ∃ rd ∈ rds', rd.demand = some 0 ∧ demand complainExD rd.route = 4 :=
  ⟨[⟨[0, 5, 2, 0], 10, some 0⟩, ⟨[0, 3, 4, 1, 0], 8, some 3⟩], [], by decide +kernel,
    ⟨[0, 5, 2, 0], 10, some 0⟩, by simp, rfl, by decide +kernel⟩

end Verif
