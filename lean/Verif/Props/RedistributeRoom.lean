import Verif.Props.InterRoute

/-! # C20: a redistribution there is no room for -/

namespace Verif
open Spec

theorem slackSum_demand {D : ℕ → ℕ → ℚ} {d : ℕ → ℚ} {c : ℚ} (hc : c ≠ 0) (routes : List RouteData)
    (h : ∀ rd ∈ routes, Book D (some d) (some c) rd) :
    slackSum c routes = .ok (routes.map fun rd => c - demand d rd.route).sum := by
  induction routes with
  | nil => rfl
  | cons rd t ih =>
    obtain ⟨f, e, hf⟩ := (h rd (by simp)).2 ⟨c, rfl, hc⟩
    obtain rfl := Option.some.inj e
    have := ih fun r hr => h r (by simp [hr])
    simp [slackSum, hf, this, num, bind, Except.bind, pure, Except.pure]

/-- C20. If the customers of a route ask for more than the free capacity of all the receiving routes together the redistribution is
refused, whatever the order, the strategy and the bound (also with a level that is not there, see `C20_level_error`). -/
theorem C20_room {D : ℕ → ℕ → ℚ} {d : ℕ → ℚ} {c : ℚ} (hc : c ≠ 0) {L : Option ℚ} (st : LSOPT) (bd : Option ℚ) (level : ℕ)
    {rd1 : RouteData} {routes : List RouteData} (h1 : Book D (some d) (some c) rd1)
    (h : ∀ rd ∈ routes, Book D (some d) (some c) rd)
    (hr : (routes.map fun rd => c - demand d rd.route).sum + C_EPS < demand d rd1.route) :
    do_redistribute_move rd1 routes D (some d) (some c) L st bd level = .ok none := by
  obtain ⟨f, e, hf⟩ := h1.2 ⟨c, rfl, hc⟩
  obtain rfl := Option.some.inj e
  have : noRoom rd1 routes (some c) = .ok true := by
    simp only [noRoom, if_neg hc, slackSum_demand hc routes h, hf, num, bind, Except.bind, pure, Except.pure]
    rw [decide_eq_true (by linarith)]
  simp [do_redistribute_move, this, bind, Except.bind, pure, Except.pure]

/-- Two customers for one free place. -/
example : Book exD (some exd) (some 3) (.of_route exD (some exd) [0, 1, 3, 0]) ∧
    (∀ rd ∈ [RouteData.of_route exD (some exd) [0, 2, 4, 0]], Book exD (some exd) (some 3) rd) ∧
    (([RouteData.of_route exD (some exd) [0, 2, 4, 0]]).map fun rd => 3 - demand exd rd.route).sum + C_EPS <
      demand exd (RouteData.of_route exD (some exd) [0, 1, 3, 0]).route := by
  refine ⟨⟨by decide +kernel, fun _ => ⟨_, rfl, by decide +kernel⟩⟩, fun rd hrd => ?_, by decide +kernel⟩
  obtain rfl := List.mem_singleton.1 hrd
  exact ⟨by decide +kernel, fun _ => ⟨_, rfl, by decide +kernel⟩⟩

end Verif
