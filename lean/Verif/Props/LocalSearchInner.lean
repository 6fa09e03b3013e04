import Verif.Props.LocalSearch

/-! # C23, C24: the local search with operators that change single routes -/

namespace Verif

open Verif.Spec

/-- The operators that change single routes. -/
def innerOps (D : ℕ → ℕ → ℚ) : List LsOp := [op2opt D, op3opt D, opRelocate D, opExchange D]

/-- **C24**, operators that change single routes: no customer comes to another route and no route is lost, in
addition to the same customers, no higher cost, no lost feasibility and the local optimality of each route. -/
theorem C24_inner {D : ℕ → ℕ → ℚ} (hD : Symm D) (h00 : D 0 0 = 0) {d : ℕ → ℚ} (hd0 : d 0 = 0) (C L : Option ℚ)
    {ops : List LsOp} (hops : ∀ op ∈ ops, op ∈ innerOps D) (st : LSOPT) (iter : ITEROPT)
    {sol : List ℕ} (hsol : DepotEnds sol) (hn : (customers sol).Nodup) :
    ∃ F, ∀ fuel, F ≤ fuel → ∃ sol',
      do_local_search fuel ops sol D (some d) st iter none = .ok (some sol') ∧
      SafeFor D d C L sol sol' ∧ OptRoutes D ops sol' ∧ squeeze sol' = sol' ∧
      (blocks sol').length = (blocks sol).length ∧ ∀ b' ∈ blocks sol', ∃ b ∈ blocks sol, b'.Perm b := by
  let B : RouteData → Prop := fun rd => ∃ b ∈ blocks sol, rd.route.Perm (wrap b)
  have hB : ∀ rd r' delta, B rd → r'.Perm rd.route → cost D r' = cost D rd.route + delta →
      B ⟨r', rd.cost + delta, rd.demand⟩ := by
    rintro rd r' delta ⟨b, h1, h2⟩ hp -
    exact ⟨b, h1, hp.trans h2⟩
  obtain ⟨m, hm⟩ := sound_bdd D (some d) C L B ((blocks sol).map wrap)
  have hn' : (customers ((blocks sol).map wrap).flatten).Nodup := by
    rw [customers_blocks]; exact hn
  have h0 : Sound D (some d) C L B ((blocks sol).map wrap) (from_solution sol D (some d)) := by
    have hs := sound_init (D := D) (d := d) (C := C) (L := L) (B := fun _ => True) hsol fun _ => trivial
    obtain ⟨s1, s2, s3, s4⟩ := hs
    refine ⟨s1, s2, fun rd hrd => ⟨(s3 rd hrd).1, ?_⟩, s4⟩
    simp only [from_solution, from_routes, List.mem_map] at hrd
    obtain ⟨r, hr, rfl⟩ := hrd
    rw [sol2routes_depotEnds sol hsol, List.mem_map] at hr
    obtain ⟨b, hb, rfl⟩ := hr
    exact ⟨b, hb, List.Perm.refl _⟩
  obtain ⟨F, h⟩ := C23_generic hm (distinct_sub (distinct_of_nodup (by simp [innerOps, op2opt, op3opt,
    opRelocate, opExchange])) hops) (st := st) (fun op ho => by
      have := hops op ho
      simp only [innerOps, List.mem_cons, List.not_mem_nil, or_false] at this
      rcases this with rfl | rfl | rfl | rfl
      · exact op2opt_ok hD st hB
      · exact op3opt_ok hD st hB
      · exact opRelocate_ok st hB
      · exact opExchange_ok hn' st hB) iter none hsol h0
  refine ⟨F, fun fuel hf => ?_⟩
  obtain ⟨rds, h1, h2, h3, hopt⟩ := h fuel hf
  obtain ⟨bs, k1, k2, k3, k4, k5⟩ := sound_solution h00 hd0 hsol h2 h3
  obtain ⟨s1, s2, s3, s4⟩ := h2
  have hbs : ∀ b' ∈ bs, ∃ b ∈ blocks sol, b'.Perm b := by
    intro b' hb'
    have hm : wrap b' ∈ rds.map (·.route) := by rw [k1]; exact List.mem_map.2 ⟨b', hb', rfl⟩
    obtain ⟨rd, hrd, e⟩ := List.mem_map.1 hm
    obtain ⟨b, hb, hp⟩ := (s3 rd hrd).2
    rw [e] at hp
    refine ⟨b, hb, ?_⟩
    simpa only [wrap, List.perm_cons, List.perm_append_right_iff] using hp
  have hne : ∀ b' ∈ bs, b' ≠ [] := by
    intro b' hb' e
    obtain ⟨b, hb, hp⟩ := hbs b' hb'
    rw [e] at hp
    exact (mem_blocks sol b hb).1 hp.nil_eq.symm
  have hfil : bs.filter (· ≠ []) = bs := List.filter_eq_self.2 fun b hb => by simpa using hne b hb
  have hlen : bs.length = (blocks sol).length := by
    have := congrArg List.length k1
    simp only [List.length_map] at this
    simp only [List.length_map] at s2
    omega
  refine ⟨_, h1, k4, optRoutes hD (by rw [customers_blocks]; exact hn) ⟨s1, s2, s3, s4⟩ (hopt (Or.inl rfl)) k1 k5, ?_, ?_, ?_⟩
  · rw [squeeze_depotEnds k4.1, k5, hfil, k3]
  · rw [k5, hfil, hlen]
  · rw [k5, hfil]; exact hbs

/-- A case in which the routes are changed. -/
example : do_local_search 20 [op3opt exM] [0, 1, 2, 3, 0, 4, 0] exM (some exOne) .BEST_ACCEPT .ALL_ACCEPT none
    = .ok (some [0, 1, 3, 2, 0, 4, 0]) := by decide +kernel

end Verif
