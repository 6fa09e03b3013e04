import Verif.Lemmas.SweepCallback
import Verif.Props.GillettMiller
import Verif.Props.Sweep
import Verif.Spec.GroupMoves

/-!
# The heuristic of Gillett and Miller (C52)
-/

namespace Verif

open Spec

namespace Spec

/-- Each tour the routine returns is a shortest one. -/
def ShortestTours (D : ℕ → ℕ → ℚ) (tsp : List ℕ → List ℕ × ℚ) : Prop :=
  ∀ t u : List ℕ, t ≠ [] → (0 :: t).Nodup → u.Perm t → (tsp (0 :: t)).2 ≤ cost D (wrap u)

/-- The routine does not ask more for a part of the customers, taken in the same order. -/
def CheaperForPart (tsp : List ℕ → List ℕ × ℚ) : Prop :=
  ∀ p t : List ℕ, p.Sublist t → p ≠ [] → (0 :: t).Nodup → (tsp (0 :: p)).2 ≤ (tsp (0 :: t)).2

end Spec

/-- Leaving out stops does not make a path longer. -/
theorem cost_part {D : ℕ → ℕ → ℚ} (htri : Triangle D) {p t : List ℕ} (h : p.Sublist t) :
    ∀ a b, cost D (a :: p ++ [b]) ≤ cost D (a :: t ++ [b]) := by
  induction h with
  | slnil => intro a b; exact le_refl _
  | cons x h ih =>
    intro a b
    rename_i p t
    refine le_trans ?_ (add_le_add_right (ih x b) (D a x))
    cases p with
    | nil => simpa [cost] using htri a x b
    | cons y p =>
      simp only [List.cons_append, cost]
      have := htri a x y
      linarith
  | cons_cons x h ih =>
    intro a b
    exact add_le_add_right (ih x b) (D a x)

/-- With the triangle inequality, shortest tours are such a routine. -/
theorem shortest_part {D : ℕ → ℕ → ℚ} {tsp : Router} (htri : Triangle D)
    (htsp : TspRoutine D tsp) (hs : ShortestTours D tsp) : CheaperForPart tsp := by
  intro p t hp hne hnd
  have hpt : p ≠ [] → t ≠ [] := by
    rintro h rfl
    exact h (List.sublist_nil.1 hp)
  obtain ⟨u, hu, e⟩ := htsp t (hpt hne) hnd
  have hndt : t.Nodup := (List.nodup_cons.1 hnd).2
  have hperm : (u.filter fun n => decide (n ∈ p)).Perm p := by
    rw [List.perm_ext_iff_of_nodup ((hu.nodup_iff.2 hndt).filter _) (hp.nodup hndt)]
    intro a
    rw [List.mem_filter, decide_eq_true_eq, hu.mem_iff]
    exact ⟨fun h => h.2, fun h => ⟨hp.subset h, h⟩⟩
  have h1 := hs p _ hne (List.nodup_cons.2 ⟨fun h => (List.nodup_cons.1 hnd).1 (hp.subset h), hp.nodup hndt⟩) hperm
  rw [e]
  exact h1.trans (cost_part htri List.filter_sublist 0 0)

/-- And so is the order of the sweep. -/
theorem sweptOrder_part {D : ℕ → ℕ → ℚ} (htri : Triangle D) :
    CheaperForPart (sweptOrder D) := by
  intro p t hp _ _
  have : ∀ l, (sweptOrder D (0 :: l)).2 = cost D (wrap l) := by
    intro l
    unfold sweptOrder
    rw [objf_eq_cost]
    rfl
  rw [this, this]
  exact cost_part htri hp 0 0

theorem nnList_perm (N : ℕ) (D : ℕ → ℕ → ℚ) (i : ℕ) : (nnList N D i).Perm (List.range N) :=
  List.perm_insertionSort _ _

theorem no_two_orders {a b : ℕ} : ∀ {l : List ℕ}, l.Nodup → [a, b].Sublist l → ¬ [b, a].Sublist l
  | [], _, h, _ => by simpa using h
  | x :: l, hnd, h1, h2 => by
    rw [List.nodup_cons] at hnd
    cases h1 with
    | cons _ h1 =>
      cases h2 with
      | cons _ h2 => exact no_two_orders hnd.2 h1 h2
      | cons_cons _ h2 => exact hnd.1 (h1.subset (by simp))
    | cons_cons _ h1 =>
      cases h2 with
      | cons _ h2 => exact hnd.1 (h2.subset (by simp))
      | cons_cons _ h2 => exact hnd.1 (h1.subset (by simp))

/-- C52. The neighbours of a node are all the nodes in the order of the distance, nodes at the same distance
in the order of their numbers. -/
theorem C52_neighbours (N : ℕ) (D : ℕ → ℕ → ℚ) (i : ℕ) :
    (nnList N D i).Perm (List.range N) ∧
      (nnList N D i).Pairwise fun a b => D i a < D i b ∨ (D i a = D i b ∧ a < b) := by
  have : Std.Total fun a b => D i a ≤ D i b := ⟨fun a b => le_total (D i a) (D i b)⟩
  have : IsTrans ℕ fun a b => D i a ≤ D i b := ⟨fun a b c h1 h2 => le_trans h1 h2⟩
  have h1 : (nnList N D i).Pairwise fun a b => D i a ≤ D i b := List.pairwise_insertionSort _ _
  have hnd : (nnList N D i).Nodup := (nnList_perm N D i).nodup_iff.2 List.nodup_range
  refine ⟨nnList_perm N D i, List.pairwise_iff_forall_sublist.2 fun {a b} h => ?_⟩
  rcases lt_or_eq_of_le (List.pairwise_iff_forall_sublist.1 h1 h) with hlt | heq
  · exact Or.inl hlt
  · refine Or.inr ⟨heq, ?_⟩
    by_contra hab
    have hne : a ≠ b := by
      have := h.nodup hnd
      simpa using this
    have hba : [b, a].Sublist (List.range N) := by
      have hmem : ∀ x ∈ [a, b], x < N := fun x hx => by
        have := (nnList_perm N D i).mem_iff.1 (h.subset hx)
        rwa [List.mem_range] at this
      have ha := hmem a (by simp)
      have e : List.range N = List.range a ++ List.range' a (N - a) := by
        have := List.range'_append_1 (s := 0) (m := a) (n := N - a)
        rw [Nat.zero_add, Nat.add_sub_cancel' ha.le] at this
        rw [List.range_eq_range', List.range_eq_range', this]
      rw [e]
      exact List.Sublist.append (l₁ := [b]) (r₁ := [a]) (List.singleton_sublist.2 (List.mem_range.2 (by omega)))
        (List.singleton_sublist.2 (List.mem_range'_1.2 (by omega)))
    exact no_two_orders hnd h (List.pair_sublist_insertionSort (r := fun a b => D i a ≤ D i b) (le_of_eq heq.symm) hba)

/-- The callback of `gillet_miller_init` in a sweep. -/
def gmCallback (N : ℕ) (D : ℕ → ℕ → ℚ) (d : ℕ → ℚ) (C L : Option ℚ) (tsp : TspSolver) (nodes : List ℕ)
    (key : Bool → ℕ → ℕ → ℚ) (fwd : Bool) (start : ℕ) : SwCallback :=
  gm_improvement tsp { N := N, D := D, NN_D := nnList N D, d := d, C := C, L := L, nodes := nodes,
                       key := key fwd start } fwd

theorem sweep_nodes {N : ℕ} {nodes : List ℕ} (hperm : nodes.Perm (List.range' 1 (N - 1))) :
    0 ∉ nodes ∧ nodes.Nodup := by
  refine ⟨fun h => ?_, hperm.nodup_iff.2 ((List.pairwise_lt_range' 1).imp fun h => ne_of_lt h)⟩
  have := hperm.mem_iff.1 h
  rw [List.mem_range'_1] at this
  omega

theorem sweep_serviceable {N : ℕ} {D : ℕ → ℕ → ℚ} {d : ℕ → ℚ} {C L : Option ℚ} {nodes : List ℕ}
    (hperm : nodes.Perm (List.range' 1 (N - 1))) (hser : Serviceable N D d C L) :
    ∀ n ∈ nodes, RouteOk D d C L [n] := by
  intro n hn
  have := hperm.mem_iff.1 hn
  rw [List.mem_range'_1] at this
  exact hser n (by omega) (by omega)

theorem gmCallback_ok {N : ℕ} {D : ℕ → ℕ → ℚ} {d : ℕ → ℚ} {C L : Option ℚ} {tsp : TspSolver} {nodes : List ℕ}
    (key : Bool → ℕ → ℕ → ℚ) (hperm : nodes.Perm (List.range' 1 (N - 1))) (hN : 1 ≤ N)
    (htsp : TspRoutine D (tsp D)) (fwd : Bool) (start : ℕ) :
    SwCbOk D d C L nodes (tsp D) (gmCallback N D d C L tsp nodes key fwd start) :=
  gm_swCbOk tsp { N := N, D := D, NN_D := nnList N D, d := d, C := C, L := L, nodes := nodes, key := key fwd start }
    fwd hperm hN (nnList_perm N D) htsp

/-- The solution of a sweep with the improvement of the routes, in the direction from the start. -/
def GmGives (N : ℕ) (D : ℕ → ℕ → ℚ) (d : ℕ → ℚ) (C L : Option ℚ) (tsp : TspSolver) (nodes : List ℕ)
    (key : Bool → ℕ → ℕ → ℚ) (fwd : Bool) (start : ℕ) (s : List ℕ) : Prop :=
  ∃ routes, (∃ F, ∀ fuel, F ≤ fuel → do_one_sweep_cb fuel D d C L (tsp D) nodes
      (gmCallback N D d C L tsp nodes key fwd start) start fwd = .ok (some routes)) ∧
    s = without_empty_routes (routes.flatMap (fun rd => rd.route.dropLast) ++ [0])

/-- C52. A sweep with the improvement of the routes, with any routine for the tours, raises nothing, and
whenever it ends, its routes serve every customer exactly once, none is empty, each has its true cost and
respects both limits. -/
theorem C52_sweep {N : ℕ} {D : ℕ → ℕ → ℚ} {d : ℕ → ℚ} {C L : Option ℚ} {tsp : TspSolver} {nodes : List ℕ}
    (key : Bool → ℕ → ℕ → ℚ) {start : ℕ} (fwd : Bool) (hperm : nodes.Perm (List.range' 1 (N - 1)))
    (hd : ∀ n, 0 ≤ d n) (htsp : TspRoutine D (tsp D)) (hser : Serviceable N D d C L) (hs : start < N - 1)
    (fuel : ℕ) :
    let run fuel := do_one_sweep_cb fuel D d C L (tsp D) nodes (gmCallback N D d C L tsp nodes key fwd start) start fwd
    run fuel = .ok none ∨
    ∃ (us : List (List ℕ)) (routes : List SwRoute),
      (∀ fuel', fuel ≤ fuel' → run fuel' = .ok (some routes)) ∧
      routes.map (fun rd => (rd.route, rd.cost)) = us.map (fun u => (wrap u, cost D (wrap u))) ∧
      us.flatten.Perm nodes ∧ [] ∉ us ∧ ∀ u ∈ us, RouteOk D d C L u := by
  intro run
  obtain ⟨h0, hnn⟩ := sweep_nodes hperm
  have hlen : nodes.length = N - 1 := by rw [hperm.length_eq, List.length_range']
  rcases do_one_sweep_cb_partial (fwd := fwd) h0 hnn hd htsp (sweep_serviceable hperm hser)
    (gmCallback_ok key hperm (by omega) htsp fwd start) (by omega : start < nodes.length) fuel with e | ⟨routes, e, h1, _, h2⟩
  · exact Or.inl e
  · right
    obtain ⟨us, e1, e2, e3⟩ := stored_routes h1
    refine ⟨us, routes, fun fuel' hf => ?_, e1, e2.trans (h2 rfl), fun h => (e3 [] h).1 rfl, fun u hu => (e3 u hu).2.2.2⟩
    have := do_one_sweep_cb_stable (D := D) (d := d) (C := C) (L := L) (tsp := tsp D) (nodes := nodes) (fwd := fwd)
      (gmCallback N D d C L tsp nodes key fwd start) start fuel fuel' hf (by simp only [e]; simp)
    simp only at this
    exact this.trans e

/-- C52. The sweep ends if the routine does not ask more for a part of the customers; routes from which
customers are exchanged then only ever take up customers further on. -/
theorem C52_sweep_ends {N : ℕ} {D : ℕ → ℕ → ℚ} {d : ℕ → ℚ} {C L : Option ℚ} {tsp : TspSolver} {nodes : List ℕ}
    (key : Bool → ℕ → ℕ → ℚ) {start : ℕ} (fwd : Bool) (hperm : nodes.Perm (List.range' 1 (N - 1)))
    (hd : ∀ n, 0 ≤ d n) (htsp : TspRoutine D (tsp D)) (hpart : CheaperForPart (tsp D))
    (hser : Serviceable N D d C L) (hs : start < N - 1) :
    ∃ routes F, ∀ fuel, F ≤ fuel → do_one_sweep_cb fuel D d C L (tsp D) nodes
      (gmCallback N D d C L tsp nodes key fwd start) start fwd = .ok (some routes) := by
  obtain ⟨h0, hnn⟩ := sweep_nodes hperm
  have hlen : nodes.length = N - 1 := by rw [hperm.length_eq, List.length_range']
  obtain ⟨routes, _, F, hF⟩ := do_one_sweep_cb_ends (fwd := fwd) h0 hnn hd htsp (sweep_serviceable hperm hser)
    (gmCallback_ok key hperm (by omega) htsp fwd start) hpart (by omega : start < nodes.length)
  exact ⟨routes, F, hF⟩

/-- The loop over the directions and starts. -/
theorem sweepRunsB_spec {N : ℕ} {D : ℕ → ℕ → ℚ} {d : ℕ → ℚ} {C L : Option ℚ} {tsp : TspSolver} {nodes : List ℕ}
    (key : Bool → ℕ → ℕ → ℚ)
    {m : Bool} (hperm : nodes.Perm (List.range' 1 (N - 1))) (hd : ∀ n, 0 ≤ d n) (htsp : TspRoutine D (tsp D))
    (hser : Serviceable N D d C L) (fuel : ℕ) (runs : List (Bool × ℕ)) (hr : ∀ r ∈ runs, r.2 < N - 1) :
    ((∃ r ∈ runs, do_one_sweep_cb fuel D d C L (tsp D) nodes (gmCallback N D d C L tsp nodes key r.1 r.2) r.2 r.1 = .ok none) ∧
      ∀ best seen, sweepRunsB fuel D d C L (tsp D) nodes (gmCallback N D d C L tsp nodes key) m runs best seen = .ok none) ∨
    ∃ cands : List (List ℕ), cands.length = runs.length ∧
      (∀ r ∈ runs, ∃ s ∈ cands, GmGives N D d C L tsp nodes key r.1 r.2 s) ∧
      (∀ s ∈ cands, ∃ r ∈ runs, GmGives N D d C L tsp nodes key r.1 r.2 s) ∧
      (∀ s ∈ cands, Solves N D d C L s ∧ Feasible D d C L s) ∧
      ∀ best seen, ∃ seen' : List (Option (List ℕ)),
        (∀ x ∈ seen', ∀ s, x = some s → (∃ b, best = some b ∧ b.1 = s) ∨ s ∈ cands) ∧
        ∀ fuel', fuel ≤ fuel' →
        sweepRunsB fuel' D d C L (tsp D) nodes (gmCallback N D d C L tsp nodes key) m runs best seen =
          .ok (some ((cands.foldl (keepBetter D m) best).map (·.1), seen ++ seen')) := by
  induction runs with
  | nil => exact Or.inr ⟨[], rfl, by simp, by simp, by simp, fun best seen => ⟨[], by simp, fun _ _ => by simp [sweepRunsB]⟩⟩
  | cons r rs ih =>
    obtain ⟨fwd, start⟩ := r
    rcases C52_sweep key fwd hperm hd htsp hser (hr (fwd, start) (by simp)) fuel with e | ⟨us, routes, hF1, e1, e2, e3, e4⟩
    · exact Or.inl ⟨⟨_, List.mem_cons_self, e⟩, fun best seen => by simp only at e; rw [sweepRunsB, e]⟩
    simp only at hF1
    rcases ih (fun x hx => hr x (List.mem_cons_of_mem _ hx)) with ⟨⟨r, hr, e⟩, h⟩ | ⟨cands, h1, g1, g2, h2, h3⟩
    · exact Or.inl ⟨⟨r, List.mem_cons_of_mem _ hr, e⟩, fun best seen => by
        rw [sweepRunsB, hF1 fuel (le_refl _)]
        simp only
        rw [h]⟩
    right
    have hsol := sweepSol_solves hperm e1 e2 e3 e4
    have hgive : GmGives N D d C L tsp nodes key fwd start (sweepSol routes) := ⟨routes, ⟨fuel, hF1⟩, rfl⟩
    refine ⟨sweepSol routes :: cands, by simp [h1], ?_, ?_, ?_, fun best seen => ?_⟩
    · intro r hr
      rcases List.mem_cons.1 hr with rfl | hr
      · exact ⟨_, by simp, hgive⟩
      · obtain ⟨s, hs1, hs2⟩ := g1 r hr
        exact ⟨s, List.mem_cons_of_mem _ hs1, hs2⟩
    · intro s hs
      rcases List.mem_cons.1 hs with rfl | hs
      · exact ⟨(fwd, start), by simp, hgive⟩
      · obtain ⟨r, hr1, hr2⟩ := g2 s hs
        exact ⟨r, List.mem_cons_of_mem _ hr1, hr2⟩
    · intro s hs
      rcases List.mem_cons.1 hs with rfl | hs
      · exact hsol
      · exact h2 s hs
    · obtain ⟨seen', k1, hF2⟩ := h3 (keepBetter D m best (sweepSol routes))
        (seen ++ [(keepBetter D m best (sweepSol routes)).map (·.1)])
      have hkeep : ∀ s, (keepBetter D m best (sweepSol routes)).map (·.1) = some s →
          (∃ b, best = some b ∧ b.1 = s) ∨ s = sweepSol routes := by
        intro s hs
        unfold keepBetter at hs
        simp only at hs
        split at hs
        · right; simpa using hs.symm
        · left
          rw [Option.map_eq_some_iff] at hs
          exact hs
      refine ⟨(keepBetter D m best (sweepSol routes)).map (·.1) :: seen', ?_, fun fuel' hf => ?_⟩
      · intro x hx s hs
        rcases List.mem_cons.1 hx with rfl | hx
        · rcases hkeep s hs with h | h
          · exact Or.inl h
          · exact Or.inr (by simp [h])
        · rcases k1 x hx s hs with ⟨b, hb1, hb2⟩ | h
          · rcases hkeep s (by rw [hb1]; simp [hb2]) with h | h
            · exact Or.inl h
            · exact Or.inr (by simp [h])
          · exact Or.inr (List.mem_cons_of_mem _ h)
      · simp only [sweepRunsB, hF1 fuel' hf, hF2 fuel' hf]
        simp

/-- C52. `gillet_miller_init`, with any routine for the tours, raises nothing on an instance in which every
customer can be served. Whenever it ends, its solution serves every customer exactly once within both limits
and is, of the solutions of the sweeps in the given directions from the given starts, one that none of them
beats; an interrupt hands out nothing, or a complete solution within the limits too. -/
theorem C52_answers {N : ℕ} {points : List (ℚ × ℚ)} {D : ℕ → ℕ → ℚ} {d : ℕ → ℚ} {C L : Option ℚ} {tsp : TspSolver}
    {nodes : List ℕ} (key : Bool → ℕ → ℕ → ℚ) (m : Bool) {dir : SweepDir} {seed : SweepSeed} {starts : List ℕ}
    (hpts : points ≠ []) (hperm : nodes.Perm (List.range' 1 (N - 1))) (hd : ∀ n, 0 ≤ d n)
    (htsp : TspRoutine D (tsp D)) (hser : Serviceable N D d C L) (hdir : dir ≠ .other)
    (hseed : sweepStarts N nodes seed = .ok starts) (hne : starts ≠ []) (hlt : ∀ s ∈ starts, s < N - 1)
    (fuel : ℕ) :
    gillet_miller_init fuel N points D d C L tsp nodes key m dir seed = .ok none ∨
    ∃ (sol : List ℕ) (seen : List (Option (List ℕ))) (cands : List (List ℕ)),
      (∀ fuel', fuel ≤ fuel' →
        gillet_miller_init fuel' N points D d C L tsp nodes key m dir seed = .ok (some (some sol, seen))) ∧
      Solves N D d C L sol ∧ Feasible D d C L sol ∧
      (∀ s, some s ∈ seen → Solves N D d C L s ∧ Feasible D d C L s) ∧
      (∀ fwd start, dir.wants fwd → start ∈ starts → ∃ s ∈ cands, GmGives N D d C L tsp nodes key fwd start s) ∧
      (∀ s ∈ cands, ∃ fwd start, dir.wants fwd ∧ start ∈ starts ∧ GmGives N D d C L tsp nodes key fwd start s) ∧
      sol ∈ cands ∧
      (∀ s ∈ cands, Solves N D d C L s) ∧
      ∀ s ∈ cands, ¬ Better m (cost D s, (s.count 0 : ℚ) - 1) (cost D sol, (sol.count 0 : ℚ) - 1) := by
  obtain ⟨dirs, hdirs, hwant, hd0⟩ : ∃ dirs, sweepDirs dir = .ok dirs ∧ (∀ x, x ∈ dirs ↔ dir.wants x) ∧ dirs ≠ [] := by
    cases dir with
    | ccw => exact ⟨_, rfl, fun x => by simp [SweepDir.wants], by simp⟩
    | cw => exact ⟨_, rfl, fun x => by simp [SweepDir.wants], by simp⟩
    | both => exact ⟨_, rfl, fun x => by simp [SweepDir.wants], by simp⟩
    | other => exact absurd rfl hdir
  have hinit : ∀ fuel, gillet_miller_init fuel N points D d C L tsp nodes key m dir seed =
      sweepRunsB fuel D d C L (tsp D) nodes (gmCallback N D d C L tsp nodes key) m
        (dirs.flatMap fun x => starts.map fun s => (x, s)) none [none] := by
    intro fuel
    unfold gillet_miller_init sweep_init_cb
    rw [if_neg hpts, hdirs, hseed]
    rfl
  rcases sweepRunsB_spec key (m := m) hperm hd htsp hser fuel
    (dirs.flatMap fun x => starts.map fun s => (x, s)) (by
      intro r hr
      rw [List.mem_flatMap] at hr
      obtain ⟨x, _, hx⟩ := hr
      rw [List.mem_map] at hx
      obtain ⟨s, hs, rfl⟩ := hx
      exact hlt s hs) with ⟨-, h⟩ | ⟨cands, h1, g1, g2, h2, h3⟩
  · exact Or.inl ((hinit fuel).trans (h _ _))
  right
  have hcl : cands.length = dirs.length * starts.length := by
    rw [h1, List.length_flatMap]
    simp
  have hc0 : cands ≠ [] := by
    rintro rfl
    have := Nat.mul_pos (List.length_pos_iff.2 hd0) (List.length_pos_iff.2 hne)
    rw [← hcl] at this
    simp at this
  obtain ⟨seen', k1, hF⟩ := h3 none [none]
  obtain ⟨l, s, r, e1, e2, e3, e4⟩ := C04_bestOf (fun s => cost D s) (fun s => (s.count 0 : ℚ) - 1) m cands hc0
  have hs : s ∈ cands := by rw [e1]; simp
  refine ⟨s, [none] ++ seen', cands, fun fuel' hf => ?_, (h2 s hs).1, (h2 s hs).2, ?_, ?_, ?_, hs,
    fun x hx => (h2 x hx).1, ?_⟩
  · rw [hinit, hF fuel' hf, keepBetter_fold, e2]
  · intro x hx
    have : some x ∈ seen' := by simpa using hx
    rcases k1 _ this x rfl with ⟨b, hb, _⟩ | h
    · simp at hb
    · exact h2 x h
  · intro fwd start hw hst
    exact g1 (fwd, start) (List.mem_flatMap.2 ⟨fwd, (hwant fwd).2 hw, List.mem_map.2 ⟨start, hst, rfl⟩⟩)
  · intro c hcm
    obtain ⟨r, hr1, hr2⟩ := g2 c hcm
    obtain ⟨fwd, hf1, hf2⟩ := List.mem_flatMap.1 hr1
    obtain ⟨start, hst, rfl⟩ := List.mem_map.1 hf2
    exact ⟨fwd, start, (hwant fwd).1 hf1, hst, hr2⟩
  · intro x hx
    rw [e1, List.mem_append, List.mem_cons] at hx
    rcases hx with hx | rfl | hx
    · exact fun hb => better_irrefl m _ (better_trans m hb (e3 x hx))
    · exact better_irrefl m _
    · exact e4 x hx

/-- C52. It ends, if the routine does not ask more for a part of the customers. -/
theorem C52_ends {N : ℕ} {points : List (ℚ × ℚ)} {D : ℕ → ℕ → ℚ} {d : ℕ → ℚ} {C L : Option ℚ} {tsp : TspSolver}
    {nodes : List ℕ} (key : Bool → ℕ → ℕ → ℚ) (m : Bool) {dir : SweepDir} {seed : SweepSeed} {starts : List ℕ}
    (hpts : points ≠ []) (hperm : nodes.Perm (List.range' 1 (N - 1))) (hd : ∀ n, 0 ≤ d n)
    (htsp : TspRoutine D (tsp D)) (hpart : CheaperForPart (tsp D)) (hser : Serviceable N D d C L) (hdir : dir ≠ .other)
    (hseed : sweepStarts N nodes seed = .ok starts) (hlt : ∀ s ∈ starts, s < N - 1) :
    ∃ answer F, ∀ fuel, F ≤ fuel →
      gillet_miller_init fuel N points D d C L tsp nodes key m dir seed = .ok (some answer) := by
  obtain ⟨dirs, hdirs⟩ : ∃ dirs, sweepDirs dir = .ok dirs := by
    cases dir with
    | ccw => exact ⟨_, rfl⟩
    | cw => exact ⟨_, rfl⟩
    | both => exact ⟨_, rfl⟩
    | other => exact absurd rfl hdir
  have hinit : ∀ fuel, gillet_miller_init fuel N points D d C L tsp nodes key m dir seed =
      sweepRunsB fuel D d C L (tsp D) nodes (gmCallback N D d C L tsp nodes key) m
        (dirs.flatMap fun x => starts.map fun s => (x, s)) none [none] := by
    intro fuel
    unfold gillet_miller_init sweep_init_cb
    rw [if_neg hpts, hdirs, hseed]
    rfl
  have hr : ∀ r ∈ dirs.flatMap fun x => starts.map fun s => (x, s), r.2 < N - 1 := by
    intro r hr
    rw [List.mem_flatMap] at hr
    obtain ⟨x, _, hx⟩ := hr
    rw [List.mem_map] at hx
    obtain ⟨s, hs, rfl⟩ := hx
    exact hlt s hs
  have hF : ∀ runs : List (Bool × ℕ), (∀ r ∈ runs, r.2 < N - 1) → ∃ F, ∀ r ∈ runs, ∃ routes, ∀ fuel, F ≤ fuel →
      do_one_sweep_cb fuel D d C L (tsp D) nodes (gmCallback N D d C L tsp nodes key r.1 r.2) r.2 r.1 = .ok (some routes) := by
    intro runs
    induction runs with
    | nil => intro _; exact ⟨0, by simp⟩
    | cons r rs ih =>
      intro h
      obtain ⟨F1, h1⟩ := ih fun x hx => h x (List.mem_cons_of_mem _ hx)
      obtain ⟨routes, F2, h2⟩ := C52_sweep_ends key r.1 hperm hd htsp hpart hser (h r (by simp))
      refine ⟨F1 + F2, fun x hx => ?_⟩
      rcases List.mem_cons.1 hx with rfl | hx
      · exact ⟨routes, fun fuel hf => h2 fuel (by omega)⟩
      · obtain ⟨rt, h3⟩ := h1 x hx
        exact ⟨rt, fun fuel hf => h3 fuel (by omega)⟩
  obtain ⟨F, hF⟩ := hF _ hr
  rcases sweepRunsB_spec key (m := m) hperm hd htsp hser F _ hr with ⟨⟨r, hr, e⟩, -⟩ | ⟨cands, -, -, -, -, h3⟩
  · obtain ⟨rt, h⟩ := hF r hr
    rw [h F (le_refl _)] at e
    cases e
  · obtain ⟨seen', -, h⟩ := h3 none [none]
    exact ⟨_, F, fun fuel hf => (hinit fuel).trans (h fuel hf)⟩

/-- C52. In particular with shortest tours and the triangle inequality. -/
theorem C52_shortest {N : ℕ} {points : List (ℚ × ℚ)} {D : ℕ → ℕ → ℚ} {d : ℕ → ℚ} {C L : Option ℚ} {tsp : TspSolver}
    {nodes : List ℕ} (key : Bool → ℕ → ℕ → ℚ) (m : Bool) {dir : SweepDir} {seed : SweepSeed} {starts : List ℕ}
    (hpts : points ≠ []) (hperm : nodes.Perm (List.range' 1 (N - 1))) (hd : ∀ n, 0 ≤ d n)
    (htri : Triangle D)
    (htsp : TspRoutine D (tsp D)) (hshort : ShortestTours D (tsp D)) (hser : Serviceable N D d C L) (hdir : dir ≠ .other)
    (hseed : sweepStarts N nodes seed = .ok starts) (hne : starts ≠ []) (hlt : ∀ s ∈ starts, s < N - 1) :
    ∃ (sol : List ℕ) (seen : List (Option (List ℕ))),
      (∃ F, ∀ fuel, F ≤ fuel →
        gillet_miller_init fuel N points D d C L tsp nodes key m dir seed = .ok (some (some sol, seen))) ∧
      Solves N D d C L sol ∧ Feasible D d C L sol := by
  obtain ⟨a, F, h⟩ := C52_ends (points := points) key m hpts hperm hd htsp (shortest_part htri htsp hshort) hser hdir
    hseed hlt
  rcases C52_answers (points := points) key m hpts hperm hd htsp hser hdir hseed hne hlt F with e | ⟨sol, seen, _, e, h1, h2, -⟩
  · rw [h F (le_refl _)] at e
    cases e
  · exact ⟨sol, seen, ⟨F, e⟩, h1, h2⟩

theorem truthy_inUse {c : Option ℚ} (h : truthy c = true) : InUse c := by
  cases c with
  | none => simp [truthy] at h
  | some x => simpa [truthy, InUse] using h

/-- Without both limits a sweep does not depend on the improvement of the routes. -/
theorem gm_sweep_plain {N : ℕ} {D : ℕ → ℕ → ℚ} {d : ℕ → ℚ} {C L : Option ℚ} {tsp : TspSolver} {nodes : List ℕ}
    (key : Bool → ℕ → ℕ → ℚ) {start : ℕ} (fwd : Bool) (hperm : nodes.Perm (List.range' 1 (N - 1)))
    (hd : ∀ n, 0 ≤ d n) (htsp : TspRoutine D (tsp D)) (hser : Serviceable N D d C L) (hs : start < N - 1)
    (hCL : ¬ (InUse C ∧ InUse L)) (fuel : ℕ) :
    do_one_sweep_cb fuel D d C L (tsp D) nodes (gmCallback N D d C L tsp nodes key fwd start) start fwd =
      do_one_sweep fuel D d C L (tsp D) nodes start fwd false := by
  obtain ⟨h0, hnn⟩ := sweep_nodes hperm
  have hlen : nodes.length = N - 1 := by rw [hperm.length_eq, List.length_range']
  have hs' : start < nodes.length := by omega
  have hser' := sweep_serviceable hperm hser
  have hcl : truthy C = false ∨ truthy L = false := by
    by_contra h
    rw [not_or, Bool.not_eq_false, Bool.not_eq_false] at h
    exact hCL ⟨truthy_inUse h.1, truthy_inUse h.2⟩
  unfold do_one_sweep_cb do_one_sweep
  simp only [idx_lt hs']
  refine sweepLoopB_plain (fwd := fwd) h0 hnn hd htsp hser' (gmCallback_ok key hperm (by omega) htsp fwd start) ?_ fuel fuel
    [] [] _ (head_start h0 hd hser' (List.getElem?_eq_getElem hs')) rfl
  intro rd routed pos t J hset hnd hr0 hrt hJ hrJ hne
  obtain ⟨rd', added, ignored, fin, e, hcase⟩ := gm_improvement_cases tsp
    { N := N, D := D, NN_D := nnList N D, d := d, C := C, L := L, nodes := nodes, key := key fwd start } fwd rd routed
    pos J (show N = nodes.length + 1 by omega) hJ hrJ (by rw [hset]; exact hne) (fun i n hn => by
      change n ∈ nnList N D i
      rw [(nnList_perm N D i).mem_iff, List.mem_range]
      have := hperm.mem_iff.1 hn
      rw [List.mem_range'_1] at this
      omega)
  rcases hcase with ⟨rfl, rfl, rfl, rfl⟩ | ⟨_, _, _, hadd, _⟩
  · exact e
  · exact absurd (C39_needs_both tsp _ fwd rd routed pos t hset hnd hr0 hrt htsp hcl rd' added ignored fin e).2.1 hadd

/-- C52. Without a capacity or without a cost limit, which is the default, the improvement of the routes
does nothing: the heuristic is the plain sweep with the tours of the routine. -/
theorem C52_plain {N : ℕ} {points : List (ℚ × ℚ)} {D : ℕ → ℕ → ℚ} {d : ℕ → ℚ} {C L : Option ℚ} {tsp : TspSolver}
    {nodes : List ℕ} (key : Bool → ℕ → ℕ → ℚ) (m : Bool) {dir : SweepDir} {seed : SweepSeed} {starts : List ℕ}
    (hpts : points ≠ []) (hperm : nodes.Perm (List.range' 1 (N - 1))) (hd : ∀ n, 0 ≤ d n)
    (htsp : TspRoutine D (tsp D)) (hser : Serviceable N D d C L)
    (hseed : sweepStarts N nodes seed = .ok starts) (hlt : ∀ s ∈ starts, s < N - 1)
    (hCL : ¬ (InUse C ∧ InUse L)) (fuel : ℕ) :
    gillet_miller_init fuel N points D d C L tsp nodes key m dir seed =
      sweep_init fuel N D d C L (tsp D) nodes m dir seed := by
  have hruns : ∀ (runs : List (Bool × ℕ)), (∀ r ∈ runs, r.2 < N - 1) → ∀ best seen,
      sweepRunsB fuel D d C L (tsp D) nodes (gmCallback N D d C L tsp nodes key) m runs best seen =
        sweepRuns fuel D d C L (tsp D) nodes m runs best seen := by
    intro runs
    induction runs with
    | nil => intro _ best seen; rfl
    | cons r rs ih =>
      intro h best seen
      obtain ⟨fwd, start⟩ := r
      rw [sweepRunsB, sweepRuns, gm_sweep_plain key fwd hperm hd htsp hser (h (fwd, start) (by simp)) hCL]
      split
      · rename_i e; simp only [e]
      · rename_i e; simp only [e]
      · rename_i e; simp only [e]; exact ih (fun x hx => h x (List.mem_cons_of_mem _ hx)) _ _
  unfold gillet_miller_init sweep_init_cb sweep_init
  rw [if_neg hpts, hseed]
  cases sweepDirs dir with
  | error e => rfl
  | ok dirs =>
    simp only
    refine hruns _ (fun r hr => ?_) _ _
    rw [List.mem_flatMap] at hr
    obtain ⟨x, _, hx⟩ := hr
    rw [List.mem_map] at hx
    obtain ⟨s, hs, rfl⟩ := hx
    exact hlt s hs

/-- C52. Without points the heuristic is refused. -/
theorem C52_no_points (fuel N : ℕ) (D : ℕ → ℕ → ℚ) (d : ℕ → ℚ) (C L : Option ℚ) (tsp : TspSolver) (nodes : List ℕ)
    (key : Bool → ℕ → ℕ → ℚ) (m : Bool) (dir : SweepDir) (seed : SweepSeed) :
    gillet_miller_init fuel N [] D d C L tsp nodes key m dir seed = .error .valueError := by
  unfold gillet_miller_init
  rw [if_pos rfl]

/-- C52. A sweep that starts at a customer whose demand is over the capacity raises a `ValueError`: the
callback is called for the empty route. -/
theorem C52_overload {N : ℕ} {D : ℕ → ℕ → ℚ} {d : ℕ → ℚ} {C L : Option ℚ} {tsp : TspSolver} {nodes : List ℕ}
    (key : Bool → ℕ → ℕ → ℚ) {start n : ℕ} (fwd : Bool) (hn : nodes[start]? = some n) (hn0 : n ≠ 0)
    (hover : ¬ Within C C_EPS (d n)) (htsp : Within L S_EPS (tsp D [0]).2) (fuel : ℕ) :
    do_one_sweep_cb (fuel + 1) D d C L (tsp D) nodes (gmCallback N D d C L tsp nodes key fwd start) start fwd =
      .error .valueError := by
  have hmem := (List.getElem?_eq_some_iff.1 hn).1
  have hC : exceeds C C_EPS (d n) = true := by
    rw [← Bool.not_eq_false, exceeds_iff]
    exact hover
  have hL : exceeds L S_EPS (tsp D [0]).2 = false := (exceeds_iff _ _ _).2 htsp
  have hroute : swRoute d C L fwd nodes (tsp D) (fuel + 1)
      { routes := [], routed := fun n => n == 0, routed_cnt := 0, cur := .new, ub := 0,
        complete := true, pos := start, node := some n } =
      .ok (some { routes := [], routed := fun n => n == 0, routed_cnt := 0,
                  cur := { SwRoute.new with route := (tsp D [0]).1, cost := (tsp D [0]).2 }, ub := (tsp D [0]).2,
                  complete := true, pos := start, node := some n }) := by
    unfold swRoute
    simp only [SwRoute.new]
    split
    · simp [ensureL, hL]
    · rfl
  unfold do_one_sweep_cb
  rw [idx_lt hmem]
  simp only
  have e : nodes[start] = n := by
    have := List.getElem?_eq_getElem hmem
    rw [hn] at this
    exact (Option.some.inj this).symm
  rw [e, sweepLoopB, swHeadB]
  have htest : swTest d C L (tsp D) { routes := [], routed := fun n => n == 0, routed_cnt := 0, cur := .new, ub := 0,
                                      complete := false, pos := start, node := some n } =
      .ok { routes := [], routed := fun n => n == 0, routed_cnt := 0, cur := .new, ub := 0,
            complete := true, pos := start, node := some n } := by
    simp [swTest, SwRoute.new, hC]
  simp only [htest, if_true, hroute]
  have himp : gmCallback N D d C L tsp nodes key fwd start
      { SwRoute.new with route := (tsp D [0]).1, cost := (tsp D [0]).2 } (fun n => n == 0) start = .error .valueError := by
    unfold gmCallback gm_improvement
    simp [hn, hn0, SwRoute.new, gmArgmin]
  simp only [swImprove, himp]

/-- The distances of customers on a line. -/
def gmLineD : ℕ → ℕ → ℚ := fun a b => |(a : ℚ) - b|

theorem gmLineD_triangle : Triangle gmLineD := fun i j k => abs_sub_le (i : ℚ) j k

theorem gmLine_serviceable : Serviceable 8 gmLineD (fun _ => 1) (some 2) (some 14) := by
  intro n h1 h2
  rw [RouteOk, ← exceeds_iff, ← exceeds_iff]
  have : n ∈ List.range' 1 7 := by rw [List.mem_range'_1]; omega
  revert n
  decide +kernel

/-- The hypotheses of `C52_answers` and `C52_ends` hold for seven customers on a line and both limits. -/
example : ∃ answer F, ∀ fuel, F ≤ fuel →
    gillet_miller_init fuel 8 [(0, 0)] gmLineD (fun _ => 1) (some 2) (some 14) sweptOrder [2, 7, 1, 3, 4, 5, 6]
      (fun _ _ n => n) false .both .best = .ok (some answer) :=
  C52_ends (starts := List.range 7) _ false (by simp) (by decide) (fun _ => by norm_num) (sweptOrder_ok _)
    (sweptOrder_part gmLineD_triangle) gmLine_serviceable (by simp) (by decide) (by decide)

example (fuel : ℕ) := C52_answers (points := [(0, 0)]) (tsp := sweptOrder) (nodes := [2, 7, 1, 3, 4, 5, 6])
  (fun _ _ n => (n : ℚ)) false (dir := .both) (seed := .best) (starts := List.range 7) (by simp) (by decide)
  (fun _ => by norm_num) (sweptOrder_ok _) gmLine_serviceable (by simp) (by decide) (by decide) (by decide) fuel

/-- There the improvement of the routes matters: the plain sweep costs 36, the one of Gillett and Miller 32. -/
example : (gillet_miller_init 60 8 [(0, 0)] gmLineD (fun _ => 1) (some 2) (some 14) sweptOrder [2, 7, 1, 3, 4, 5, 6]
      (fun _ _ n => n) false .both .best).map (fun o => o.map fun r => r.1) =
        .ok (some (some [0, 7, 6, 0, 4, 5, 0, 2, 3, 0, 1, 0])) ∧
    (sweep_init 60 8 gmLineD (fun _ => 1) (some 2) (some 14) (sweptOrder gmLineD) [2, 7, 1, 3, 4, 5, 6]
      false .both .best).map (fun o => o.map fun r => r.1) =
        .ok (some (some [0, 3, 4, 0, 5, 6, 0, 2, 7, 0, 1, 0])) ∧
    cost gmLineD [0, 7, 6, 0, 4, 5, 0, 2, 3, 0, 1, 0] = 32 ∧ cost gmLineD [0, 3, 4, 0, 5, 6, 0, 2, 7, 0, 1, 0] = 36 := by
  refine ⟨?_, ?_, ?_, ?_⟩ <;> decide +kernel

/-- The hypotheses of `C52_plain` hold for those customers without a cost limit. -/
example (fuel : ℕ) := C52_plain (points := [(0, 0)]) (D := gmLineD) (d := fun _ => 1) (C := some 2) (L := none)
  (tsp := sweptOrder) (nodes := [2, 7, 1, 3, 4, 5, 6]) (fun _ _ n => (n : ℚ)) false (dir := .both) (seed := .best)
  (starts := List.range 7) (by simp) (by decide) (fun _ => by norm_num) (sweptOrder_ok _)
  (fun n h1 h2 => ⟨(gmLine_serviceable n h1 h2).1, by simp [Within]⟩)
  (by decide) (by decide) (fun h => by simp [InUse] at h) fuel

/-- Customers at the ends of spokes around a hub. -/
def spokesD : ℕ → ℕ → ℚ := fun a b => a + b

theorem spokes_cost (u : List ℕ) : ∀ a b : ℕ, cost spokesD (a :: u ++ [b]) = a + 2 * (u.map (Nat.cast : ℕ → ℚ)).sum + b := by
  induction u with
  | nil => intro a b; simp [cost, spokesD]
  | cons x u ih =>
    intro a b
    have := ih x b
    simp only [List.cons_append, cost, List.map_cons, List.sum_cons] at this ⊢
    rw [this]
    simp only [spokesD]
    ring

/-- The hypotheses of `C52_shortest` hold there: all tours are equally long. -/
example : ∃ (sol : List ℕ) (seen : List (Option (List ℕ))),
    (∃ F, ∀ fuel, F ≤ fuel →
      gillet_miller_init fuel 6 [(0, 0)] spokesD (fun _ => 1) (some 2) (some 16) sweptOrder [4, 1, 5, 3, 2]
        (fun _ _ n => n) true .cw .smallestAngle = .ok (some (some sol, seen))) ∧
    Solves 6 spokesD (fun _ => 1) (some 2) (some 16) sol ∧ Feasible spokesD (fun _ => 1) (some 2) (some 16) sol :=
  C52_shortest (starts := [0]) _ true (by simp) (by decide) (fun _ => by norm_num)
    (fun i j k => by
      have : (0 : ℚ) ≤ j := Nat.cast_nonneg j
      simp only [spokesD]; linarith)
    (sweptOrder_ok _)
    (fun t u _ _ hu => by
      have e : (sweptOrder spokesD (0 :: t)).2 = cost spokesD (wrap t) := by
        unfold sweptOrder
        rw [objf_eq_cost]
        rfl
      have h1 := spokes_cost t 0 0
      have h2 := spokes_cost u 0 0
      have h3 : (u.map (Nat.cast : ℕ → ℚ)).sum = (t.map (Nat.cast : ℕ → ℚ)).sum := (hu.map _).sum_eq
      change cost spokesD (wrap t) = _ at h1
      change cost spokesD (wrap u) = _ at h2
      rw [e, h1, h2, h3])
    (fun n h1 h2 => by
      rw [RouteOk, ← exceeds_iff, ← exceeds_iff]
      have : n ∈ List.range' 1 5 := by rw [List.mem_range'_1]; omega
      revert n
      decide +kernel)
    (by simp) rfl (by decide) (by decide)

/-- The hypotheses of `C52_overload` hold for a customer with the demand 3. -/
example (fuel : ℕ) : do_one_sweep_cb (fuel + 1) gmLineD (fun n => n) (some 2) (some 14) (sweptOrder gmLineD) [1, 3, 2]
    (gmCallback 4 gmLineD (fun n => n) (some 2) (some 14) sweptOrder [1, 3, 2] (fun _ _ n => n) true 1) 1 true =
      .error .valueError :=
  C52_overload (n := 3) _ true rfl (by decide) (by rw [← exceeds_iff]; decide +kernel)
    (by rw [← exceeds_iff]; decide +kernel) fuel

end Verif
