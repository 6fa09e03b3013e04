import Mathlib.Data.List.Permutation
import Verif.Props.LocalSearch
import Verif.Props.CvrpOps
import Verif.Model.Cli
import Verif.Lemmas.ParallelSavings

/-! # The post-optimization of the driver: each route keeps its customers -/

namespace Verif
open Spec

/-- The records are the routes `bs`, each with its customers in an order that costs no more. -/
def KeptRoutes (D : ℕ → ℕ → ℚ) (bs : List (List ℕ)) (rds : List RouteData) : Prop :=
  List.Forall₂ (fun b rd => ∃ b', rd.route = wrap b' ∧ b'.Perm b ∧ cost D (wrap b') ≤ cost D (wrap b)) bs rds

theorem totalR_set {D : ℕ → ℕ → ℚ} {x : RouteData} : ∀ {rds : List RouteData} {i : ℕ} {rd : RouteData}, rds[i]? = some rd →
    totalR D (rds.set i x) = totalR D rds - cost D rd.route + cost D x.route
  | [], i, rd, h => by simp at h
  | y :: t, 0, rd, h => by
    simp only [List.getElem?_cons_zero, Option.some.injEq] at h
    subst h
    simp only [totalR, total, List.set_cons_zero, List.map_cons, List.sum_cons]
    ring
  | y :: t, i + 1, rd, h => by
    simp only [List.getElem?_cons_succ] at h
    have := totalR_set (D := D) (x := x) h
    simp only [totalR, total, List.set_cons_succ, List.map_cons, List.sum_cons] at this ⊢
    rw [this]
    ring

theorem kept_set {D : ℕ → ℕ → ℚ} {x : RouteData} : ∀ {bs : List (List ℕ)} {rds : List RouteData} {i : ℕ} {rd : RouteData},
    KeptRoutes D bs rds → rds[i]? = some rd →
    (∀ b ∈ bs, (∃ b', rd.route = wrap b' ∧ b'.Perm b ∧ cost D (wrap b') ≤ cost D (wrap b)) →
      ∃ b', x.route = wrap b' ∧ b'.Perm b ∧ cost D (wrap b') ≤ cost D (wrap b)) → KeptRoutes D bs (rds.set i x)
  | _, _, i, rd, .nil, h, _ => by simp at h
  | b :: bs, y :: t, 0, rd, .cons h1 h2, h, hx => by
    simp only [List.getElem?_cons_zero, Option.some.injEq] at h
    subst h
    exact .cons (hx b (by simp) h1) h2
  | b :: bs, y :: t, i + 1, rd, .cons h1 h2, h, hx => by
    simp only [List.getElem?_cons_succ] at h
    exact .cons h1 (kept_set h2 h fun b' hb' => hx b' (by simp [hb']))

/-- The contract of an operator on a single route. -/
theorem kept_single {D : ℕ → ℕ → ℚ} {bs : List (List ℕ)} (hz : ∀ b ∈ bs, 0 ∉ b) {st : LSOPT} {nm : ℕ} {sens : Bool}
    {f : List ℕ → LSOPT → Py (Option (List ℕ × ℚ))}
    (hf : ∀ r : List ℕ, ∃ o, f r st = .ok o ∧
      ∀ r' delta, o = some (r', delta) → (r'.Perm r ∧ r'.head? = r.head? ∧ r'.getLast? = r.getLast?) ∧
        cost D r' = cost D r + delta ∧ delta + S_EPS < 0) :
    OpOk D (KeptRoutes D bs) st ⟨nm, sens, .single f⟩ := by
  intro rds hs ris hn hlen hel
  obtain ⟨i, rfl⟩ : ∃ i, ris = [i] := List.length_eq_one_iff.1 hlen
  obtain ⟨rd, hi, hrl⟩ := hel i (by simp)
  obtain ⟨g1, g2⟩ := elig_get hel
  obtain ⟨o, h1, h2⟩ := hf rd.route
  have hget : getAll rds [i] = .ok [rd] := by rw [getAll_eq g1]; simp [hi]
  rcases o with _ | ⟨r', delta⟩
  · exact ⟨none, by simp [callOp, hget, h1], by simp⟩
  · refine ⟨some ([⟨r', rd.cost + delta, rd.demand⟩], delta), by simp [callOp, hget, h1], ?_⟩
    rintro rds' dl h
    simp only [Option.some.injEq, Prod.mk.injEq] at h
    obtain ⟨rfl, rfl⟩ := h
    obtain ⟨⟨p1, p2, p3⟩, p4, p5⟩ := h2 r' delta rfl
    have he := S_EPS_pos
    refine ⟨rfl, ?_, ?_, p5⟩
    · show KeptRoutes D bs (rds.set i _)
      refine kept_set hs hi ?_
      rintro b hb ⟨b', e1, e2, e3⟩
      have hb' : 0 ∉ b' := fun h => hz b hb (e2.mem_iff.1 h)
      have hd : Depots rd.route := ⟨b', e1, hb'⟩
      have hdc := depots_count hd
      obtain ⟨c, hc, hc0⟩ := depots_of (r := r') ⟨p2.trans hdc.1.1, p3.trans hdc.1.2⟩
        (by rw [p1.length_eq]; omega) (by rw [p1.count_eq, hdc.2])
      refine ⟨c, hc, ?_, ?_⟩
      · rw [hc, e1] at p1
        simp only [wrap] at p1
        have := (List.perm_cons 0).1 p1
        exact ((List.perm_append_right_iff [0]).1 this).trans e2
      · have : cost D (wrap c) = cost D (wrap b') + delta := by rw [← hc, p4, e1]
        rw [this]
        have : delta < 0 := by linarith
        linarith
    · show totalR D (rds.set i _) = _
      rw [totalR_set hi]
      show _ - _ + cost D r' = _
      rw [p4]
      ring

theorem kept_twoOpt {D : ℕ → ℕ → ℚ} (hD : Symm D) {bs : List (List ℕ)} (hz : ∀ b ∈ bs, 0 ∉ b) (st : LSOPT) :
    OpOk D (KeptRoutes D bs) st (op2opt D) := by
  refine kept_single hz fun r => ?_
  obtain ⟨o, h1, h2⟩ := C12_two_opt hD r st none
  refine ⟨o, h1, ?_⟩
  rintro r' delta rfl
  exact ⟨nb2opt_same h2.1, h2.2.1, h2.2.2.1⟩

theorem kept_threeOpt {D : ℕ → ℕ → ℚ} (hD : Symm D) {bs : List (List ℕ)} (hz : ∀ b ∈ bs, 0 ∉ b) (st : LSOPT) :
    OpOk D (KeptRoutes D bs) st (op3opt D) := by
  refine kept_single hz fun r => ?_
  obtain ⟨o, h1, h2⟩ := C13_three_opt hD r st none
  refine ⟨o, h1, ?_⟩
  rintro r' delta rfl
  exact ⟨nb3opt_same h2.1, h2.2.1, h2.2.2.1⟩

theorem kept_total {D : ℕ → ℕ → ℚ} {x y : ℚ} : ∀ {bs : List (List ℕ)} {rds : List RouteData}, KeptRoutes D bs rds →
    (∀ b ∈ bs, ∀ b' : List ℕ, b'.Perm b → x ≤ cost D (wrap b')) → x * bs.length ≤ totalR D rds
  | _, _, .nil, _ => by simp [totalR, total]
  | b :: bs, rd :: rds, .cons ⟨b', e1, e2, e3⟩ h, hx => by
    have ih := kept_total (x := x) (y := y) h fun c hc => hx c (by simp [hc])
    have := hx b (by simp) b' e2
    simp only [totalR, total, List.map_cons, List.sum_cons, List.length_cons] at ih ⊢
    rw [e1]
    push_cast
    linarith

/-- The order of the nodes bounds the cost from below. -/
theorem kept_bdd (D : ℕ → ℕ → ℚ) : ∀ (bs : List (List ℕ)), ∃ m, ∀ rds, KeptRoutes D bs rds → m ≤ totalR D rds
  | [] => ⟨0, fun rds h => by cases h; simp [totalR, total]⟩
  | b :: bs => by
    obtain ⟨m, hm⟩ := kept_bdd D bs
    have : ∃ x, ∀ b' : List ℕ, b'.Perm b → x ≤ cost D (wrap b') := by
      have hfin : ∀ l : List (List ℕ), ∃ x, ∀ c ∈ l, x ≤ cost D (wrap c) := by
        intro l
        induction l with
        | nil => exact ⟨0, by simp⟩
        | cons c t ih =>
          obtain ⟨x, hx⟩ := ih
          refine ⟨min x (cost D (wrap c)), fun c' hc' => ?_⟩
          rcases List.mem_cons.1 hc' with rfl | h
          · exact min_le_right _ _
          · exact (min_le_left _ _).trans (hx c' h)
      obtain ⟨x, hx⟩ := hfin b.permutations
      exact ⟨x, fun b' hb' => hx b' (List.mem_permutations.2 hb')⟩
    obtain ⟨x, hx⟩ := this
    refine ⟨x + m, fun rds h => ?_⟩
    match rds, h with
    | rd :: rds, .cons ⟨b', e1, e2, e3⟩ h =>
      have h1 := hm rds h
      have h2 := hx b' e2
      simp only [totalR, total, List.map_cons, List.sum_cons] at h1 ⊢
      rw [e1]
      linarith

/-- The local search with 2-opt and 3-opt. -/
theorem post_search {D : ℕ → ℕ → ℚ} (hD : Symm D) {d : ℕ → ℚ} {ops : List LsOp}
    (hops : ∀ op ∈ ops, op = op2opt D ∨ op = op3opt D) (st : LSOPT) (iter : ITEROPT) {sol : List ℕ} (hsol : DepotEnds sol) :
    ∃ F, ∀ fuel, F ≤ fuel → ∃ bs, do_local_search fuel ops sol D (some d) st iter none = .ok (some (tour bs)) ∧
      List.Forall₂ (fun b b' => b'.Perm b ∧ cost D (wrap b') ≤ cost D (wrap b)) (blocks sol) bs := by
  have hz : ∀ b ∈ blocks sol, 0 ∉ b := fun b hb h0 => (mem_blocks sol b hb).2 0 h0 rfl
  obtain ⟨m, hm⟩ := kept_bdd D (blocks sol)
  have h0 : KeptRoutes D (blocks sol) (from_solution sol D (some d)) := by
    simp only [from_solution, from_routes, sol2routes_depotEnds sol hsol]
    generalize blocks sol = bs
    induction bs with
    | nil => exact .nil
    | cons b t ih => exact .cons ⟨b, rfl, List.Perm.refl _, le_refl _⟩ ih
  obtain ⟨F, hF⟩ := C23_generic hm (ops := ops) (st := st) (by
    intro a ha b hb hn
    rcases hops a ha with rfl | rfl <;> rcases hops b hb with rfl | rfl
    · rfl
    · simp [op2opt, op3opt] at hn
    · simp [op2opt, op3opt] at hn
    · rfl) (by
    intro op ho
    rcases hops op ho with rfl | rfl
    · exact kept_twoOpt hD hz st
    · exact kept_threeOpt hD hz st) iter none hsol h0
  refine ⟨F, fun fuel hf => ?_⟩
  obtain ⟨rds, h1, h2, -, -⟩ := hF fuel hf
  obtain ⟨bs, e1, e2⟩ : ∃ bs : List (List ℕ), rds.map (·.route) = bs.map wrap ∧
      List.Forall₂ (fun b b' => b'.Perm b ∧ cost D (wrap b') ≤ cost D (wrap b)) (blocks sol) bs := by
    clear h1 h0 hF
    generalize blocks sol = R at h2
    induction h2 with
    | nil => exact ⟨[], rfl, .nil⟩
    | cons h _ ih =>
      obtain ⟨bs, i1, i2⟩ := ih
      obtain ⟨b', g1, g2⟩ := h
      exact ⟨b' :: bs, by simp [g1, i1], .cons g2 i2⟩
  exact ⟨bs, by rw [h1, to_solution_wraps rds bs e1], e2⟩

/-! ## The service time -/

theorem cost_shift {ty : DType} {D Dc : ℕ → ℕ → ℚ} {st : ℚ} (h : D2D_c ty D st = .ok Dc) :
    ∃ t u, ∀ b : List ℕ, b ≠ [] → b.Nodup → 0 ∉ b → cost Dc (wrap b) = cost D (wrap b) + (b.length : ℚ) * t + u := by
  unfold D2D_c at h
  split_ifs at h with h0
  simp only [Except.ok.injEq] at h
  generalize hhalf : (if castTo ty st ≠ st ∨ castTo ty st / 2 ≠ st / 2 then castTo ty st / 2
    else truncQ (castTo ty st / 2)) = half at h
  generalize castTo ty st = t at h
  have key : ∀ (l : List ℕ) (x : ℕ), (x :: l).Nodup → x ≠ 0 → 0 ∉ l →
      cost Dc (x :: (l ++ [0])) = cost D (x :: (l ++ [0])) + (l.length : ℚ) * t + half := by
    intro l
    induction l with
    | nil =>
      intro x _ hx _
      simp only [List.nil_append, cost, ← h, List.length_nil, Nat.cast_zero]
      simp [hx]
    | cons y l ih =>
      intro x hn hx hl
      have hxy : x ≠ y := by
        rintro rfl
        simp at hn
      have hy : y ≠ 0 := by
        rintro rfl
        simp at hl
      have := ih y (List.nodup_cons.1 hn).2 hy (fun h => hl (by simp [h]))
      rw [List.cons_append, cost, this, cost]
      have e : Dc x y = D x y + t := by
        rw [← h]
        simp [hxy, hx, hy]
      rw [e]
      simp only [List.length_cons]
      push_cast
      ring
  refine ⟨t, 2 * half - t, fun b hb hn hz => ?_⟩
  obtain ⟨x, l, rfl⟩ := List.exists_cons_of_ne_nil hb
  have hx : x ≠ 0 := by
    rintro rfl
    simp at hz
  have := key l x hn hx fun h => hz (by simp [h])
  simp only [wrap, List.cons_append]
  rw [cost, cost, this]
  have e : Dc 0 x = D 0 x + half := by
    rw [← h]
    simp [hx, hx.symm]
  rw [e]
  simp only [List.length_cons]
  push_cast
  ring

end Verif
