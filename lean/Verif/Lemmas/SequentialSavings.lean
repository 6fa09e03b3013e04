import Verif.Model.SequentialSavings
import Verif.Lemmas.ParallelSavings

/-! # Lemmas on the sequential savings procedure -/

namespace Verif

open Spec

/-- One customer per route. -/
def singles (l : List ℕ) : List (List ℕ) := l.map fun n => [n]

theorem singles_flatten (l : List ℕ) : (singles l).flatten = l := by
  induction l with
  | nil => rfl
  | cons a t ih => simpa [singles] using ih

theorem fold_singles (l : List ℕ) (h : ∀ x ∈ l, x ≠ 0) :
    (l.map fun n => [n]).foldl routes2sol_step [0] = tour (singles l) := by
  have := fold_routes ((singles l).map some) (by
    intro rt hrt
    simp only [liveRoutes, List.filterMap_map, List.mem_filterMap, Function.comp_apply, id_eq, singles] at hrt
    obtain ⟨n, hn, e⟩ := hrt
    simp only [Option.some.injEq] at e
    subst e
    exact ⟨by simp, by simpa using h n hn⟩) []
  simp only [liveRoutes, List.map_map, List.filterMap_map, List.nil_append] at this
  have e1 : List.map ((fun o : Option (List ℕ) => o.getD []) ∘ some) (singles l) = l.map fun n => [n] := by
    simp [singles]
  have e2 : List.filterMap (id ∘ some) (singles l) = singles l := by
    rw [show (id ∘ some : List ℕ → Option (List ℕ)) = some from rfl, List.filterMap_some]
  rw [e1, e2] at this
  exact this

/-- The routes an interrupt hands out. -/
def viewRoutes (bs : List (List ℕ)) (em : List (List ℕ)) (un : List ℕ) : List (List ℕ) :=
  bs ++ em ++ singles un

theorem interrupted_none {bs : List (List ℕ)} {un : List ℕ} (h : ∀ x ∈ un, x ≠ 0) :
    ssInterrupted (tour bs, none, un) = tour (viewRoutes bs [] un) := by
  simp only [ssInterrupted, viewRoutes, fold_singles un h, List.append_nil]
  rw [tour_append]

theorem interrupted_some {bs : List (List ℕ)} {un r : List ℕ} (h : ∀ x ∈ un, x ≠ 0) (hr : r ≠ []) :
    ssInterrupted (tour bs, some r, un) = tour (viewRoutes bs [r] un) := by
  simp only [ssInterrupted, viewRoutes, fold_singles un h, if_neg hr]
  rw [tour_append, tour_concat]
  simp

theorem interrupted_closed {bs : List (List ℕ)} {un r : List ℕ} (h : ∀ x ∈ un, x ≠ 0) :
    ssInterrupted (tour bs, some (r ++ [0]), un) = tour (viewRoutes bs [r, []] un) := by
  simp only [ssInterrupted, viewRoutes, fold_singles un h, if_neg (List.append_ne_nil_of_right_ne_nil r (List.cons_ne_nil 0 []))]
  rw [tour_append]
  have : bs ++ [r, []] = (bs ++ [r]) ++ [[]] := by simp
  rw [this, tour_concat, tour_concat]
  simp

/-- The customers of all the routes of a view, with the routes: complete, or with a customer twice. -/
structure ViewOk (N : ℕ) (D : ℕ → ℕ → ℚ) (d : ℕ → ℚ) (C L : Option ℚ) (xs : List (List ℕ)) : Prop where
  perm : xs.flatten.Perm (List.range' 1 (N - 1))
  feas : Serviceable N D d C L → ∀ b ∈ xs, b ≠ [] → RouteOk D d C L b

/-- The lines after which a customer is listed twice. -/
def ssBadLines : List ℕ := [123, 177, 179, 198]

def SeenOk (N : ℕ) (D : ℕ → ℕ → ℚ) (d : ℕ → ℚ) (C L : Option ℚ) (x : ℕ × SSView) : Prop :=
  ∃ xs, ssInterrupted x.2 = tour xs ∧ (∀ b ∈ xs, ∀ n ∈ b, n ≠ 0) ∧
    (x.1 ∉ ssBadLines → ViewOk N D d C L xs) ∧ (x.1 ∈ ssBadLines → ¬ xs.flatten.Nodup)

/-- The state between two savings, the finished routes being `bs` and the emerging one `rt`. -/
structure SSInv (N : ℕ) (D : ℕ → ℕ → ℚ) (d : ℕ → ℚ) (C L : Option ℚ) (bs : List (List ℕ)) (rt : List ℕ)
    (s : SSState) : Prop where
  sol : s.solution = tour bs
  em : s.emerging = some rt
  ne : rt ≠ []
  bne : ∀ b ∈ bs, b ≠ []
  nodes : (bs.flatten ++ rt ++ s.unrouted).Perm (List.range' 1 (N - 1))
  dem : truthy C = true → s.route_d = demand d rt
  cst : truthy L = true → s.route_l = cost D (wrap rt)
  feas : Serviceable N D d C L → RouteOk D d C L rt ∧ ∀ b ∈ bs, RouteOk D d C L b
  seenOk : ∀ x ∈ s.seen, SeenOk N D d C L x

/-- The state between two routes. -/
structure SSInv0 (N : ℕ) (D : ℕ → ℕ → ℚ) (d : ℕ → ℚ) (C L : Option ℚ) (bs : List (List ℕ))
    (s : SSState) : Prop where
  sol : s.solution = tour bs
  em : s.emerging = none
  sav : s.savings = []
  bne : ∀ b ∈ bs, b ≠ []
  nodes : (bs.flatten ++ s.unrouted).Perm (List.range' 1 (N - 1))
  feas : Serviceable N D d C L → ∀ b ∈ bs, RouteOk D d C L b
  seenOk : ∀ x ∈ s.seen, SeenOk N D d C L x
  seeds : ∀ n ∈ s.unrouted, n ∈ s.seeds

theorem perm_range_ne {N : ℕ} {l : List ℕ} (h : l.Perm (List.range' 1 (N - 1))) : ∀ x ∈ l, x ≠ 0 := by
  intro x hx
  have := h.mem_iff.1 hx
  rw [List.mem_range'_1] at this
  omega

theorem mem_singles {l b : List ℕ} : b ∈ singles l ↔ ∃ n ∈ l, b = [n] := by
  simp [singles, eq_comm]

theorem viewRoutes_flatten (bs em : List (List ℕ)) (un : List ℕ) :
    (viewRoutes bs em un).flatten = bs.flatten ++ em.flatten ++ un := by
  simp [viewRoutes, singles_flatten]

/-- A complete view. -/
theorem viewOk {N : ℕ} {D : ℕ → ℕ → ℚ} {d : ℕ → ℚ} {C L : Option ℚ} {bs em : List (List ℕ)}
    {un : List ℕ} (hp : (bs.flatten ++ em.flatten ++ un).Perm (List.range' 1 (N - 1)))
    (hf : Serviceable N D d C L → (∀ b ∈ bs, RouteOk D d C L b) ∧ ∀ b ∈ em, b ≠ [] → RouteOk D d C L b) :
    (∀ b ∈ viewRoutes bs em un, ∀ n ∈ b, n ≠ 0) ∧ ViewOk N D d C L (viewRoutes bs em un) := by
  have hfl : (viewRoutes bs em un).flatten.Perm (List.range' 1 (N - 1)) := by
    rw [viewRoutes_flatten]; exact hp
  refine ⟨fun b hb n hn => perm_range_ne hfl n (List.mem_flatten.2 ⟨b, hb, hn⟩), hfl, ?_⟩
  intro hv b hb hbne
  simp only [viewRoutes, List.mem_append, mem_singles] at hb
  rcases hb with (hb | hb) | ⟨n, hn, rfl⟩
  · exact (hf hv).1 b hb
  · exact (hf hv).2 b hb hbne
  · have : n ∈ List.range' 1 (N - 1) := hp.mem_iff.1 (by simp [hn])
    rw [List.mem_range'_1] at this
    exact hv n (by omega) (by omega)

/-- A view with a repetition. -/
theorem viewBad {bs em : List (List ℕ)} {un : List ℕ} {n : ℕ} (h1 : n ∈ bs.flatten ++ em.flatten)
    (h2 : n ∈ un) : ¬ (viewRoutes bs em un).flatten.Nodup := by
  rw [viewRoutes_flatten]
  intro h
  exact (List.nodup_append.1 h).2.2 n h1 n h2 rfl

theorem viewBad' {bs em : List (List ℕ)} {un : List ℕ} {n : ℕ} (h1 : n ∈ bs.flatten)
    (h2 : n ∈ em.flatten) : ¬ (viewRoutes bs em un).flatten.Nodup := by
  rw [viewRoutes_flatten]
  intro h
  exact (List.nodup_append.1 (List.nodup_append.1 h).1).2.2 n h1 n h2 rfl

theorem viewRoutes_ne {bs em : List (List ℕ)} {un : List ℕ}
    (h : ∀ n ∈ bs.flatten ++ em.flatten ++ un, n ≠ 0) : ∀ b ∈ viewRoutes bs em un, ∀ n ∈ b, n ≠ 0 := by
  intro b hb n hn
  apply h
  rw [← viewRoutes_flatten]
  exact List.mem_flatten.2 ⟨b, hb, hn⟩

/-! ## One saving -/

/-- What a merge does to the emerging route. -/
structure Attached (D : ℕ → ℕ → ℚ) (d : ℕ → ℚ) (C L : Option ℚ) (cb : List ℕ → ℕ → List Saving)
    (i j : ℕ) (rt rt' : List ℕ) (s s' : SSState) : Prop where
  shape : (rt.head? = some i ∧ rt' = j :: rt) ∨ (rt.getLast? = some i ∧ rt' = rt ++ [j])
  mem : j ∈ s.unrouted
  un : s'.unrouted = s.unrouted.erase j
  sav : s'.savings = pySort savingLe (s.savings ++ cb (s.unrouted.erase j) j)
  seeds : s'.seeds = s.seeds

/-- The cost of serving the customers separately. -/
def costU (D : ℕ → ℕ → ℚ) (un : List ℕ) : ℚ := (un.map fun n => cost D (wrap [n])).sum

/-- The cost of the routes. -/
def costU' (D : ℕ → ℕ → ℚ) (bs : List (List ℕ)) : ℚ := (bs.map fun b => cost D (wrap b)).sum

/-- The emerging route can not take `j` next to its end `i`. -/
def Closed (D : ℕ → ℕ → ℚ) (d : ℕ → ℚ) (C L : Option ℚ) (mk : Bool) (rt : List ℕ) (i j : ℕ) : Prop :=
  ¬ (Within C C_EPS (demand d rt + d j) ∧
      Within L S_EPS (cost D (wrap rt) + (D 0 j + D i j - D 0 i))) ∨ (mk = false ∧ cw D i j < 0)

theorem attach_cost {D : ℕ → ℕ → ℚ} (hD : Symm D) {i j : ℕ} {rt rt' : List ℕ}
    (h : (rt.head? = some i ∧ rt' = j :: rt) ∨ (rt.getLast? = some i ∧ rt' = rt ++ [j])) :
    cost D (wrap rt') = cost D (wrap rt) + (D 0 j + D i j - D 0 i) := by
  rcases h with ⟨h, rfl⟩ | ⟨h, rfl⟩
  · have := cost_wrap_merge D (a := [j]) (b := rt) (i := j) (j := i) rfl h
    rw [List.singleton_append] at this
    rw [this]
    have e : cost D (wrap [j]) = D 0 j + D j 0 := by simp [wrap, cost]
    rw [e, hD j 0, hD j i]; ring
  · have := cost_wrap_merge D (a := rt) (b := [j]) (i := i) (j := j) h rfl
    rw [this]
    have e : cost D (wrap [j]) = D 0 j + D j 0 := by simp [wrap, cost]
    rw [e, hD i 0, hD j 0]; ring

theorem attach_demand {d : ℕ → ℚ} {i j : ℕ} {rt rt' : List ℕ}
    (h : (rt.head? = some i ∧ rt' = j :: rt) ∨ (rt.getLast? = some i ∧ rt' = rt ++ [j])) :
    demand d rt' = demand d rt + d j := by
  rcases h with ⟨-, rfl⟩ | ⟨-, rfl⟩
  · simp only [demand]; ring
  · rw [demand_append']; simp [demand]

theorem attach_perm {i j : ℕ} {rt rt' : List ℕ}
    (h : (rt.head? = some i ∧ rt' = j :: rt) ∨ (rt.getLast? = some i ∧ rt' = rt ++ [j])) :
    rt'.Perm (j :: rt) := by
  rcases h with ⟨-, rfl⟩ | ⟨-, rfl⟩
  · exact List.Perm.refl _
  · exact List.perm_append_singleton j rt

theorem ssStep_spec {N : ℕ} {D : ℕ → ℕ → ℚ} (hD : Symm D) {d : ℕ → ℚ} {C L : Option ℚ} (mk : Bool)
    (cb : List ℕ → ℕ → List Saving) {bs : List (List ℕ)} {rt : List ℕ} {s : SSState}
    (hs : SSInv N D d C L bs rt s) (sv : Saving) :
    ∃ s', ssStep D d C L mk cb sv s = .ok s' ∧
      ((s' = { s with savings := [] } ∧ mk = false ∧ cw D sv.2.2.1 sv.2.2.2 < 0) ∨
       (s' = s ∧ (sv.2.2.2 ∈ s.unrouted → IsEnd sv.2.2.1 rt →
         Closed D d C L mk rt sv.2.2.1 sv.2.2.2)) ∨
       (∃ rt', SSInv N D d C L bs rt' s' ∧ Attached D d C L cb sv.2.2.1 sv.2.2.2 rt rt' s s' ∧
         (mk = false → 0 ≤ cw D sv.2.2.1 sv.2.2.2))) := by
  obtain ⟨v, x, i, j⟩ := sv
  unfold ssStep
  simp only
  by_cases h1 : mk = false ∧ D i 0 + D 0 j - D i j < 0
  · rw [if_pos h1]
    exact ⟨_, rfl, Or.inl ⟨rfl, h1.1, h1.2⟩⟩
  rw [if_neg h1]
  by_cases hj : j ∈ s.unrouted
  swap
  · rw [if_pos hj]
    exact ⟨_, rfl, Or.inr (Or.inl ⟨rfl, fun h => absurd h hj⟩)⟩
  rw [if_neg (not_not.2 hj)]
  by_cases h3 : exceeds C C_EPS (s.route_d + d j) = true
  · rw [if_pos h3]
    refine ⟨_, rfl, Or.inr (Or.inl ⟨rfl, fun _ _ => Or.inl ?_⟩)⟩
    intro hw
    by_cases hC : truthy C = true
    · rw [hs.dem hC] at h3
      have := (exceeds_iff C C_EPS _).2 hw.1
      rw [h3] at this
      simp at this
    · rw [exceeds_truthy (by simpa using hC)] at h3
      simp at h3
  rw [if_neg h3]
  obtain ⟨e0, he0⟩ : ∃ x, rt.head? = some x := ⟨_, List.head?_eq_some_head hs.ne⟩
  obtain ⟨e1, he1⟩ : ∃ x, rt.getLast? = some x := ⟨_, List.getLast?_eq_some_getLast hs.ne⟩
  simp only [hs.em, idx_zero he0, idxNeg_one he1]
  refine ⟨_, rfl, Or.inr ?_⟩
  have hnd : (bs.flatten ++ rt ++ s.unrouted).Nodup := hs.nodes.nodup_iff.2 List.nodup_range'
  have rnd : rt.Nodup := (List.nodup_append.1 (List.nodup_append.1 hnd).1).2.1
  have hw : Within C C_EPS (demand d rt + d j) := by
    by_cases hC : truthy C = true
    · rw [hs.dem hC] at h3
      exact (exceeds_iff C C_EPS _).1 (by simpa using h3)
    · rw [← exceeds_iff, exceeds_truthy (by simpa using hC)]
  unfold ssMerge
  simp only
  -- the two sides exclude each other
  have excl : e0 = i → ¬ (e1 = i ∧ 1 < rt.length) := by
    rintro rfl ⟨rfl, hl⟩
    obtain ⟨A, rfl⟩ := List.getLast?_eq_some_iff.1 he1
    cases A with
    | nil => simp at hl
    | cons y t =>
      simp only [List.cons_append, List.head?_cons, Option.some.injEq] at he0
      subst he0
      simp at rnd
  by_cases hside : (!(decide (e0 = i) || (decide (e1 = i) && decide (1 < rt.length)))) = true
  · rw [if_pos hside]
    refine Or.inl ⟨rfl, fun _ he => ?_⟩
    exfalso
    simp only [Bool.not_eq_true', Bool.or_eq_false_iff, decide_eq_false_iff_not, Bool.and_eq_false_iff] at hside
    rcases he with he | he
    · rw [he0] at he; simp at he; exact hside.1 he
    · rw [he1] at he
      simp at he
      rcases hside.2 with h | h
      · exact h he
      · obtain ⟨A, rfl⟩ := List.getLast?_eq_some_iff.1 he1
        have : A = [] := List.length_eq_zero_iff.1 (by simp at h; simp [h])
        subst this
        simp at he0
        exact hside.1 (he0.symm.trans he)
  rw [if_neg hside]
  have hside' : e0 = i ∨ (e1 = i ∧ 1 < rt.length) := by
    by_cases e : e0 = i
    · exact Or.inl e
    · right; simpa [e] using hside
  have hL : exceeds L S_EPS (s.route_l + (D 0 j + D i j - D 0 i)) =
      exceeds L S_EPS (cost D (wrap rt) + (D 0 j + D i j - D 0 i)) := by
    by_cases hL : truthy L = true
    · rw [hs.cst hL]
    · have hL' : truthy L = false := by simpa using hL
      rw [exceeds_truthy hL', exceeds_truthy hL']
  by_cases hx : exceeds L S_EPS (s.route_l + (D 0 j + D i j - D 0 i)) = true
  · rw [if_pos hx]
    refine Or.inl ⟨rfl, fun _ _ => Or.inl ?_⟩
    intro hw2
    have := (exceeds_iff L S_EPS _).2 hw2.2
    rw [← hL, hx] at this
    simp at this
  rw [if_neg hx]
  have hwL : Within L S_EPS (cost D (wrap rt) + (D 0 j + D i j - D 0 i)) := by
    rw [← exceeds_iff, ← hL]; simpa using hx
  -- the new route
  obtain ⟨rt', hrt', shape, hseen⟩ : ∃ rt', (if (decide (e1 = i) && decide (1 < rt.length)) = true then
        (if decide (e0 = i) = true then j :: rt else rt) ++ [j]
        else if decide (e0 = i) = true then j :: rt else rt) = rt' ∧
      ((rt.head? = some i ∧ rt' = j :: rt) ∨ (rt.getLast? = some i ∧ rt' = rt ++ [j])) ∧
      (∀ x ∈ (if decide (e0 = i) = true then
            [(177, s.solution, some (if decide (e0 = i) = true then j :: rt else rt), s.unrouted)] else []) ++
          (if (decide (e1 = i) && decide (1 < rt.length)) = true then
            [(179, s.solution, some (if (decide (e1 = i) && decide (1 < rt.length)) = true then
              (if decide (e0 = i) = true then j :: rt else rt) ++ [j]
              else if decide (e0 = i) = true then j :: rt else rt), s.unrouted)] else []),
        x.1 ∈ ssBadLines ∧ x.2 = (s.solution, some rt', s.unrouted)) := by
    rcases hside' with h | h
    · subst h
      have hn := excl rfl
      have hn' : (decide (e1 = e0) && decide (1 < rt.length)) = false := by
        rw [Bool.eq_false_iff]; simpa using hn
      refine ⟨j :: rt, by simp [hn'], Or.inl ⟨he0, rfl⟩, ?_⟩
      intro x hx
      simp [hn'] at hx
      subst hx
      exact ⟨by simp [ssBadLines], rfl⟩
    · have hn : e0 ≠ i := fun e => excl e h
      have hn' : (decide (e1 = i) && decide (1 < rt.length)) = true := by simpa using h
      refine ⟨rt ++ [j], by simp [hn', hn], Or.inr ⟨by rw [he1, h.1], rfl⟩, ?_⟩
      intro x hx
      simp [hn', hn] at hx
      subst hx
      exact ⟨by simp [ssBadLines], rfl⟩
  right
  have hperm : (bs.flatten ++ rt' ++ s.unrouted.erase j).Perm (List.range' 1 (N - 1)) := by
    refine List.Perm.trans ?_ hs.nodes
    have h1 := attach_perm shape
    have h2 : s.unrouted.Perm (j :: s.unrouted.erase j) := List.perm_cons_erase hj
    rw [List.append_assoc, List.append_assoc]
    refine List.Perm.append_left _ ?_
    refine (h1.append_right _).trans ?_
    refine List.Perm.trans ?_ (h2.symm.append_left rt)
    exact List.perm_middle.symm
  have hok : RouteOk D d C L rt' := by
    constructor
    · rw [attach_demand shape]; exact hw
    · rw [attach_cost hD shape]; exact hwL
  have hne' : rt' ≠ [] := by rcases shape with ⟨-, rfl⟩ | ⟨-, rfl⟩ <;> simp
  have hun0 : ∀ x ∈ s.unrouted, x ≠ 0 := fun x hx => perm_range_ne hs.nodes x (by simp [hx])
  refine ⟨rt', ⟨hs.sol, by simp only [hrt'], hne', hs.bne, hperm, ?_, ?_, ?_, ?_⟩, ⟨shape, hj, rfl, rfl, rfl⟩,
    fun hm => not_lt.1 fun hlt => h1 ⟨hm, hlt⟩⟩
  · intro hC
    simp only [hC, if_true, hs.dem hC, attach_demand shape]
  · intro hL
    simp only [hL, if_true, hs.cst hL, attach_cost hD shape]
  · exact fun hv => ⟨hok, (hs.feas hv).2⟩
  · intro x hx
    simp only at hx
    rw [List.mem_append, List.append_assoc, List.mem_append] at hx
    rcases hx with (hx | hx) | hx
    · exact hs.seenOk x hx
    · obtain ⟨h1, h2⟩ := hseen x hx
      have hall : ∀ n ∈ bs.flatten ++ [rt'].flatten ++ s.unrouted, n ≠ 0 := by
        intro n hn
        simp only [List.flatten_singleton, List.mem_append] at hn
        rcases hn with (hn | hn) | hn
        · exact perm_range_ne hs.nodes n (by simp [hn])
        · exact perm_range_ne hperm n (by simp [hn])
        · exact hun0 n hn
      refine ⟨viewRoutes bs [rt'] s.unrouted, ?_, viewRoutes_ne hall, fun h => absurd h1 h, fun _ => ?_⟩
      · rw [h2, hs.sol]
        exact interrupted_some hun0 hne'
      · refine viewBad (n := j) ?_ hj
        have : j ∈ rt' := (attach_perm shape).mem_iff.2 (List.mem_cons_self ..)
        simp [this]
    · simp only [List.mem_singleton] at hx
      subst hx
      simp only [hrt']
      obtain ⟨v1, v2⟩ := viewOk (D := D) (d := d) (C := C) (L := L) (em := [rt'])
        (by simpa using hperm) (fun hv => ⟨(hs.feas hv).2, fun b hb _ => by
          simp only [List.mem_singleton] at hb; rw [hb]; exact hok⟩)
      refine ⟨viewRoutes bs [rt'] (s.unrouted.erase j), ?_, v1, fun _ => v2, fun h => absurd h (by simp [ssBadLines])⟩
      simp only [hs.sol]
      exact interrupted_some (fun x hx => hun0 x (List.mem_of_mem_erase hx)) hne'

/-! ## The inner loop -/

/-- The callback hands out the savings of all the customers, sorted. -/
structure GoodCb (D : ℕ → ℕ → ℚ) (cb : List ℕ → ℕ → List Saving) : Prop where
  val : ∀ un i, ∀ sv ∈ cb un i, sv.1 = D sv.2.2.1 0 + D 0 sv.2.2.2 - D sv.2.2.1 sv.2.2.2
  sorted : ∀ un i, (cb un i).Pairwise fun a b => savingLe a b = true
  all : ∀ un i, ∀ j ∈ un, j ≠ i → ∃ sv ∈ cb un i, sv.2.2.1 = i ∧ sv.2.2.2 = j

theorem savingLe_total (a b : Saving) : (savingLe a b || savingLe b a) = true := by
  obtain ⟨a1, a2, a3, a4⟩ := a
  obtain ⟨b1, b2, b3, b4⟩ := b
  simp only [savingLe, Bool.or_eq_true, Bool.and_eq_true, decide_eq_true_eq]
  rcases lt_trichotomy a1 b1 with h | rfl | h <;> try tauto
  rcases lt_trichotomy a2 b2 with h | rfl | h <;> try tauto
  rcases lt_trichotomy a3 b3 with h | rfl | h <;> try tauto
  rcases le_total a4 b4 with h | h <;> tauto

theorem savingLe_trans (a b c : Saving) (h1 : savingLe a b = true) (h2 : savingLe b c = true) :
    savingLe a c = true := by
  obtain ⟨a1, a2, a3, a4⟩ := a
  obtain ⟨b1, b2, b3, b4⟩ := b
  obtain ⟨c1, c2, c3, c4⟩ := c
  simp only [savingLe, Bool.or_eq_true, Bool.and_eq_true, decide_eq_true_eq] at *
  rcases h1 with h1 | ⟨rfl, h1⟩
  · rcases h2 with h2 | ⟨rfl, h2⟩
    · exact Or.inl (lt_trans h1 h2)
    · exact Or.inl h1
  rcases h2 with h2 | ⟨rfl, h2⟩
  · exact Or.inl h2
  refine Or.inr ⟨rfl, ?_⟩
  rcases h1 with h1 | ⟨rfl, h1⟩
  · rcases h2 with h2 | ⟨rfl, h2⟩
    · exact Or.inl (lt_trans h1 h2)
    · exact Or.inl h1
  rcases h2 with h2 | ⟨rfl, h2⟩
  · exact Or.inl h2
  refine Or.inr ⟨rfl, ?_⟩
  rcases h1 with h1 | ⟨rfl, h1⟩
  · rcases h2 with h2 | ⟨rfl, h2⟩
    · exact Or.inl (lt_trans h1 h2)
    · exact Or.inl h1
  rcases h2 with h2 | ⟨rfl, h2⟩
  · exact Or.inl h2
  exact Or.inr ⟨rfl, le_trans h1 h2⟩

theorem savingLe_fst {a b : Saving} (h : savingLe a b = true) : a.1 ≤ b.1 := by
  simp only [savingLe, Bool.or_eq_true, Bool.and_eq_true, decide_eq_true_eq] at h
  rcases h with h | h
  · exact le_of_lt h
  · exact le_of_eq h.1

/-- The savings still to be tried. -/
structure Pend (D : ℕ → ℕ → ℚ) (d : ℕ → ℚ) (C L : Option ℚ) (mk : Bool) (rt : List ℕ) (un : List ℕ)
    (savings : List Saving) : Prop where
  val : ∀ sv ∈ savings, sv.1 = cw D sv.2.2.1 sv.2.2.2
  sorted : savings.Pairwise fun a b => savingLe a b = true
  pend : ∀ e c, IsEnd e rt → c ∈ un →
    (∃ sv ∈ savings, sv.2.2.1 = e ∧ sv.2.2.2 = c) ∨ Closed D d C L mk rt e c

/-- What is closed stays closed when the route grows at its other end. -/
theorem closed_attach {D : ℕ → ℕ → ℚ} (hD : Symm D) (hT : Triangle D) {d : ℕ → ℚ} (hd : ∀ n, 0 ≤ d n)
    {C L : Option ℚ} {mk : Bool} {i j : ℕ} {rt rt' : List ℕ}
    (h : (rt.head? = some i ∧ rt' = j :: rt) ∨ (rt.getLast? = some i ∧ rt' = rt ++ [j])) {e c : ℕ}
    (hc : Closed D d C L mk rt e c) : Closed D d C L mk rt' e c := by
  rcases hc with hc | hc
  · left
    rintro ⟨h1, h2⟩
    apply hc
    have hg : cost D (wrap rt) ≤ cost D (wrap rt') := by
      rcases h with ⟨h, rfl⟩ | ⟨h, rfl⟩
      · exact (cost_merge_ge hD hT (a := [j]) (b := rt) rfl h).2
      · exact (cost_merge_ge hD hT (a := rt) (b := [j]) h rfl).1
    have hdj := hd j
    have he := attach_demand (d := d) h
    constructor
    · intro x hx h0
      have := h1 x hx h0
      linarith
    · intro x hx h0
      have := h2 x hx h0
      linarith
  · exact Or.inr hc

theorem isEnd_attach {i j e : ℕ} {rt rt' : List ℕ}
    (h : (rt.head? = some i ∧ rt' = j :: rt) ∨ (rt.getLast? = some i ∧ rt' = rt ++ [j]))
    (he : IsEnd e rt') : e = j ∨ IsEnd e rt := by
  rcases h with ⟨h, rfl⟩ | ⟨h, rfl⟩
  · rcases he with he | he
    · simp at he; exact Or.inl he.symm
    · have : rt ≠ [] := by rintro rfl; simp at h
      rw [List.getLast?_cons, List.getLast?_eq_some_getLast this] at he
      right; right
      rw [List.getLast?_eq_some_getLast this]
      simpa using he
  · rcases he with he | he
    · have : rt ≠ [] := by rintro rfl; simp at h
      rw [List.head?_append_of_ne_nil _ this] at he
      exact Or.inr (Or.inl he)
    · simp at he; exact Or.inl he.symm

theorem ssInner_spec {N : ℕ} {D : ℕ → ℕ → ℚ} (hD : Symm D) {d : ℕ → ℚ} {C L : Option ℚ} (mk : Bool)
    (cb : List ℕ → ℕ → List Saving) {M : Prop} (hM : M → Triangle D ∧ (∀ n, 0 ≤ d n) ∧ GoodCb D cb)
    {bs : List (List ℕ)} (n : ℕ) : ∀ (k : ℕ) (rt : List ℕ) (s : SSState),
    s.unrouted.length ≤ n → s.savings.length ≤ k → SSInv N D d C L bs rt s →
    (M → Pend D d C L mk rt s.unrouted s.savings) →
    ∃ F s' rt', (∀ fuel, F ≤ fuel → ssInner D d C L mk cb fuel s = .ok (some s')) ∧
      SSInv N D d C L bs rt' s' ∧ s'.savings = [] ∧ s'.unrouted.length ≤ s.unrouted.length ∧
      (∀ x ∈ s'.unrouted, x ∈ s.unrouted) ∧ s'.seeds = s.seeds ∧
      (mk = false → cost D (wrap rt') + costU D s'.unrouted ≤ cost D (wrap rt) + costU D s.unrouted) ∧
      (M → ∀ e c, IsEnd e rt' → c ∈ s'.unrouted → Closed D d C L mk rt' e c) := by
  induction n using Nat.strong_induction_on with
  | _ n ihn =>
    intro k
    induction k with
    | zero =>
      intro rt s _ hk hs hp
      have he : s.savings = [] := List.length_eq_zero_iff.1 (by omega)
      refine ⟨1, s, rt, ?_, hs, he, le_refl _, fun _ h => h, rfl, fun _ => le_refl _, ?_⟩
      · intro fuel hf
        obtain ⟨f, rfl⟩ : ∃ f, fuel = f + 1 := ⟨fuel - 1, by omega⟩
        simp [ssInner, he]
      · intro m e c h1 h2
        have := (hp m).pend e c h1 h2
        rw [he] at this
        simpa using this
    | succ k ihk =>
      intro rt s hn hk hs hp
      cases hl : s.savings.getLast? with
      | none =>
        have he : s.savings = [] := List.getLast?_eq_none_iff.1 hl
        exact ihk rt s hn (by simp [he]) hs hp
      | some sv =>
        obtain ⟨sav, hsav⟩ := List.getLast?_eq_some_iff.1 hl
        have hdrop : s.savings.dropLast = sav := by rw [hsav]; simp
        have hlen : sav.length ≤ k := by rw [hsav] at hk; simp at hk; omega
        have hs' : SSInv N D d C L bs rt { s with savings := sav } :=
          ⟨hs.sol, hs.em, hs.ne, hs.bne, hs.nodes, hs.dem, hs.cst, hs.feas, hs.seenOk⟩
        obtain ⟨s1, h1, h2⟩ := ssStep_spec hD mk cb hs' sv
        -- from a result for the next state to the result for this one
        have lift : ∀ {rt1 : List ℕ}, (mk = false →
              cost D (wrap rt1) + costU D s1.unrouted ≤ cost D (wrap rt) + costU D s.unrouted) → s1.unrouted.length ≤ s.unrouted.length →
            (∀ x ∈ s1.unrouted, x ∈ s.unrouted) → s1.seeds = s.seeds →
            (∃ F s' rt', (∀ fuel, F ≤ fuel → ssInner D d C L mk cb fuel s1 = .ok (some s')) ∧
              SSInv N D d C L bs rt' s' ∧ s'.savings = [] ∧ s'.unrouted.length ≤ s1.unrouted.length ∧
              (∀ x ∈ s'.unrouted, x ∈ s1.unrouted) ∧ s'.seeds = s1.seeds ∧
              (mk = false → cost D (wrap rt') + costU D s'.unrouted ≤ cost D (wrap rt1) + costU D s1.unrouted) ∧
              (M → ∀ e c, IsEnd e rt' → c ∈ s'.unrouted → Closed D d C L mk rt' e c)) →
            ∃ F s' rt', (∀ fuel, F ≤ fuel → ssInner D d C L mk cb fuel s = .ok (some s')) ∧
              SSInv N D d C L bs rt' s' ∧ s'.savings = [] ∧ s'.unrouted.length ≤ s.unrouted.length ∧
              (∀ x ∈ s'.unrouted, x ∈ s.unrouted) ∧ s'.seeds = s.seeds ∧
              (mk = false → cost D (wrap rt') + costU D s'.unrouted ≤ cost D (wrap rt) + costU D s.unrouted) ∧
              (M → ∀ e c, IsEnd e rt' → c ∈ s'.unrouted → Closed D d C L mk rt' e c) := by
          rintro rt1 a0 a1 a2 a3 ⟨F, s', rt', g1, g2, g3, g4, g5, g6, g7, g8⟩
          refine ⟨F + 1, s', rt', ?_, g2, g3, by omega, fun x hx => a2 x (g5 x hx), g6.trans a3,
            fun hm => le_trans (g7 hm) (a0 hm), g8⟩
          intro fuel hf
          obtain ⟨f, rfl⟩ : ∃ f, fuel = f + 1 := ⟨fuel - 1, by omega⟩
          rw [ssInner]
          simp only [hl, hdrop, h1]
          exact g1 f (by omega)
        rcases h2 with ⟨rfl, hmk, hneg⟩ | ⟨rfl, hcl⟩ | ⟨rt', hinv, hat, hcw⟩
        · refine lift (rt1 := rt) (fun _ => le_refl _) (le_refl _) (fun _ h => h) rfl ?_
          refine ihk rt _ hn (by simp) ⟨hs.sol, hs.em, hs.ne, hs.bne, hs.nodes, hs.dem, hs.cst, hs.feas, hs.seenOk⟩ ?_
          intro m
          refine ⟨by simp, by simp, fun e c he hc => Or.inr ?_⟩
          rcases (hp m).pend e c he hc with ⟨sv', hsv', rfl, rfl⟩ | h
          · right
            refine ⟨hmk, ?_⟩
            have hle : sv'.1 ≤ sv.1 := by
              rw [hsav] at hsv'
              rcases List.mem_append.1 hsv' with h | h
              · have hp' := (hp m).sorted
                rw [hsav] at hp'
                exact savingLe_fst ((List.pairwise_append.1 hp').2.2 sv' h sv (by simp))
              · simp only [List.mem_singleton] at h
                rw [h]
            rw [(hp m).val sv' hsv', (hp m).val sv (by rw [hsav]; simp)] at hle
            linarith
          · exact h
        · refine lift (rt1 := rt) (fun _ => le_refl _) (le_refl _) (fun _ h => h) rfl ?_
          refine ihk rt _ hn hlen hs' ?_
          intro m
          have hp' := hp m
          refine ⟨fun x hx => hp'.val x (by rw [hsav]; simp [hx]), ?_, fun e c he hc => ?_⟩
          · have := hp'.sorted
            rw [hsav] at this
            exact (List.pairwise_append.1 this).1
          · rcases hp'.pend e c he hc with ⟨sv', hsv', rfl, rfl⟩ | h
            · rw [hsav] at hsv'
              rcases List.mem_append.1 hsv' with h | h
              · exact Or.inl ⟨sv', h, rfl, rfl⟩
              · simp only [List.mem_singleton] at h
                subst h
                exact Or.inr (hcl hc he)
            · exact Or.inr h
        · have hlt : s1.unrouted.length < s.unrouted.length := by
            rw [hat.un, List.length_erase_of_mem hat.mem]
            have : 0 < s.unrouted.length := List.length_pos_of_mem hat.mem
            simp only
            omega
          refine lift (rt1 := rt') ?_ (le_of_lt hlt) ?_ hat.seeds ?_
          · intro hm
            have h0 := hcw hm
            have hu : costU D s.unrouted = cost D (wrap [sv.2.2.2]) + costU D (s.unrouted.erase sv.2.2.2) := by
              have := ((List.perm_cons_erase hat.mem).map fun n => cost D (wrap [n])).sum_eq
              simpa [costU] using this
            rw [hat.un, attach_cost hD hat.shape, hu]
            have : cost D (wrap [sv.2.2.2]) = D 0 sv.2.2.2 + D sv.2.2.2 0 := by simp [wrap, cost]
            rw [this]
            unfold cw at h0
            rw [hD sv.2.2.1 0] at h0
            rw [hD sv.2.2.2 0]
            simp only
            linarith
          · intro x hx
            rw [hat.un] at hx
            exact List.mem_of_mem_erase hx
          · refine ihn s1.unrouted.length (by omega) s1.savings.length rt' s1 (le_refl _) (le_refl _) hinv ?_
            intro m
            obtain ⟨hT, hd, hcb⟩ := hM m
            have hp' := hp m
            rw [hat.sav, hat.un]
            refine ⟨?_, pySort_pairwise savingLe_trans savingLe_total _, ?_⟩
            · intro x hx
              rw [mem_pySort, List.mem_append] at hx
              rcases hx with hx | hx
              · exact hp'.val x (by rw [hsav]; exact List.mem_append_left _ hx)
              · exact hcb.val _ _ x hx
            · intro e c he hc
              have hnd : (s.unrouted).Nodup := by
                have : (bs.flatten ++ rt ++ s.unrouted).Nodup := hs.nodes.nodup_iff.2 List.nodup_range'
                exact (List.nodup_append.1 this).2.1
              have hc' : c ∈ s.unrouted ∧ c ≠ sv.2.2.2 := by
                have hc2 : c ∈ s.unrouted.erase sv.2.2.2 := hc
                rw [hnd.mem_erase_iff] at hc2
                exact ⟨hc2.2, hc2.1⟩
              rcases isEnd_attach hat.shape he with rfl | he'
              · obtain ⟨sv', g1, g2⟩ := hcb.all (s.unrouted.erase sv.2.2.2) sv.2.2.2 c hc hc'.2
                refine Or.inl ⟨sv', ?_, g2⟩
                rw [mem_pySort, List.mem_append]
                exact Or.inr g1
              · rcases hp'.pend e c he' hc'.1 with ⟨sv', hsv', rfl, rfl⟩ | h
                · left
                  rw [hsav] at hsv'
                  rcases List.mem_append.1 hsv' with h | h
                  · refine ⟨sv', ?_, rfl, rfl⟩
                    rw [mem_pySort, List.mem_append]
                    exact Or.inl h
                  · simp only [List.mem_singleton] at h
                    subst h
                    exact absurd rfl hc'.2
                · exact Or.inr (closed_attach hD hT hd hat.shape h)

/-! ## The outer loop -/

theorem popSeed_spec {un : List ℕ} : ∀ {l : List ℕ}, un ≠ [] → (∀ n ∈ un, n ∈ l) →
    ∃ seed rest, popSeed un l = .ok (seed, rest) ∧ seed ∈ un ∧ ∀ n ∈ un, n ≠ seed → n ∈ rest
  | [], hne, h => by
    cases un with
    | nil => exact absurd rfl hne
    | cons a t => exact absurd (h a (by simp)) (by simp)
  | a :: t, hne, h => by
    unfold popSeed
    by_cases ha : a ∈ un
    · rw [if_pos ha]
      exact ⟨a, t, rfl, ha, fun n hn hna => by simpa [hna] using h n hn⟩
    · rw [if_neg ha]
      refine popSeed_spec hne fun n hn => ?_
      have := h n hn
      rcases List.mem_cons.1 this with rfl | this
      · exact absurd hn ha
      · exact this

theorem ssStart_spec {N : ℕ} {D : ℕ → ℕ → ℚ} {d : ℕ → ℚ} {C L : Option ℚ}
    (cb : List ℕ → ℕ → List Saving) {bs : List (List ℕ)} {s : SSState} (hs : SSInv0 N D d C L bs s)
    (hne : s.unrouted ≠ []) :
    ∃ s' seed, ssStart D d C L cb s = .ok s' ∧ seed ∈ s.unrouted ∧ SSInv N D d C L bs [seed] s' ∧
      s'.unrouted = s.unrouted.erase seed ∧ s'.savings = cb s'.unrouted seed ∧
      ∀ n ∈ s'.unrouted, n ∈ s'.seeds := by
  obtain ⟨seed, rest, h1, h2, h3⟩ := popSeed_spec (l := s.seeds.reverse) hne
    (fun n hn => by simpa using hs.seeds n hn)
  have hnd : s.unrouted.Nodup :=
    (List.nodup_append.1 (hs.nodes.nodup_iff.2 List.nodup_range')).2.1
  unfold ssStart
  rw [if_neg (by simpa using hs.sav)]
  simp only [h1]
  have hperm : (bs.flatten ++ [seed] ++ s.unrouted.erase seed).Perm (List.range' 1 (N - 1)) := by
    refine List.Perm.trans ?_ hs.nodes
    rw [List.append_assoc]
    exact (List.perm_cons_erase h2).symm.append_left _
  have hseed : 1 ≤ seed ∧ seed < N := by
    have : seed ∈ List.range' 1 (N - 1) := hs.nodes.mem_iff.1 (by simp [h2])
    rw [List.mem_range'_1] at this
    omega
  have hun0 : ∀ x ∈ s.unrouted, x ≠ 0 := fun x hx => perm_range_ne hs.nodes x (by simp [hx])
  refine ⟨_, seed, rfl, h2, ⟨hs.sol, rfl, by simp, hs.bne, hperm, ?_, ?_, ?_, ?_⟩, rfl, rfl, ?_⟩
  · intro hC
    simp [hC, demand]
  · intro hL
    simp [hL, wrap, cost]
  · exact fun hv => ⟨hv seed hseed.1 hseed.2, hs.feas hv⟩
  · intro x hx
    simp only [List.mem_append, List.mem_cons, List.not_mem_nil, or_false] at hx
    rcases hx with hx | rfl | rfl
    · exact hs.seenOk x hx
    · refine ⟨viewRoutes bs [[seed]] s.unrouted, ?_, viewRoutes_ne ?_, fun h => absurd ?_ h, fun _ => ?_⟩
      · rw [hs.sol]; exact interrupted_some hun0 (by simp)
      · intro n hn
        simp only [List.flatten_singleton, List.mem_append, List.mem_singleton] at hn
        rcases hn with (hn | hn) | hn
        · exact perm_range_ne hs.nodes n (by simp [hn])
        · omega
        · exact hun0 n hn
      · simp [ssBadLines]
      · exact viewBad (n := seed) (by simp) h2
    · have hv := viewOk (N := N) (D := D) (d := d) (C := C) (L := L) (bs := bs) (em := [[seed]])
        (un := s.unrouted.erase seed) (by simpa using hperm) (fun hv => ⟨hs.feas hv, by
          intro b hb _
          simp only [List.mem_singleton] at hb
          subst hb
          exact hv seed hseed.1 hseed.2⟩)
      refine ⟨_, ?_, hv.1, fun _ => hv.2, fun h => absurd h (by simp [ssBadLines])⟩
      rw [hs.sol]
      exact interrupted_some (fun x hx => hun0 x (List.mem_of_mem_erase hx)) (by simp)
  · intro n hn
    have hn' : n ≠ seed ∧ n ∈ s.unrouted := hnd.mem_erase_iff.1 hn
    simpa using h3 n hn'.2 hn'.1

theorem ssFinish_spec {N : ℕ} {D : ℕ → ℕ → ℚ} {d : ℕ → ℚ} {C L : Option ℚ} {bs : List (List ℕ)}
    {rt : List ℕ} {s : SSState} (hs : SSInv N D d C L bs rt s) (hsav : s.savings = [])
    (hseeds : ∀ n ∈ s.unrouted, n ∈ s.seeds) :
    ∃ s', ssFinish s = .ok s' ∧ SSInv0 N D d C L (bs ++ [rt]) s' ∧ s'.unrouted = s.unrouted := by
  unfold ssFinish
  simp only [hs.em]
  have hun0 : ∀ x ∈ s.unrouted, x ≠ 0 := fun x hx => perm_range_ne hs.nodes x (by simp [hx])
  have hsol : s.solution ++ (rt ++ [0]) = tour (bs ++ [rt]) := by
    rw [hs.sol, tour_concat]; simp
  have hperm : ((bs ++ [rt]).flatten ++ s.unrouted).Perm (List.range' 1 (N - 1)) := by
    simpa using hs.nodes
  refine ⟨_, rfl, ⟨hsol, rfl, hsav, ?_, hperm, ?_, ?_, hseeds⟩, rfl⟩
  · intro b hb
    simp only [List.mem_append, List.mem_singleton] at hb
    rcases hb with hb | rfl
    · exact hs.bne b hb
    · exact hs.ne
  · intro hv b hb
    simp only [List.mem_append, List.mem_singleton] at hb
    rcases hb with hb | rfl
    · exact (hs.feas hv).2 b hb
    · exact (hs.feas hv).1
  · intro x hx
    simp only [List.mem_append, List.mem_cons, List.not_mem_nil, or_false] at hx
    rcases hx with hx | rfl | rfl | rfl
    · exact hs.seenOk x hx
    · have hv := viewOk (N := N) (D := D) (d := d) (C := C) (L := L) (bs := bs) (em := [rt, []])
        (un := s.unrouted) (by simpa using hs.nodes) (fun hv => ⟨(hs.feas hv).2, by
          intro b hb hbne
          simp only [List.mem_cons, List.not_mem_nil, or_false] at hb
          rcases hb with rfl | rfl
          · exact (hs.feas hv).1
          · exact absurd rfl hbne⟩)
      refine ⟨_, ?_, hv.1, fun _ => hv.2, fun h => absurd h (by simp [ssBadLines])⟩
      rw [hs.sol]
      exact interrupted_closed hun0
    · obtain ⟨n, hn⟩ := List.exists_mem_of_ne_nil rt hs.ne
      refine ⟨viewRoutes (bs ++ [rt]) [rt, []] s.unrouted, ?_, viewRoutes_ne ?_,
        fun h => absurd ?_ h, fun _ => viewBad' (n := n) (by simp [hn]) (by simp [hn])⟩
      · rw [hsol]
        exact interrupted_closed hun0
      · intro n hn
        apply perm_range_ne hs.nodes
        simp only [List.flatten_append, List.flatten_cons, List.flatten_nil, List.append_nil,
          List.mem_append] at hn ⊢
        tauto
      · simp [ssBadLines]
    · have hv := viewOk (N := N) (D := D) (d := d) (C := C) (L := L) (bs := bs ++ [rt]) (em := [])
        (un := s.unrouted) (by simpa using hs.nodes) (fun hv => ⟨by
          intro b hb
          simp only [List.mem_append, List.mem_singleton] at hb
          rcases hb with hb | rfl
          · exact (hs.feas hv).2 b hb
          · exact (hs.feas hv).1, by simp⟩)
      refine ⟨_, ?_, hv.1, fun _ => hv.2, fun h => absurd h (by simp [ssBadLines])⟩
      rw [hsol]
      exact interrupted_none hun0

/-- Routes that can not be extended with the customers of later routes. -/
def Grown (D : ℕ → ℕ → ℚ) (d : ℕ → ℚ) (C L : Option ℚ) (mk : Bool) (bs : List (List ℕ)) : Prop :=
  bs.Pairwise fun b b' => ∀ e c, IsEnd e b → c ∈ b' → Closed D d C L mk b e c

theorem ssOuter_spec {N : ℕ} {D : ℕ → ℕ → ℚ} (hD : Symm D) {d : ℕ → ℚ} {C L : Option ℚ} (mk : Bool)
    (cb : List ℕ → ℕ → List Saving) {M : Prop} (hM : M → Triangle D ∧ (∀ n, 0 ≤ d n) ∧ GoodCb D cb)
    (n : ℕ) : ∀ (bs : List (List ℕ)) (s : SSState), s.unrouted.length ≤ n → SSInv0 N D d C L bs s →
    (M → Grown D d C L mk bs ∧ ∀ b ∈ bs, ∀ e c, IsEnd e b → c ∈ s.unrouted → Closed D d C L mk b e c) →
    ∃ F s' bs', (∀ inner fuel, F ≤ inner → F ≤ fuel →
        ssOuter D d C L mk cb inner fuel s = .ok (some s')) ∧
      SSInv0 N D d C L bs' s' ∧ s'.unrouted = [] ∧
      (mk = false → costU' D bs' ≤ costU' D bs + costU D s.unrouted) ∧ (M → Grown D d C L mk bs') := by
  induction n using Nat.strong_induction_on with
  | _ n ih =>
    intro bs s hn hs hg
    by_cases hun : s.unrouted = []
    · refine ⟨1, s, bs, ?_, hs, hun, ?_, fun m => (hg m).1⟩
      · intro inner fuel _ hf
        obtain ⟨f, rfl⟩ : ∃ f, fuel = f + 1 := ⟨fuel - 1, by omega⟩
        rw [ssOuter, if_pos hun]
      · intro _
        simp [hun, costU]
    · obtain ⟨s1, seed, a1, a2, a3, a4, a5, a6⟩ := ssStart_spec cb hs hun
      have hun1 : s1.unrouted.length < s.unrouted.length := by
        rw [a4, List.length_erase_of_mem a2]
        have : 0 < s.unrouted.length := List.length_pos_of_mem a2
        omega
      obtain ⟨F1, s2, rt, b1, b2, b3, b4, b5, b6, b7, b8⟩ := ssInner_spec hD mk cb hM
        s1.unrouted.length s1.savings.length [seed] s1 (le_refl _) (le_refl _) a3 (by
          intro m
          obtain ⟨-, -, hcb⟩ := hM m
          rw [a5]
          refine ⟨fun sv hsv => hcb.val _ _ sv hsv, hcb.sorted _ _, fun e c he hc => Or.inl ?_⟩
          have : e = seed := by rcases he with he | he <;> simpa using he.symm
          subst this
          refine hcb.all _ _ c hc ?_
          rintro rfl
          have hnd : (bs.flatten ++ [c] ++ s1.unrouted).Nodup := a3.nodes.nodup_iff.2 List.nodup_range'
          exact (List.nodup_append.1 hnd).2.2 c (by simp) c hc rfl)
      obtain ⟨s3, c1, c2, c3⟩ := ssFinish_spec b2 b3 (fun n hn => by rw [b6]; exact a6 n (b5 n hn))
      have hrt : ∀ c ∈ rt, c ∈ s.unrouted := by
        intro c hc
        have h1 := b2.nodes.trans hs.nodes.symm
        rw [List.append_assoc] at h1
        have h2 := (List.perm_append_left_iff _).1 h1
        exact h2.mem_iff.1 (by simp [hc])
      obtain ⟨F2, s', bs', d1, d2, d3, d4, d5⟩ := ih s3.unrouted.length (by rw [c3]; omega) (bs ++ [rt]) s3
        (le_refl _) c2 (by
          intro m
          obtain ⟨g1, g2⟩ := hg m
          constructor
          · unfold Grown
            rw [List.pairwise_append]
            refine ⟨g1, by simp, ?_⟩
            intro b hb b' hb' e c he hc
            simp only [List.mem_singleton] at hb'
            subst hb'
            exact g2 b hb e c he (hrt c hc)
          · intro b hb e c he hc
            rw [c3] at hc
            simp only [List.mem_append, List.mem_singleton] at hb
            rcases hb with hb | rfl
            · refine g2 b hb e c he ?_
              have := b5 c hc
              rw [a4] at this
              exact List.mem_of_mem_erase this
            · exact b8 m e c he hc)
      refine ⟨max F1 F2 + 1, s', bs', ?_, d2, d3, ?_, d5⟩
      · intro inner fuel hi hf
        obtain ⟨f, rfl⟩ : ∃ f, fuel = f + 1 := ⟨fuel - 1, by omega⟩
        rw [ssOuter, if_neg hun]
        simp only [a1, b1 inner (by omega), c1]
        exact d1 inner f (by omega) (by omega)
      · intro hm
        have e1 := b7 hm
        have e2 := d4 hm
        have hu : costU D s.unrouted = cost D (wrap [seed]) + costU D s1.unrouted := by
          rw [a4]
          have := ((List.perm_cons_erase a2).map fun n => cost D (wrap [n])).sum_eq
          simpa [costU] using this
        rw [c3] at e2
        simp only [costU', List.map_append, List.sum_append, List.map_cons, List.map_nil, List.sum_cons,
          List.sum_nil] at e2 ⊢
        linarith

end Verif
